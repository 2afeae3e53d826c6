import Mathlib.Algebra.Field.Basic
import Mathlib.Tactic.FieldSimp
import Mathlib.Algebra.Group.Even
import Verif.Proofs.EdwardsPoly

/-!
The addition law of a complete twisted Edwards curve `y² - x² = 1 + d x² y²` over a field in which `-1` is a square
and `d` is not: the denominators never vanish, the sum lies on the curve, and addition is associative.
-/

namespace Verif

variable {F : Type*} [Field F]

/-- The curve equation. -/
def OnCurve (d x y : F) : Prop := y ^ 2 - x ^ 2 = 1 + d * x ^ 2 * y ^ 2

theorem edwards_complete {d i : F} (hd : ¬ IsSquare d) (hi : i ^ 2 = -1) (h2 : (2 : F) ≠ 0) {x1 y1 x2 y2 : F}
    (h1 : OnCurve d x1 y1) (h3 : OnCurve d x2 y2) : (d * x1 * x2 * y1 * y2) ^ 2 ≠ 1 := by
  unfold OnCurve at h1 h3
  intro he
  have hx1 : x1 ≠ 0 := by rintro rfl; simp at he
  have hy1 : y1 ≠ 0 := by rintro rfl; simp at he
  have hi0 : i ≠ 0 := by rintro rfl; simp at hi
  have ep : (i * x1 + (d * x1 * x2 * y1 * y2) * y1) ^ 2 = d * (x1 * y1 * (i * x2 + y2)) ^ 2 := by
    linear_combination (x1 ^ 2 - d * x1 ^ 2 * y1 ^ 2 * x2 ^ 2) * hi + (y1 ^ 2 - 1) * he + h1 - d * x1 ^ 2 * y1 ^ 2 * h3
  have em : (i * x1 - (d * x1 * x2 * y1 * y2) * y1) ^ 2 = d * (x1 * y1 * (i * x2 - y2)) ^ 2 := by
    linear_combination (x1 ^ 2 - d * x1 ^ 2 * y1 ^ 2 * x2 ^ 2) * hi + (y1 ^ 2 - 1) * he + h1 - d * x1 ^ 2 * y1 ^ 2 * h3
  have sq : ∀ a w : F, a ^ 2 = d * (x1 * y1 * w) ^ 2 → w = 0 := by
    intro a w h
    by_cases hw : w = 0
    · exact hw
    · refine absurd ⟨a / (x1 * y1 * w), ?_⟩ hd
      field_simp
      linear_combination -h
  have z1 := sq _ _ ep
  have z2 := sq _ _ em
  have hx2 : x2 = 0 := by
    have : 2 * i * x2 = 0 := by linear_combination z1 + z2
    simpa [h2, hi0] using this
  have hy2 : y2 = 0 := by simpa [hx2] using z1
  rw [hx2, hy2] at h3
  simp at h3

theorem edwards_denominators {d i : F} (hd : ¬ IsSquare d) (hi : i ^ 2 = -1) (h2 : (2 : F) ≠ 0) {x1 y1 x2 y2 : F}
    (h1 : OnCurve d x1 y1) (h3 : OnCurve d x2 y2) :
    1 + d * x1 * x2 * y1 * y2 ≠ 0 ∧ 1 - d * x1 * x2 * y1 * y2 ≠ 0 := by
  have := edwards_complete hd hi h2 h1 h3
  constructor
  · intro h
    exact this (by linear_combination (d * x1 * x2 * y1 * y2 - 1) * h)
  · intro h
    exact this (by linear_combination -(d * x1 * x2 * y1 * y2 + 1) * h)

theorem OnCurve.inv {d x y : F} (h0 : d ≠ 0) (h : OnCurve d x y) : x ^ 2 * y ^ 2 = d⁻¹ * (y ^ 2 - x ^ 2 - 1) := by
  unfold OnCurve at h
  field_simp
  linear_combination -h

/-- The coordinates of a sum. -/
def addX (d x1 y1 x2 y2 : F) : F := (x1 * y2 + x2 * y1) / (1 + d * x1 * x2 * y1 * y2)
def addY (d x1 y1 x2 y2 : F) : F := (y1 * y2 + x1 * x2) / (1 - d * x1 * x2 * y1 * y2)

theorem addX_inv {d : F} (h0 : d ≠ 0) (x1 y1 x2 y2 : F) :
    addX d x1 y1 x2 y2 = d⁻¹ * (x1 * y2 + x2 * y1) / (d⁻¹ + x1 * x2 * y1 * y2) := by
  unfold addX
  have : d⁻¹ + x1 * x2 * y1 * y2 = d⁻¹ * (1 + d * x1 * x2 * y1 * y2) := by field_simp
  rw [this, mul_div_mul_left _ _ (inv_ne_zero h0)]

theorem addY_inv {d : F} (h0 : d ≠ 0) (x1 y1 x2 y2 : F) :
    addY d x1 y1 x2 y2 = d⁻¹ * (y1 * y2 + x1 * x2) / (d⁻¹ - x1 * x2 * y1 * y2) := by
  unfold addY
  have : d⁻¹ - x1 * x2 * y1 * y2 = d⁻¹ * (1 - d * x1 * x2 * y1 * y2) := by field_simp
  rw [this, mul_div_mul_left _ _ (inv_ne_zero h0)]

theorem denominators_inv {d : F} (h0 : d ≠ 0) {x1 y1 x2 y2 : F}
    (h : 1 + d * x1 * x2 * y1 * y2 ≠ 0 ∧ 1 - d * x1 * x2 * y1 * y2 ≠ 0) :
    d⁻¹ + x1 * x2 * y1 * y2 ≠ 0 ∧ d⁻¹ - x1 * x2 * y1 * y2 ≠ 0 := by
  have e1 : d⁻¹ + x1 * x2 * y1 * y2 = d⁻¹ * (1 + d * x1 * x2 * y1 * y2) := by field_simp
  have e2 : d⁻¹ - x1 * x2 * y1 * y2 = d⁻¹ * (1 - d * x1 * x2 * y1 * y2) := by field_simp
  rw [e1, e2]
  exact ⟨mul_ne_zero (inv_ne_zero h0) h.1, mul_ne_zero (inv_ne_zero h0) h.2⟩

theorem OnCurve.add {d i : F} (hd : ¬ IsSquare d) (hi : i ^ 2 = -1) (h2 : (2 : F) ≠ 0) {x1 y1 x2 y2 : F}
    (h1 : OnCurve d x1 y1) (h3 : OnCurve d x2 y2) : OnCurve d (addX d x1 y1 x2 y2) (addY d x1 y1 x2 y2) := by
  have h0 : d ≠ 0 := by rintro rfl; exact hd ⟨0, by simp⟩
  obtain ⟨hp, hm⟩ := denominators_inv h0 (edwards_denominators hd hi h2 h1 h3)
  have key := edwards_closed d⁻¹ x1 y1 x2 y2 (h1.inv h0) (h3.inv h0)
  unfold OnCurve
  rw [addX_inv h0, addY_inv h0]
  have hc : d * d⁻¹ = 1 := mul_inv_cancel₀ h0
  generalize hcc : d⁻¹ = c at *
  have hc0 : c ≠ 0 := by rintro rfl; simp at hc
  have hdc : d = 1 / c := by field_simp; exact hc
  rw [hdc, div_pow, div_pow]
  have hp2 := pow_ne_zero 2 hp
  have hm2 := pow_ne_zero 2 hm
  generalize hA : c + x1 * x2 * y1 * y2 = A at *
  generalize hB : c - x1 * x2 * y1 * y2 = B at *
  generalize x1 * y2 + x2 * y1 = n at *
  generalize y1 * y2 + x1 * x2 = m at *
  have key' : c ^ 2 * m ^ 2 * A ^ 2 - c ^ 2 * n ^ 2 * B ^ 2 - A ^ 2 * B ^ 2 = c ^ 3 * n ^ 2 * m ^ 2 :=
    mul_left_cancel₀ hc0 (by linear_combination key)
  field_simp
  linear_combination key'

theorem addX_assoc {d i : F} (hd : ¬ IsSquare d) (hi : i ^ 2 = -1) (h2 : (2 : F) ≠ 0) {x1 y1 x2 y2 x3 y3 : F}
    (h1 : OnCurve d x1 y1) (h3 : OnCurve d x2 y2) (h5 : OnCurve d x3 y3) :
    addX d (addX d x1 y1 x2 y2) (addY d x1 y1 x2 y2) x3 y3 = addX d x1 y1 (addX d x2 y2 x3 y3) (addY d x2 y2 x3 y3) ∧
    addY d (addX d x1 y1 x2 y2) (addY d x1 y1 x2 y2) x3 y3 = addY d x1 y1 (addX d x2 y2 x3 y3) (addY d x2 y2 x3 y3) := by
  have h0 : d ≠ 0 := by rintro rfl; exact hd ⟨0, by simp⟩
  obtain ⟨p12, m12⟩ := denominators_inv h0 (edwards_denominators hd hi h2 h1 h3)
  obtain ⟨p23, m23⟩ := denominators_inv h0 (edwards_denominators hd hi h2 h3 h5)
  obtain ⟨pl, ml⟩ := denominators_inv h0 (edwards_denominators hd hi h2 (h1.add hd hi h2 h3) h5)
  obtain ⟨pr, mr⟩ := denominators_inv h0 (edwards_denominators hd hi h2 h1 (h3.add hd hi h2 h5))
  have kx := edwards_assoc_x d⁻¹ x1 y1 x2 y2 x3 y3 (h1.inv h0) (h3.inv h0) (h5.inv h0)
  have ky := edwards_assoc_y d⁻¹ x1 y1 x2 y2 x3 y3 (h1.inv h0) (h3.inv h0) (h5.inv h0)
  simp only [addX_inv h0, addY_inv h0] at pl ml pr mr ⊢
  have hc0 : d⁻¹ ≠ 0 := inv_ne_zero h0
  generalize d⁻¹ = c at *
  generalize c + x1 * x2 * y1 * y2 = A at *
  generalize c - x1 * x2 * y1 * y2 = B at *
  generalize x1 * y2 + x2 * y1 = n at *
  generalize y1 * y2 + x1 * x2 = m at *
  generalize c + x2 * x3 * y2 * y3 = A' at *
  generalize c - x2 * x3 * y2 * y3 = B' at *
  generalize x2 * y3 + x3 * y2 = n' at *
  generalize y2 * y3 + x2 * x3 = m' at *
  have el : ∀ s : F, c + s * (c * n / A * x3 * (c * m / B) * y3) = c * (A * B + s * (c * n * m * x3 * y3)) / (A * B) := by
    intro s; field_simp
  have er : ∀ s : F, c + s * (x1 * (c * n' / A') * y1 * (c * m' / B')) = c * (A' * B' + s * (c * n' * m' * x1 * y1)) / (A' * B') := by
    intro s; field_simp
  have el1 := el 1
  have el2 := el (-1)
  have er1 := er 1
  have er2 := er (-1)
  simp only [one_mul, neg_one_mul, ← sub_eq_add_neg] at el1 el2 er1 er2
  rw [el1] at pl ⊢
  rw [el2] at ml ⊢
  rw [er1] at pr ⊢
  rw [er2] at mr ⊢
  have pl' : A * B + c * n * m * x3 * y3 ≠ 0 := by rintro h; rw [h] at pl; simp at pl
  have ml' : A * B - c * n * m * x3 * y3 ≠ 0 := by rintro h; rw [h] at ml; simp at ml
  have pr' : A' * B' + c * n' * m' * x1 * y1 ≠ 0 := by rintro h; rw [h] at pr; simp at pr
  have mr' : A' * B' - c * n' * m' * x1 * y1 ≠ 0 := by rintro h; rw [h] at mr; simp at mr
  generalize hL : A * B + c * n * m * x3 * y3 = L at *
  generalize hL' : A * B - c * n * m * x3 * y3 = L' at *
  generalize hR : A' * B' + c * n' * m' * x1 * y1 = R at *
  generalize hR' : A' * B' - c * n' * m' * x1 * y1 = R' at *
  constructor
  · have kx' : (n * B * y3 + m * A * x3) * R = (y1 * n' * B' + x1 * m' * A') * L :=
      mul_left_cancel₀ hc0 (by linear_combination kx)
    field_simp
    linear_combination kx'
  · have ky' : (m * A * y3 + n * B * x3) * R' = (y1 * m' * A' + x1 * n' * B') * L' :=
      mul_left_cancel₀ hc0 (by linear_combination ky)
    field_simp
    linear_combination ky'

end Verif
