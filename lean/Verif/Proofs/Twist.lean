import Mathlib.GroupTheory.Coset.Card
import Mathlib.SetTheory.Cardinal.Finite
import Verif.Proofs.XEdDSA
import Verif.Proofs.TwistPrimes

/-!
# The twist of the curve

A public key is 32 bytes, and only half of the field elements they stand for are coordinates of points of the curve. The others are
coordinates of points of its twist, on which the ladder computes just as well. The twist is `y² - x² = 1 + d⁻¹ x² y²` with the
coordinate `u = (y + 1) / (y - 1)`.
-/

namespace Verif

/-- The inverse of the constant `d` of the curve. -/
def twD : Fe := (29203323570479832313932222820853031755424015489030106335172286495629888845891 : Nat)

theorem twD_mul : twD * edD = 1 := by
  unfold twD edD
  rw [← Nat.cast_mul, ← Nat.cast_one, natCast_eq]
  decide +kernel

theorem twD_eq : twD * 121665 = -121666 := by
  linear_combination (-121666) * twD_mul + twD * edD_eq

theorem twD_ne_zero : twD ≠ 0 := by
  intro h
  have := twD_mul
  rw [h, zero_mul] at this
  exact zero_ne_one this

theorem twD_not_square : ¬ IsSquare twD := by
  rintro ⟨r, hr⟩
  have h0 : r ≠ 0 := by
    rintro rfl
    exact twD_ne_zero (by rw [hr, mul_zero])
  refine edD_not_square ⟨r⁻¹, ?_⟩
  have := twD_mul
  rw [hr] at this
  field_simp
  linear_combination this

/-- A point of the twist, brought into the form `y² - x² = 1 + d⁻¹ x² y²`, by its affine coordinates. -/
@[ext] structure TwPoint where
  x : Fe
  y : Fe
  on : OnCurve twD x y

namespace TwPoint

/-- The neutral element. -/
def zero : TwPoint := ⟨0, 1, by simp [OnCurve]⟩

/-- The inverse of a point. -/
def neg (P : TwPoint) : TwPoint := ⟨-P.x, P.y, by simpa [OnCurve] using P.on⟩

/-- The sum of two points. -/
def add (P Q : TwPoint) : TwPoint :=
  ⟨addX twD P.x P.y Q.x Q.y, addY twD P.x P.y Q.x Q.y, P.on.add twD_not_square feI_sq fe_two_ne_zero Q.on⟩

instance : Zero TwPoint := ⟨zero⟩
instance : Neg TwPoint := ⟨neg⟩
instance : Add TwPoint := ⟨add⟩

theorem zero_x : (0 : TwPoint).x = 0 := rfl
theorem zero_y : (0 : TwPoint).y = 1 := rfl
theorem neg_x (P : TwPoint) : (-P).x = -P.x := rfl
theorem neg_y (P : TwPoint) : (-P).y = P.y := rfl
theorem add_x (P Q : TwPoint) : (P + Q).x = addX twD P.x P.y Q.x Q.y := rfl
theorem add_y (P Q : TwPoint) : (P + Q).y = addY twD P.x P.y Q.x Q.y := rfl

theorem denominators (P Q : TwPoint) :
    1 + twD * P.x * Q.x * P.y * Q.y ≠ 0 ∧ 1 - twD * P.x * Q.x * P.y * Q.y ≠ 0 :=
  edwards_denominators twD_not_square feI_sq fe_two_ne_zero P.on Q.on

theorem add_comm' (P Q : TwPoint) : P + Q = Q + P := by
  ext
  · rw [add_x, add_x, addX, addX]; ring_nf
  · rw [add_y, add_y, addY, addY]; ring_nf

theorem zero_add' (P : TwPoint) : 0 + P = P := by
  ext
  · rw [add_x, addX]; simp [zero_x, zero_y]
  · rw [add_y, addY]; simp [zero_x, zero_y]

theorem neg_add' (P : TwPoint) : -P + P = 0 := by
  obtain ⟨h1, h2⟩ := denominators (-P) P
  ext
  · rw [add_x, addX, zero_x]; simp only [neg_x, neg_y]; ring_nf
  · rw [add_y, addY, zero_y, div_eq_one_iff_eq h2]
    have := P.on
    unfold OnCurve at this
    simp only [neg_x, neg_y]
    linear_combination this

theorem add_assoc' (P Q R : TwPoint) : P + Q + R = P + (Q + R) := by
  obtain ⟨hx, hy⟩ := addX_assoc twD_not_square feI_sq fe_two_ne_zero P.on Q.on R.on
  ext
  · exact hx
  · exact hy

instance : AddCommGroup TwPoint where
  add_assoc := add_assoc'
  zero_add := zero_add'
  add_zero P := by rw [add_comm', zero_add']
  nsmul := nsmulRec
  zsmul := zsmulRec
  neg_add_cancel := neg_add'
  add_comm := add_comm'

/-- `(X, Y, Z)` stands for the point `(X/Z, Y/Z)`. -/
def Rep (P : TwPoint) (t : EdPoint.Proj) : Prop :=
  (t.2.2 : Fe) ≠ 0 ∧ P.x * (t.2.2 : Fe) = (t.1 : Fe) ∧ P.y * (t.2.2 : Fe) = (t.2.1 : Fe)

/-- Addition in projective coordinates. -/
def padd (s t : EdPoint.Proj) : EdPoint.Proj :=
  let p := fieldPrime
  let a := s.2.2 * t.2.2 % p
  let b := a * a % p
  let c := s.1 * t.1 % p
  let d := s.2.1 * t.2.1 % p
  let e := 29203323570479832313932222820853031755424015489030106335172286495629888845891 * (c * d % p) % p
  let f := b + (p - e)
  let g := b + e
  let h := s.1 * t.2.1 + t.1 * s.2.1
  (a * (f * h % p) % p, a * (g * (c + d) % p) % p, f * g % p)

theorem Rep.add {P Q : TwPoint} {s t : EdPoint.Proj} (hs : Rep P s) (ht : Rep Q t) : Rep (P + Q) (padd s t) := by
  obtain ⟨X1, Y1, Z1⟩ := s
  obtain ⟨X2, Y2, Z2⟩ := t
  obtain ⟨z1, x1, y1⟩ := hs
  obtain ⟨z2, x2, y2⟩ := ht
  simp only at z1 x1 y1 z2 x2 y2
  obtain ⟨h1, h2⟩ := denominators P Q
  have ef : ∀ e : Nat, ((fieldPrime - e % fieldPrime : Nat) : Fe) = -(e : Fe) := by
    intro e
    rw [EdPoint.cast_neg (Nat.le_of_lt (Nat.mod_lt _ fieldPrime_prime.pos)), EdPoint.cast_mod]
  have hd : ((29203323570479832313932222820853031755424015489030106335172286495629888845891 : Nat) : Fe) = twD := rfl
  unfold Rep padd
  simp only [Nat.cast_add, Nat.cast_mul, EdPoint.cast_mod, ef, hd]
  rw [add_x, add_y, addX, addY, ← x1, ← y1, ← x2, ← y2]
  generalize (Z1 : Fe) = z at *
  generalize (Z2 : Fe) = w at *
  have hf : z * w * (z * w) + -(twD * (P.x * z * (Q.x * w) * (P.y * z * (Q.y * w)))) =
      z ^ 2 * w ^ 2 * (1 - twD * P.x * Q.x * P.y * Q.y) := by ring
  have hg : z * w * (z * w) + twD * (P.x * z * (Q.x * w) * (P.y * z * (Q.y * w))) =
      z ^ 2 * w ^ 2 * (1 + twD * P.x * Q.x * P.y * Q.y) := by ring
  rw [hf, hg]
  generalize 1 - twD * P.x * Q.x * P.y * Q.y = f at *
  generalize 1 + twD * P.x * Q.x * P.y * Q.y = g at *
  refine ⟨?_, ?_, ?_⟩
  · exact mul_ne_zero (mul_ne_zero (mul_ne_zero (pow_ne_zero _ z1) (pow_ne_zero _ z2)) h2)
      (mul_ne_zero (mul_ne_zero (pow_ne_zero _ z1) (pow_ne_zero _ z2)) h1)
  · field_simp
  · field_simp
    ring

/-- Multiplication by `n`, by doubling; `fuel` bounds the number of binary digits. -/
def pmul : Nat → EdPoint.Proj → Nat → EdPoint.Proj
  | 0, _, _ => (0, 1, 1)
  | fuel + 1, s, n =>
    if n = 0 then (0, 1, 1)
    else
      let h := pmul fuel (padd s s) (n / 2)
      if n % 2 = 1 then padd s h else h

theorem Rep.zero : Rep 0 (0, 1, 1) := by
  simp [Rep, zero_x, zero_y]

theorem Rep.mul {fuel n : Nat} {P : TwPoint} {s : EdPoint.Proj} (hs : Rep P s) (h : n < 2 ^ fuel) : Rep (n • P) (pmul fuel s n) := by
  induction fuel generalizing P s n with
  | zero =>
    have : n = 0 := by simpa using h
    subst this; rw [zero_nsmul]; exact Rep.zero
  | succ fuel ih =>
    rw [pmul]
    by_cases h0 : n = 0
    · subst h0; rw [zero_nsmul, if_pos rfl]; exact Rep.zero
    rw [if_neg h0]
    have h2 : n / 2 < 2 ^ fuel := by rw [Nat.pow_succ] at h; omega
    have hr := ih (hs.add hs) h2
    have e : (n / 2) • (P + P) = (2 * (n / 2)) • P := by rw [← two_nsmul, smul_smul, mul_comm]
    rw [e] at hr
    simp only
    split
    · rename_i h1
      have : n = 2 * (n / 2) + 1 := by omega
      conv => arg 1; rw [this, succ_nsmul', ]
      exact hs.add hr
    · have : n = 2 * (n / 2) := by omega
      conv => arg 1; rw [this]
      exact hr

theorem Rep.eq_zero {P : TwPoint} {t : EdPoint.Proj} (h : Rep P t) (hx : t.1 % fieldPrime = 0)
    (hy : t.2.1 % fieldPrime = t.2.2 % fieldPrime) : P = 0 := by
  obtain ⟨hz, h1, h2⟩ := h
  have e1 : (t.1 : Fe) = 0 := by rw [← Nat.cast_zero, natCast_eq, hx]; rfl
  have e2 : (t.2.1 : Fe) = (t.2.2 : Fe) := natCast_eq.2 hy
  ext
  · rw [zero_x]
    rw [e1] at h1
    simpa [hz] using h1
  · rw [zero_y]
    rw [e2] at h2
    exact mul_right_cancel₀ hz (by rw [h2, one_mul])

/-- A point is determined up to sign by its second coordinate. -/
theorem eq_or_eq_neg {P Q : TwPoint} (h : P.y = Q.y) : P = Q ∨ P = -Q := by
  have hp := P.on
  have hq := Q.on
  unfold OnCurve at hp hq
  rw [h] at hp
  have e : (1 + twD * Q.y ^ 2) * (P.x ^ 2 - Q.x ^ 2) = 0 := by linear_combination hq - hp
  have hd : 1 + twD * Q.y ^ 2 ≠ 0 := by
    intro h0
    by_cases hy : Q.y = 0
    · rw [hy] at h0; simp at h0
    · refine twD_not_square ⟨feI / Q.y, ?_⟩
      field_simp
      linear_combination h0 - feI_sq
  have e2 : (P.x - Q.x) * (P.x + Q.x) = 0 := by
    have := (mul_eq_zero.1 e).resolve_left hd
    linear_combination this
  rcases mul_eq_zero.1 e2 with h1 | h1
  · left; ext
    · exact sub_eq_zero.1 h1
    · exact h
  · right; ext
    · rw [neg_x]; exact eq_neg_of_add_eq_zero_left h1
    · exact h

theorem one_add_d_ne : 1 + twD ≠ 0 := by
  intro h0
  have : IsSquare twD := ⟨feI, by rw [← pow_two, feI_sq]; linear_combination h0⟩
  exact twD_not_square this

theorem one_add_d_sq_ne (y : Fe) : 1 + twD * y ^ 2 ≠ 0 := by
  intro h0
  by_cases hy : y = 0
  · rw [hy] at h0; simp at h0
  · refine twD_not_square ⟨feI / y, ?_⟩
    field_simp
    linear_combination h0 - feI_sq

/-- The first coordinate of a point on the Montgomery form of the twist. -/
def u (P : TwPoint) : Fe := (1 + P.y) * (P.y - 1)⁻¹

/-- `(X, Z)` stands for this coordinate. -/
def Mont (P : TwPoint) (r : Fe × Fe) : Prop := ∃ c : Fe, c ≠ 0 ∧ r.1 = c * (1 + P.y) ∧ r.2 = c * (P.y - 1)

theorem fe_121665_ne : (121665 : Fe) ≠ 0 := by
  have : (121665 : Fe) = ((121665 : Nat) : Fe) := by norm_cast
  rw [this, ← Nat.cast_zero, Ne, natCast_eq]
  decide +kernel

theorem Mont.value {P : TwPoint} {r : Fe × Fe} (h : Mont P r) : r.1 * r.2⁻¹ = P.u := by
  obtain ⟨c, hc, h1, h2⟩ := h
  rw [h1, h2, u, mul_inv]
  field_simp

theorem Mont.zero : Mont 0 (1, 0) := by
  refine ⟨2⁻¹, inv_ne_zero fe_two_ne_zero, ?_, ?_⟩
  · rw [zero_y]
    have := fe_two_ne_zero
    show (1 : Fe) = 2⁻¹ * (1 + 1)
    rw [one_add_one_eq_two, inv_mul_cancel₀ this]
  · rw [zero_y]; simp

theorem u_ne_zero {P : TwPoint} (h : P.u ≠ 0) : 1 + P.y ≠ 0 ∧ P.y - 1 ≠ 0 := by
  unfold u at h
  constructor
  · intro h0; rw [h0] at h; simp at h
  · intro h0; rw [h0] at h; simp at h

theorem Mont.point {P : TwPoint} (h : P.u ≠ 0) : Mont P (P.u, 1) := by
  obtain ⟨_, h2⟩ := u_ne_zero h
  refine ⟨(P.y - 1)⁻¹, inv_ne_zero h2, ?_, ?_⟩
  · show P.u = _
    rw [u, mul_comm]
  · show (1 : Fe) = _
    rw [inv_mul_cancel₀ h2]

theorem Mont.dbl {P : TwPoint} {r : Fe × Fe} (h : Mont P r) : Mont (P + P) (xDbl r) := by
  obtain ⟨c, hc, h1, h2⟩ := h
  obtain ⟨_, hm⟩ := denominators P P
  have hd := one_add_d_sq_ne P.y
  have hon := P.on
  unfold OnCurve at hon
  have hy : (P + P).y * (1 - twD * P.x * P.x * P.y * P.y) = P.y * P.y + P.x * P.x := by
    rw [add_y, addY, div_mul_cancel₀ _ hm]
  have he := twD_eq
  have hd2 : 121665 * (1 + twD * P.y ^ 2) = 121665 - 121666 * P.y ^ 2 := by
    linear_combination P.y ^ 2 * he
  refine ⟨-(8 * c ^ 4 * 121665 * (1 + twD * P.y ^ 2) * (1 - twD * P.x * P.x * P.y * P.y)), ?_, ?_, ?_⟩
  · have h2 := fe_two_ne_zero
    have h8 : (8 : Fe) ≠ 0 := by
      have : (8 : Fe) = 2 ^ 3 := by ring
      rw [this]; exact pow_ne_zero _ h2
    exact neg_ne_zero.2 (mul_ne_zero (mul_ne_zero (mul_ne_zero (mul_ne_zero h8 (pow_ne_zero _ hc)) fe_121665_ne) hd) hm)
  · simp only [xDbl, h1, h2]
    have hA : (1 + twD * P.y ^ 2) * ((1 - twD * P.x * P.x * P.y * P.y) * (1 + (P + P).y)) = 2 * P.y ^ 2 * (1 + twD) := by
      linear_combination (twD * P.y ^ 2 - 1) * hon + (1 + twD * P.y ^ 2) * hy
    linear_combination 8 * c ^ 4 * 121665 * hA + 16 * c ^ 4 * P.y ^ 2 * he
  · simp only [xDbl, h1, h2]
    have hA : (1 - twD * P.x * P.x * P.y * P.y) * (1 - (P + P).y) = 2 * (1 - P.y ^ 2) := by
      linear_combination hon - hy
    linear_combination (-8) * c ^ 4 * 121665 * (1 + twD * P.y ^ 2) * hA - 16 * c ^ 4 * (1 - P.y ^ 2) * hd2

theorem Mont.add {P Q B : TwPoint} {r s : Fe × Fe} (hP : Mont P r) (hQ : Mont Q s) (hB : B + P = Q) (hu : B.u ≠ 0) :
    Mont (P + Q) (xAdd B.u r s) := by
  obtain ⟨c, hc, h1, h2⟩ := hP
  obtain ⟨e, he, h3, h4⟩ := hQ
  obtain ⟨hb1, hb2⟩ := u_ne_zero hu
  have hBQ : B = Q + -P := by rw [← hB, add_assoc, add_neg_cancel, add_zero]
  obtain ⟨hp, hm⟩ := denominators P Q
  have hyS : (P + Q).y * (1 - twD * P.x * Q.x * P.y * Q.y) = P.y * Q.y + P.x * Q.x := by
    rw [add_y, addY, div_mul_cancel₀ _ hm]
  have hyB : B.y * (1 + twD * P.x * Q.x * P.y * Q.y) = P.y * Q.y - P.x * Q.x := by
    have e1 : 1 - twD * Q.x * (-P).x * Q.y * (-P).y = 1 + twD * P.x * Q.x * P.y * Q.y := by
      rw [neg_x, neg_y]; ring
    rw [hBQ, add_y, addY, e1, div_mul_cancel₀ _ hp, neg_x, neg_y]
    ring
  have hub : B.u * (B.y - 1) = 1 + B.y := by
    rw [TwPoint.u, mul_assoc, inv_mul_cancel₀ hb2, mul_one]
  have honP := P.on
  have honQ := Q.on
  unfold OnCurve at honP honQ
  have hdP := one_add_d_sq_ne P.y
  have hdQ := one_add_d_sq_ne Q.y
  have hk : 1 + twD * P.y ^ 2 * Q.y ^ 2 ≠ 0 := by
    have := one_add_d_sq_ne (P.y * Q.y)
    intro h0
    exact this (by linear_combination h0)
  have hd1 := one_add_d_ne
  -- the two products
  have hxx : P.x ^ 2 * Q.x ^ 2 * ((1 + twD * P.y ^ 2) * (1 + twD * Q.y ^ 2)) = (P.y ^ 2 - 1) * (Q.y ^ 2 - 1) := by
    have a1 : P.x ^ 2 * (1 + twD * P.y ^ 2) = P.y ^ 2 - 1 := by linear_combination -honP
    have a2 : Q.x ^ 2 * (1 + twD * Q.y ^ 2) = Q.y ^ 2 - 1 := by linear_combination -honQ
    linear_combination Q.x ^ 2 * (1 + twD * Q.y ^ 2) * a1 + (P.y ^ 2 - 1) * a2
  generalize hT : 1 - twD * P.x * Q.x * P.y * Q.y = m at *
  generalize hU : 1 + twD * P.x * Q.x * P.y * Q.y = n at *
  have hplus : (1 + twD * P.y ^ 2) * (1 + twD * Q.y ^ 2) * (m * n) * ((1 + (P + Q).y) * (1 + B.y)) =
      (1 + twD) * (1 + twD * P.y ^ 2 * Q.y ^ 2) * (P.y + Q.y) ^ 2 := by
    have e1 : m * (1 + (P + Q).y) = m + (P.y * Q.y + P.x * Q.x) := by linear_combination hyS
    have e2 : n * (1 + B.y) = n + (P.y * Q.y - P.x * Q.x) := by linear_combination hyB
    have e3 : m * n * ((1 + (P + Q).y) * (1 + B.y)) = (m + (P.y * Q.y + P.x * Q.x)) * (n + (P.y * Q.y - P.x * Q.x)) := by
      rw [← e1, ← e2]; ring
    rw [mul_assoc, e3, ← hT, ← hU]
    linear_combination (-(1 - twD * P.y * Q.y) ^ 2) * hxx
  have hminus : (1 + twD * P.y ^ 2) * (1 + twD * Q.y ^ 2) * (m * n) * ((1 - (P + Q).y) * (1 - B.y)) =
      (1 + twD) * (1 + twD * P.y ^ 2 * Q.y ^ 2) * (P.y - Q.y) ^ 2 := by
    have e1 : m * (1 - (P + Q).y) = m - (P.y * Q.y + P.x * Q.x) := by linear_combination -hyS
    have e2 : n * (1 - B.y) = n - (P.y * Q.y - P.x * Q.x) := by linear_combination -hyB
    have e3 : m * n * ((1 - (P + Q).y) * (1 - B.y)) = (m - (P.y * Q.y + P.x * Q.x)) * (n - (P.y * Q.y - P.x * Q.x)) := by
      rw [← e1, ← e2]; ring
    rw [mul_assoc, e3, ← hT, ← hU]
    linear_combination (-(1 + twD * P.y * Q.y) ^ 2) * hxx
  have h16 : (16 : Fe) ≠ 0 := by
    have : (16 : Fe) = 2 ^ 4 := by ring
    rw [this]; exact pow_ne_zero _ fe_two_ne_zero
  generalize hM : (1 + twD * P.y ^ 2) * (1 + twD * Q.y ^ 2) * (m * n) = M at *
  have hM0 : M ≠ 0 := by rw [← hM]; exact mul_ne_zero (mul_ne_zero hdP hdQ) (mul_ne_zero hm hp)
  generalize hK : (1 + twD) * (1 + twD * P.y ^ 2 * Q.y ^ 2) = K at *
  have hK0 : K ≠ 0 := by rw [← hK]; exact mul_ne_zero hd1 hk
  refine ⟨16 * c ^ 2 * e ^ 2 * (M * K⁻¹) * (1 + B.y), ?_, ?_, ?_⟩
  · exact mul_ne_zero (mul_ne_zero (mul_ne_zero (mul_ne_zero h16 (pow_ne_zero _ hc)) (pow_ne_zero _ he))
      (mul_ne_zero hM0 (inv_ne_zero hK0))) hb1
  · simp only [xAdd, h1, h2, h3, h4]
    have : 16 * c ^ 2 * e ^ 2 * (M * K⁻¹) * (1 + B.y) * (1 + (P + Q).y) =
        16 * c ^ 2 * e ^ 2 * K⁻¹ * (M * ((1 + (P + Q).y) * (1 + B.y))) := by ring
    rw [this, hplus]
    field_simp
    ring
  · simp only [xAdd, h1, h2, h3, h4]
    have : 16 * c ^ 2 * e ^ 2 * (M * K⁻¹) * (1 + B.y) * ((P + Q).y - 1) =
        B.u * (16 * c ^ 2 * e ^ 2 * K⁻¹ * (M * ((1 - (P + Q).y) * (1 - B.y)))) := by rw [← hub]; ring
    rw [this, hminus]
    field_simp
    ring

theorem Mont.ladder {P : TwPoint} (hu : P.u ≠ 0) (n k : Nat) (h : k < 2 ^ n) :
    Mont (k • P) (Verif.ladder P.u n k).1 ∧ Mont ((k + 1) • P) (Verif.ladder P.u n k).2 := by
  induction n generalizing k with
  | zero =>
    have : k = 0 := by simpa using h
    subst this
    rw [zero_nsmul, zero_add, one_nsmul]
    exact ⟨Mont.zero, Mont.point hu⟩
  | succ n ih =>
    obtain ⟨h1, h2⟩ := ih (k / 2) (by rw [Nat.pow_succ] at h; omega)
    have hadd := Mont.add h1 h2 (B := P) (by rw [add_nsmul, one_nsmul, add_comm]) hu
    rw [← add_nsmul] at hadd
    have hd1 := h1.dbl
    have hd2 := h2.dbl
    rw [← add_nsmul] at hd1 hd2
    unfold Verif.ladder
    simp only
    split
    · rename_i hk
      have e1 : k / 2 + (k / 2 + 1) = k := by omega
      have e2 : k / 2 + 1 + (k / 2 + 1) = k + 1 := by omega
      rw [e1] at hadd
      rw [e2] at hd2
      exact ⟨hadd, hd2⟩
    · have e1 : k / 2 + (k / 2 + 1) = k + 1 := by omega
      have e2 : k / 2 + k / 2 = k := by omega
      rw [e1] at hadd
      rw [e2] at hd1
      exact ⟨hd1, hadd⟩

/-- For which points the ladder gives zero. -/
theorem u_eq_zero_iff (P : TwPoint) : P.u = 0 ↔ P.x = 0 := by
  have hon := P.on
  unfold OnCurve at hon
  constructor
  · intro h
    have hy : P.y ^ 2 = 1 := by
      unfold u at h
      rcases mul_eq_zero.1 h with h | h
      · linear_combination (P.y - 1) * h
      · have h := inv_eq_zero.1 h
        linear_combination (P.y + 1) * h
    have e : (1 + twD) * P.x ^ 2 = 0 := by linear_combination (twD * P.x ^ 2 - 1) * (-hy) - hon + (-twD * P.x ^ 2 + 1) * 0
    simpa [one_add_d_ne] using e
  · intro h
    rw [h] at hon
    have : (1 + P.y) * (P.y - 1) = 0 := by linear_combination hon
    unfold u
    rcases mul_eq_zero.1 this with h | h <;> rw [h] <;> simp

theorem two_smul_eq_zero (P : TwPoint) (h : P.x = 0) : 2 • P = 0 := by
  have hon := P.on
  unfold OnCurve at hon
  rw [h] at hon
  rw [two_nsmul]
  ext
  · rw [add_x, addX, h, zero_x]; simp
  · rw [add_y, addY, h, zero_y]; simp; linear_combination hon

/-- A double has first coordinate zero only for points of small order. -/
theorem double_x (P : TwPoint) : (2 • P).x = 0 ↔ P.x = 0 ∨ P.y = 0 := by
  obtain ⟨hp, _⟩ := denominators P P
  rw [two_nsmul, add_x, addX, div_eq_zero_iff, or_iff_left hp]
  have h2 := fe_two_ne_zero
  constructor
  · intro h
    have : 2 * (P.x * P.y) = 0 := by linear_combination h
    simpa [h2] using this
  · rintro (h | h) <;> rw [h] <;> ring

theorem one_add_twD_not_square : ¬ IsSquare (1 + twD) := by
  rw [ZMod.euler_criterion fieldPrime one_add_d_ne]
  have : 1 + twD = ((29203323570479832313932222820853031755424015489030106335172286495629888845892 : Nat) : Fe) := by
    unfold twD; norm_cast
  rw [this, ← Nat.cast_pow, ← Nat.cast_one, natCast_eq,
    ← powMod_eq fieldPrime 256 _ (fieldPrime / 2) (by decide +kernel)]
  decide +kernel

theorem double_y (P : TwPoint) : (2 • P).y ≠ 0 := by
  obtain ⟨_, hm⟩ := denominators P P
  rw [two_nsmul, add_y, addY, Ne, div_eq_zero_iff, or_iff_left hm]
  intro h
  have hon := P.on
  unfold OnCurve at hon
  refine one_add_twD_not_square ⟨1 + twD * P.y ^ 2, ?_⟩
  have hx : P.x ^ 2 = -P.y ^ 2 := by linear_combination h
  rw [hx] at hon
  linear_combination (-twD) * hon

/-- Points of the twist whose order divides eight have the coordinate `0` or `-1`. -/
theorem eight_smul (P : TwPoint) (h : 8 • P = 0) : P.u = 0 ∨ P.u = -1 := by
  have h1 : (2 • (2 • (2 • P))).x = 0 := by
    rw [← mul_nsmul, ← mul_nsmul]
    exact (congrArg TwPoint.x h).trans zero_x
  rw [double_x, or_iff_left (double_y _), double_x, or_iff_left (double_y _), double_x] at h1
  rcases h1 with h1 | h1
  · exact .inl ((u_eq_zero_iff P).2 h1)
  · right
    unfold u
    rw [h1]
    simp

/-! ## How many points the twist has -/

/-- The prime that divides the number of points of the twist. -/
def order : Nat := 14474011154664524427946373126085988481603263447650325797860494125407373907997

theorem order_prime : order.Prime :=
  prime_14474011154664524427946373126085988481603263447650325797860494125407373907997

/-- A point of this order. -/
def base : TwPoint where
  x := (499233786733279659651403537673402217618644112876606671098350919089189292062 : Nat)
  y := (19086858129437210180043019786304437153791795188116486686021403990866808495198 : Nat)
  on := by
    unfold OnCurve twD
    rw [sub_eq_iff_eq_add]
    norm_cast

/-- It in projective coordinates. -/
def pbase : EdPoint.Proj :=
  (499233786733279659651403537673402217618644112876606671098350919089189292062,
    19086858129437210180043019786304437153791795188116486686021403990866808495198, 1)

theorem Rep.base : Rep base pbase := by
  simp [Rep, pbase, TwPoint.base]

theorem order_base : addOrderOf base = order := by
  have : Fact order.Prime := ⟨order_prime⟩
  refine addOrderOf_eq_prime ?_ ?_
  · refine (Rep.base.mul (fuel := 256) (n := order) (by decide +kernel)).eq_zero ?_ ?_
    · decide +kernel
    · decide +kernel
  · intro h
    have : base.x = 0 := by rw [h, zero_x]
    unfold base at this
    simp only at this
    rw [← Nat.cast_zero, natCast_eq] at this
    revert this
    decide +kernel

/-- The point `(√-1, 0)`. -/
def quarter : TwPoint where
  x := feI
  y := 0
  on := by
    unfold OnCurve
    rw [feI_sq]
    ring

theorem order_quarter : addOrderOf quarter = 4 := by
  have h2 : (2 • quarter).x = 0 := (double_x _).2 (.inr rfl)
  have h4 : 4 • quarter = 0 := by
    rw [show 4 = 2 * 2 from rfl, mul_nsmul]
    exact two_smul_eq_zero _ h2
  have h2' : 2 • quarter ≠ 0 := by
    intro h
    have : (2 • quarter).y = 1 := by rw [h, zero_y]
    rw [two_nsmul, add_y, addY] at this
    simp only [quarter, mul_zero, sub_zero, div_one, zero_add] at this
    rw [← pow_two, feI_sq] at this
    exact fe_two_ne_zero (by linear_combination -this)
  have : Fact (Nat.Prime 2) := ⟨Nat.prime_two⟩
  exact addOrderOf_eq_prime_pow (p := 2) (n := 1) (by simpa using h2') (by simpa using h4)

theorem code_injective : Function.Injective fun P : TwPoint => (P.y, decide (P.x.val % 2 = 1)) := by
  intro P Q h
  simp only [Prod.mk.injEq, decide_eq_decide] at h
  obtain ⟨h1, h2⟩ := h
  rcases eq_or_eq_neg h1 with h | h
  · exact h
  by_cases h0 : Q.x = 0
  · rw [h]; ext
    · rw [neg_x, h0, neg_zero]
    · rfl
  · exfalso
    rw [h, neg_x] at h2
    have := EdPoint.neg_parity h0
    omega

instance : Finite TwPoint := Finite.of_injective _ code_injective

/-- The number of points of the twist, up to a factor of two that does not matter here. -/
theorem card_dvd : Nat.card TwPoint ∣ 8 * order := by
  have hle : Nat.card TwPoint ≤ 2 * fieldPrime := by
    have := Nat.card_le_card_of_injective _ code_injective
    rw [Nat.card_prod, Nat.card_zmod] at this
    simp only [Nat.card_eq_fintype_card, Fintype.card_bool] at this
    omega
  have hL : order ∣ Nat.card TwPoint := order_base ▸ addOrderOf_dvd_natCard _
  have h4 : 4 ∣ Nat.card TwPoint := order_quarter ▸ addOrderOf_dvd_natCard _
  have hco : Nat.Coprime 4 order := by decide +kernel
  obtain ⟨h, hh⟩ := hco.mul_dvd_of_dvd_of_dvd h4 hL
  have hpos : 0 < Nat.card TwPoint := Nat.card_pos
  have h2 : 2 * fieldPrime < 4 * order * 3 := by decide +kernel
  rcases h with _ | _ | _ | h
  · omega
  · exact ⟨2, by rw [hh]; omega⟩
  · exact ⟨1, by rw [hh]; omega⟩
  · exfalso
    have : 4 * order * 3 ≤ 4 * order * (h + 1 + 1 + 1) := Nat.mul_le_mul_left _ (by omega)
    omega

theorem smul_clamped {n m : Nat} (hn : n = 8 * m) (h0 : 0 < m) (hlt : m < 2 ^ 252) (P : TwPoint) (h : 2 • n • P = 0) : 8 • P = 0 := by
  subst hn
  have e : (16 * m) • P = 0 := by rw [← h, ← mul_nsmul]; congr 1; omega
  have h1 := addOrderOf_dvd_iff_nsmul_eq_zero.2 e
  have h2 : addOrderOf P ∣ 8 * order := (addOrderOf_dvd_natCard P).trans card_dvd
  have hco : Nat.Coprime (2 * m) order := by
    refine Nat.Coprime.symm ((Nat.Prime.coprime_iff_not_dvd order_prime).2 fun hd => ?_)
    rcases (Nat.Prime.dvd_mul order_prime).1 hd with h3 | h3
    · exact absurd (Nat.le_of_dvd (by omega) h3) (by decide +kernel)
    · have := Nat.le_of_dvd h0 h3
      have h4 : 2 ^ 252 < order := by decide +kernel
      omega
  have h3 : addOrderOf P ∣ Nat.gcd (8 * (2 * m)) (8 * order) := Nat.dvd_gcd (by rwa [← Nat.mul_assoc]) h2
  rw [Nat.gcd_mul_left, hco, Nat.mul_one] at h3
  exact addOrderOf_dvd_iff_nsmul_eq_zero.1 h3

end TwPoint

/-- The product of two elements that are no squares is a square. -/
theorem isSquare_mul_of_not {a b : Fe} (ha : ¬ IsSquare a) (hb : ¬ IsSquare b) : IsSquare (a * b) := by
  have key : ∀ {c : Fe}, ¬ IsSquare c → c ≠ 0 ∧ c ^ (fieldPrime / 2) = -1 := by
    intro c hc
    have h0 : c ≠ 0 := by
      rintro rfl
      exact hc ⟨0, by simp⟩
    refine ⟨h0, (ZMod.pow_div_two_eq_neg_one_or_one fieldPrime h0).resolve_left fun h => hc ?_⟩
    exact (ZMod.euler_criterion fieldPrime h0).2 h
  obtain ⟨ha0, ha⟩ := key ha
  obtain ⟨hb0, hb⟩ := key hb
  rw [ZMod.euler_criterion fieldPrime (mul_ne_zero ha0 hb0), mul_pow, ha, hb]
  ring

/-- Every field element is the coordinate of a point of the curve or of a point of the twist. -/
theorem curve_or_twist (u : Fe) : (∃ P : EdPoint, P.u = u) ∨ ∃ P : TwPoint, P.u = u := by
  have h2 := fe_two_ne_zero
  by_cases hm : u = -1
  · right
    exact ⟨TwPoint.quarter, by rw [hm]; simp [TwPoint.u, TwPoint.quarter]⟩
  have hm : u + 1 ≠ 0 := fun h => hm (eq_neg_of_add_eq_zero_left h)
  obtain ⟨y, hy⟩ : ∃ y, y = (u - 1) / (u + 1) := ⟨_, rfl⟩
  have hu : (1 + y) * (1 - y)⁻¹ = u := by
    have e1 : 1 + y = 2 * u / (u + 1) := by rw [hy]; field_simp; ring
    have e2 : 1 - y = 2 / (u + 1) := by rw [hy]; field_simp; ring
    rw [e1, e2]
    field_simp
  have hd := EdPoint.one_add_d_sq_ne y
  by_cases hs : IsSquare ((y ^ 2 - 1) / (1 + edD * y ^ 2))
  · left
    obtain ⟨x, hx⟩ := hs
    have hon : OnCurve edD x y := by
      unfold OnCurve
      rw [div_eq_iff hd] at hx
      linear_combination hx
    exact ⟨⟨x, y, hon⟩, hu⟩
  · right
    have hy0 : y ≠ 0 := by
      rintro h
      refine hs ⟨feI, ?_⟩
      rw [h, ← pow_two, feI_sq]
      simp
    have hd' := TwPoint.one_add_d_sq_ne y⁻¹
    have hsq : IsSquare (((y⁻¹) ^ 2 - 1) / (1 + twD * (y⁻¹) ^ 2)) := by
      obtain ⟨r, hr⟩ := isSquare_mul_of_not edD_not_square hs
      refine ⟨feI * r, ?_⟩
      have e : (y⁻¹ ^ 2 - 1) / (1 + twD * y⁻¹ ^ 2) = -(edD * ((y ^ 2 - 1) / (1 + edD * y ^ 2))) := by
        have h3 : 1 + twD * y⁻¹ ^ 2 = twD * (1 + edD * y ^ 2) * y⁻¹ ^ 2 := by
          field_simp
          linear_combination (-y ^ 2) * twD_mul
        have h4 : twD ≠ 0 := twD_ne_zero
        rw [h3, div_eq_iff (mul_ne_zero (mul_ne_zero h4 hd) (pow_ne_zero 2 (inv_ne_zero hy0)))]
        generalize 1 + edD * y ^ 2 = q at hd
        field_simp
        linear_combination (y ^ 2 - 1) * twD_mul
      rw [e, hr]
      linear_combination (-r ^ 2) * feI_sq
    obtain ⟨x, hx⟩ := hsq
    have hon : OnCurve twD x y⁻¹ := by
      unfold OnCurve
      rw [div_eq_iff hd'] at hx
      linear_combination hx
    refine ⟨⟨x, y⁻¹, hon⟩, ?_⟩
    rw [← hu]
    show (1 + y⁻¹) * (y⁻¹ - 1)⁻¹ = _
    by_cases h1 : 1 - y = 0
    · have : y = 1 := by linear_combination -h1
      rw [this]; simp
    · have h3 : y⁻¹ - 1 = (1 - y) * y⁻¹ := by field_simp
      rw [h3]
      field_simp
      ring

end Verif
