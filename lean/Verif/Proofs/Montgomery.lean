import Verif.Model.XEdDSA
import Verif.Proofs.Edwards

/-!
# The Montgomery ladder computes multiples of points
-/

namespace Verif

namespace EdPoint

/-- `(X, Z)` stands for the first coordinate of `P` on the Montgomery curve. -/
def Mont (P : EdPoint) (r : Fe × Fe) : Prop := ∃ c : Fe, c ≠ 0 ∧ r.1 = c * (1 + P.y) ∧ r.2 = c * (1 - P.y)

theorem one_add_d_ne : 1 + edD ≠ 0 := by
  intro h0
  have : IsSquare edD := ⟨feI, by rw [← pow_two, feI_sq]; linear_combination h0⟩
  exact edD_not_square this

theorem one_add_d_sq_ne (y : Fe) : 1 + edD * y ^ 2 ≠ 0 := by
  intro h0
  by_cases hy : y = 0
  · rw [hy] at h0; simp at h0
  · refine edD_not_square ⟨feI / y, ?_⟩
    field_simp
    linear_combination h0 - feI_sq

theorem fe_121666_ne : (121666 : Fe) ≠ 0 := by
  have : (121666 : Fe) = ((121666 : Nat) : Fe) := by norm_cast
  rw [this, ← Nat.cast_zero, Ne, natCast_eq]
  decide +kernel

theorem Mont.value {P : EdPoint} {r : Fe × Fe} (h : Mont P r) : r.1 * r.2⁻¹ = P.u := by
  obtain ⟨c, hc, h1, h2⟩ := h
  rw [h1, h2, EdPoint.u, mul_inv]
  field_simp

theorem Mont.zero : Mont 0 (1, 0) := by
  refine ⟨2⁻¹, inv_ne_zero fe_two_ne_zero, ?_, ?_⟩
  · rw [zero_y]
    have := fe_two_ne_zero
    show (1 : Fe) = 2⁻¹ * (1 + 1)
    rw [one_add_one_eq_two, inv_mul_cancel₀ this]
  · rw [zero_y]; simp

/-- A coordinate that is not zero belongs to a point whose second Edwards coordinate is not `1` or `-1`. -/
theorem u_ne_zero {P : EdPoint} (h : P.u ≠ 0) : 1 + P.y ≠ 0 ∧ 1 - P.y ≠ 0 := by
  unfold EdPoint.u at h
  constructor
  · intro h0; rw [h0] at h; simp at h
  · intro h0; rw [h0] at h; simp at h

theorem Mont.point {P : EdPoint} (h : P.u ≠ 0) : Mont P (P.u, 1) := by
  obtain ⟨_, h2⟩ := u_ne_zero h
  refine ⟨(1 - P.y)⁻¹, inv_ne_zero h2, ?_, ?_⟩
  · show P.u = _
    rw [EdPoint.u, mul_comm]
  · show (1 : Fe) = _
    rw [inv_mul_cancel₀ h2]

theorem Mont.dbl {P : EdPoint} {r : Fe × Fe} (h : Mont P r) : Mont (P + P) (xDbl r) := by
  obtain ⟨c, hc, h1, h2⟩ := h
  obtain ⟨_, hm⟩ := denominators P P
  have hd := one_add_d_sq_ne P.y
  have hon := P.on
  unfold OnCurve at hon
  have hy : (P + P).y * (1 - edD * P.x * P.x * P.y * P.y) = P.y * P.y + P.x * P.x := by
    rw [add_y, addY, div_mul_cancel₀ _ hm]
  have hd2 : 121666 * (1 + edD * P.y ^ 2) = 121666 - 121665 * P.y ^ 2 := by
    have := edD_eq
    linear_combination P.y ^ 2 * this
  have he := edD_eq
  refine ⟨8 * c ^ 4 * 121666 * (1 + edD * P.y ^ 2) * (1 - edD * P.x * P.x * P.y * P.y), ?_, ?_, ?_⟩
  · have h2 := fe_two_ne_zero
    have h8 : (8 : Fe) ≠ 0 := by
      have : (8 : Fe) = 2 ^ 3 := by ring
      rw [this]; exact pow_ne_zero _ h2
    exact mul_ne_zero (mul_ne_zero (mul_ne_zero (mul_ne_zero h8 (pow_ne_zero _ hc)) fe_121666_ne) hd) hm
  · simp only [xDbl, h1, h2]
    have hA : (1 + edD * P.y ^ 2) * ((1 - edD * P.x * P.x * P.y * P.y) * (1 + (P + P).y)) = 2 * P.y ^ 2 * (1 + edD) := by
      linear_combination (edD * P.y ^ 2 - 1) * hon + (1 + edD * P.y ^ 2) * hy
    linear_combination (-8) * c ^ 4 * 121666 * hA - 16 * c ^ 4 * P.y ^ 2 * he
  · simp only [xDbl, h1, h2]
    have hA : (1 - edD * P.x * P.x * P.y * P.y) * (1 - (P + P).y) = 2 * (1 - P.y ^ 2) := by
      linear_combination hon - hy
    linear_combination (-8) * c ^ 4 * 121666 * (1 + edD * P.y ^ 2) * hA - 16 * c ^ 4 * (1 - P.y ^ 2) * hd2

theorem Mont.add {P Q B : EdPoint} {r s : Fe × Fe} (hP : Mont P r) (hQ : Mont Q s) (hB : B + P = Q) (hu : B.u ≠ 0) :
    Mont (P + Q) (xAdd B.u r s) := by
  obtain ⟨c, hc, h1, h2⟩ := hP
  obtain ⟨e, he, h3, h4⟩ := hQ
  obtain ⟨hb1, hb2⟩ := u_ne_zero hu
  have hBQ : B = Q + -P := by rw [← hB, add_assoc, add_neg_cancel, add_zero]
  obtain ⟨hp, hm⟩ := denominators P Q
  have hyS : (P + Q).y * (1 - edD * P.x * Q.x * P.y * Q.y) = P.y * Q.y + P.x * Q.x := by
    rw [add_y, addY, div_mul_cancel₀ _ hm]
  have hyB : B.y * (1 + edD * P.x * Q.x * P.y * Q.y) = P.y * Q.y - P.x * Q.x := by
    have e1 : 1 - edD * Q.x * (-P).x * Q.y * (-P).y = 1 + edD * P.x * Q.x * P.y * Q.y := by
      rw [neg_x, neg_y]; ring
    rw [hBQ, add_y, addY, e1, div_mul_cancel₀ _ hp, neg_x, neg_y]
    ring
  have hub : B.u * (1 - B.y) = 1 + B.y := by
    rw [EdPoint.u, mul_assoc, inv_mul_cancel₀ hb2, mul_one]
  have honP := P.on
  have honQ := Q.on
  unfold OnCurve at honP honQ
  have hdP := one_add_d_sq_ne P.y
  have hdQ := one_add_d_sq_ne Q.y
  have hk : 1 + edD * P.y ^ 2 * Q.y ^ 2 ≠ 0 := by
    have := one_add_d_sq_ne (P.y * Q.y)
    intro h0
    exact this (by linear_combination h0)
  have hd1 := one_add_d_ne
  -- the two products
  have hxx : P.x ^ 2 * Q.x ^ 2 * ((1 + edD * P.y ^ 2) * (1 + edD * Q.y ^ 2)) = (P.y ^ 2 - 1) * (Q.y ^ 2 - 1) := by
    have a1 : P.x ^ 2 * (1 + edD * P.y ^ 2) = P.y ^ 2 - 1 := by linear_combination -honP
    have a2 : Q.x ^ 2 * (1 + edD * Q.y ^ 2) = Q.y ^ 2 - 1 := by linear_combination -honQ
    linear_combination Q.x ^ 2 * (1 + edD * Q.y ^ 2) * a1 + (P.y ^ 2 - 1) * a2
  generalize hT : 1 - edD * P.x * Q.x * P.y * Q.y = m at *
  generalize hU : 1 + edD * P.x * Q.x * P.y * Q.y = n at *
  have hplus : (1 + edD * P.y ^ 2) * (1 + edD * Q.y ^ 2) * (m * n) * ((1 + (P + Q).y) * (1 + B.y)) =
      (1 + edD) * (1 + edD * P.y ^ 2 * Q.y ^ 2) * (P.y + Q.y) ^ 2 := by
    have e1 : m * (1 + (P + Q).y) = m + (P.y * Q.y + P.x * Q.x) := by linear_combination hyS
    have e2 : n * (1 + B.y) = n + (P.y * Q.y - P.x * Q.x) := by linear_combination hyB
    have e3 : m * n * ((1 + (P + Q).y) * (1 + B.y)) = (m + (P.y * Q.y + P.x * Q.x)) * (n + (P.y * Q.y - P.x * Q.x)) := by
      rw [← e1, ← e2]; ring
    rw [mul_assoc, e3, ← hT, ← hU]
    linear_combination (-(1 - edD * P.y * Q.y) ^ 2) * hxx
  have hminus : (1 + edD * P.y ^ 2) * (1 + edD * Q.y ^ 2) * (m * n) * ((1 - (P + Q).y) * (1 - B.y)) =
      (1 + edD) * (1 + edD * P.y ^ 2 * Q.y ^ 2) * (P.y - Q.y) ^ 2 := by
    have e1 : m * (1 - (P + Q).y) = m - (P.y * Q.y + P.x * Q.x) := by linear_combination -hyS
    have e2 : n * (1 - B.y) = n - (P.y * Q.y - P.x * Q.x) := by linear_combination -hyB
    have e3 : m * n * ((1 - (P + Q).y) * (1 - B.y)) = (m - (P.y * Q.y + P.x * Q.x)) * (n - (P.y * Q.y - P.x * Q.x)) := by
      rw [← e1, ← e2]; ring
    rw [mul_assoc, e3, ← hT, ← hU]
    linear_combination (-(1 + edD * P.y * Q.y) ^ 2) * hxx
  have h16 : (16 : Fe) ≠ 0 := by
    have : (16 : Fe) = 2 ^ 4 := by ring
    rw [this]; exact pow_ne_zero _ fe_two_ne_zero
  generalize hM : (1 + edD * P.y ^ 2) * (1 + edD * Q.y ^ 2) * (m * n) = M at *
  have hM0 : M ≠ 0 := by rw [← hM]; exact mul_ne_zero (mul_ne_zero hdP hdQ) (mul_ne_zero hm hp)
  generalize hK : (1 + edD) * (1 + edD * P.y ^ 2 * Q.y ^ 2) = K at *
  have hK0 : K ≠ 0 := by rw [← hK]; exact mul_ne_zero hd1 hk
  refine ⟨16 * c ^ 2 * e ^ 2 * (M * K⁻¹) * (1 + B.y), ?_, ?_, ?_⟩
  · exact mul_ne_zero (mul_ne_zero (mul_ne_zero (mul_ne_zero h16 (pow_ne_zero _ hc)) (pow_ne_zero _ he))
      (mul_ne_zero hM0 (inv_ne_zero hK0))) hb1
  · simp only [xAdd, h1, h2, h3, h4]
    have : 16 * c ^ 2 * e ^ 2 * (M * K⁻¹) * (1 + B.y) * (1 + (P + Q).y) =
        16 * c ^ 2 * e ^ 2 * K⁻¹ * (M * ((1 + (P + Q).y) * (1 + B.y))) := by ring
    rw [this, hplus]
    field_simp
    ring
  · simp only [xAdd, h1, h2, h3, h4]
    have : 16 * c ^ 2 * e ^ 2 * (M * K⁻¹) * (1 + B.y) * (1 - (P + Q).y) =
        B.u * (16 * c ^ 2 * e ^ 2 * K⁻¹ * (M * ((1 - (P + Q).y) * (1 - B.y)))) := by rw [← hub]; ring
    rw [this, hminus]
    field_simp
    ring

theorem Mont.ladder {P : EdPoint} (hu : P.u ≠ 0) (n k : Nat) (h : k < 2 ^ n) :
    Mont (k • P) (Verif.ladder P.u n k).1 ∧ Mont ((k + 1) • P) (Verif.ladder P.u n k).2 := by
  induction n generalizing k with
  | zero =>
    have : k = 0 := by simpa using h
    subst this
    rw [zero_nsmul, zero_add, one_nsmul]
    exact ⟨Mont.zero, Mont.point hu⟩
  | succ n ih =>
    obtain ⟨h1, h2⟩ := ih (k / 2) (by rw [Nat.pow_succ] at h; omega)
    have hadd := Mont.add h1 h2 (B := P) (by rw [add_nsmul, one_nsmul, add_comm]) hu
    rw [← add_nsmul] at hadd
    have hd1 := h1.dbl
    have hd2 := h2.dbl
    rw [← add_nsmul] at hd1 hd2
    unfold Verif.ladder
    simp only
    split
    · rename_i hk
      have e1 : k / 2 + (k / 2 + 1) = k := by omega
      have e2 : k / 2 + 1 + (k / 2 + 1) = k + 1 := by omega
      rw [e1] at hadd
      rw [e2] at hd2
      exact ⟨hadd, hd2⟩
    · have e1 : k / 2 + (k / 2 + 1) = k + 1 := by omega
      have e2 : k / 2 + k / 2 = k := by omega
      rw [e1] at hadd
      rw [e2] at hd1
      exact ⟨hd1, hadd⟩

end EdPoint

/-- For the coordinate zero the ladder gives zero. -/
theorem ladder_zero (n k : Nat) : (ladder 0 n k).1.2 = 0 ∧ (ladder 0 n k).2.1 * (ladder 0 n k).2.2 = 0 := by
  induction n generalizing k with
  | zero => simp [ladder]
  | succ n ih =>
    obtain ⟨h1, h2⟩ := ih (k / 2)
    unfold ladder
    simp only
    have hd : ∀ r : Fe × Fe, r.1 * r.2 = 0 → (xDbl r).2 = 0 := by
      intro r h
      simp only [xDbl]
      have : (r.1 + r.2) ^ 2 - (r.1 - r.2) ^ 2 = 0 := by linear_combination 4 * h
      rw [this, zero_mul]
    have ha : ∀ r s : Fe × Fe, (xAdd 0 r s).2 = 0 := by intro r s; simp [xAdd]
    split
    · exact ⟨ha _ _, by rw [hd _ h2, mul_zero]⟩
    · exact ⟨hd _ (by rw [h1, mul_zero]), by rw [ha, mul_zero]⟩

/-- What the ladder computes for the `k`-th multiple of the point with the first coordinate `-1`, which is of order four on the
twist: the point itself, the point of order two, or zero. -/
def TwistClass (k : Nat) (r : Fe × Fe) : Prop :=
  (k % 4 = 0 ∧ r.1 ≠ 0 ∧ r.2 = 0) ∨ (k % 4 = 2 ∧ r.1 = 0 ∧ r.2 ≠ 0) ∨ (k % 2 = 1 ∧ r.2 ≠ 0 ∧ r.1 = -r.2)

theorem natCast_ne_zero {n : Nat} (h : n % fieldPrime ≠ 0) : (n : Fe) ≠ 0 := by
  intro e
  rw [← Nat.cast_zero, natCast_eq, Nat.zero_mod] at e
  exact h e

theorem TwistClass.dbl {k : Nat} {r : Fe × Fe} (h : TwistClass k r) : TwistClass (2 * k) (xDbl r) := by
  obtain ⟨x, z⟩ := r
  rcases h with ⟨hk, hx, hz⟩ | ⟨hk, hx, hz⟩ | ⟨hk, hz, hx⟩
  · simp only at hx hz
    subst hz
    refine .inl ⟨by omega, ?_, ?_⟩
    · simp [xDbl, hx]
    · simp [xDbl]
  · simp only at hx hz
    subst hx
    refine .inl ⟨by omega, ?_, ?_⟩
    · simp [xDbl, hz]
    · simp [xDbl]
  · simp only at hx hz
    subst hx
    refine .inr (.inl ⟨by omega, ?_, ?_⟩)
    · simp [xDbl]
    · have : (xDbl (-z, z)).2 = ((16 * 121665 : Nat) : Fe) * z ^ 4 := by
        simp only [xDbl]
        push_cast
        ring
      rw [this]
      exact mul_ne_zero (natCast_ne_zero (by decide +kernel)) (pow_ne_zero 4 hz)

theorem TwistClass.add {k : Nat} {r s : Fe × Fe} (h : TwistClass k r) (h' : TwistClass (k + 1) s) :
    TwistClass (2 * k + 1) (xAdd (-1) r s) := by
  have key : ∀ c : Fe, c ≠ 0 → xAdd (-1) r s = ((2 * c) ^ 2, -(2 * c) ^ 2) → TwistClass (2 * k + 1) (xAdd (-1) r s) := by
    intro c hc e
    have h2 : (2 * c) ^ 2 ≠ 0 := by
      have : (2 : Fe) ≠ 0 := by
        have := natCast_ne_zero (n := 2) (by decide +kernel)
        exact_mod_cast this
      exact pow_ne_zero 2 (mul_ne_zero this hc)
    rw [e]
    exact .inr (.inr ⟨by omega, neg_ne_zero.2 h2, by simp⟩)
  obtain ⟨x, z⟩ := r
  obtain ⟨x', z'⟩ := s
  unfold TwistClass at h h'
  simp only at h h'
  rcases h with ⟨hk, hx, hz⟩ | ⟨hk, hx, hz⟩ | ⟨hk, hz, hx⟩ <;>
    rcases h' with ⟨hk', hx', hz'⟩ | ⟨hk', hx', hz'⟩ | ⟨hk', hz', hx'⟩ <;> first | omega | skip
  · subst hz hx'
    exact key (x * z') (mul_ne_zero hx hz') (by ext <;> simp only [xAdd] <;> ring)
  · subst hx hx'
    exact key (z * z') (mul_ne_zero hz hz') (by ext <;> simp only [xAdd] <;> ring)
  · subst hx hz'
    exact key (z * x') (mul_ne_zero hz hx') (by ext <;> simp only [xAdd] <;> ring)
  · subst hx hx'
    exact key (z * z') (mul_ne_zero hz hz') (by ext <;> simp only [xAdd] <;> ring)

theorem ladder_neg_one (n k : Nat) (h : k < 2 ^ n) :
    TwistClass k (ladder (-1) n k).1 ∧ TwistClass (k + 1) (ladder (-1) n k).2 := by
  induction n generalizing k with
  | zero =>
    have : k = 0 := by simpa using h
    subst this
    exact ⟨.inl ⟨rfl, by simp [ladder], by simp [ladder]⟩, .inr (.inr ⟨rfl, by simp [ladder], by simp [ladder]⟩)⟩
  | succ n ih =>
    obtain ⟨h1, h2⟩ := ih (k / 2) (by omega)
    unfold ladder
    simp only
    split
    · have e1 : k = 2 * (k / 2) + 1 := by omega
      have e2 : k + 1 = 2 * (k / 2 + 1) := by omega
      refine ⟨?_, ?_⟩
      · conv => arg 1; rw [e1]
        exact h1.add h2
      · rw [e2]; exact h2.dbl
    · have e1 : k = 2 * (k / 2) := by omega
      have e2 : k + 1 = 2 * (k / 2) + 1 := by omega
      refine ⟨?_, ?_⟩
      · conv => arg 1; rw [e1]
        exact h1.dbl
      · rw [e2]; exact h1.add h2

end Verif
