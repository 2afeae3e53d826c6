import Verif.Model.Edwards

/-!
The order of the base point, computed with projective coordinates, and what a point's `y` coordinate determines.
-/

namespace Verif

namespace EdPoint

/-- Projective coordinates, as natural numbers. -/
abbrev Proj := Nat × Nat × Nat

/-- `(X, Y, Z)` stands for the point `(X/Z, Y/Z)`. -/
def Rep (P : EdPoint) (t : Proj) : Prop :=
  (t.2.2 : Fe) ≠ 0 ∧ P.x * (t.2.2 : Fe) = (t.1 : Fe) ∧ P.y * (t.2.2 : Fe) = (t.2.1 : Fe)

/-- Addition in projective coordinates. -/
def padd (s t : Proj) : Proj :=
  let p := fieldPrime
  let a := s.2.2 * t.2.2 % p
  let b := a * a % p
  let c := s.1 * t.1 % p
  let d := s.2.1 * t.2.1 % p
  let e := 37095705934669439343138083508754565189542113879843219016388785533085940283555 * (c * d % p) % p
  let f := b + (p - e)
  let g := b + e
  let h := s.1 * t.2.1 + t.1 * s.2.1
  (a * (f * h % p) % p, a * (g * (c + d) % p) % p, f * g % p)

theorem cast_mod (n : Nat) : ((n % fieldPrime : Nat) : Fe) = (n : Fe) := ZMod.natCast_mod n fieldPrime

theorem cast_neg {e : Nat} (h : e ≤ fieldPrime) : ((fieldPrime - e : Nat) : Fe) = -(e : Fe) := by
  rw [Nat.cast_sub h]
  have : ((fieldPrime : Nat) : Fe) = 0 := ZMod.natCast_self fieldPrime
  rw [this, zero_sub]

theorem Rep.add {P Q : EdPoint} {s t : Proj} (hs : Rep P s) (ht : Rep Q t) : Rep (P + Q) (padd s t) := by
  obtain ⟨X1, Y1, Z1⟩ := s
  obtain ⟨X2, Y2, Z2⟩ := t
  obtain ⟨z1, x1, y1⟩ := hs
  obtain ⟨z2, x2, y2⟩ := ht
  simp only at z1 x1 y1 z2 x2 y2
  obtain ⟨h1, h2⟩ := denominators P Q
  have ef : ∀ e : Nat, ((fieldPrime - e % fieldPrime : Nat) : Fe) = -(e : Fe) := by
    intro e
    rw [cast_neg (Nat.le_of_lt (Nat.mod_lt _ fieldPrime_prime.pos)), cast_mod]
  have hd : ((37095705934669439343138083508754565189542113879843219016388785533085940283555 : Nat) : Fe) = edD := rfl
  unfold Rep padd
  simp only [Nat.cast_add, Nat.cast_mul, cast_mod, ef, hd]
  rw [add_x, add_y, addX, addY, ← x1, ← y1, ← x2, ← y2]
  generalize (Z1 : Fe) = z at *
  generalize (Z2 : Fe) = w at *
  have hf : z * w * (z * w) + -(edD * (P.x * z * (Q.x * w) * (P.y * z * (Q.y * w)))) =
      z ^ 2 * w ^ 2 * (1 - edD * P.x * Q.x * P.y * Q.y) := by ring
  have hg : z * w * (z * w) + edD * (P.x * z * (Q.x * w) * (P.y * z * (Q.y * w))) =
      z ^ 2 * w ^ 2 * (1 + edD * P.x * Q.x * P.y * Q.y) := by ring
  rw [hf, hg]
  generalize 1 - edD * P.x * Q.x * P.y * Q.y = f at *
  generalize 1 + edD * P.x * Q.x * P.y * Q.y = g at *
  refine ⟨?_, ?_, ?_⟩
  · exact mul_ne_zero (mul_ne_zero (mul_ne_zero (pow_ne_zero _ z1) (pow_ne_zero _ z2)) h2)
      (mul_ne_zero (mul_ne_zero (pow_ne_zero _ z1) (pow_ne_zero _ z2)) h1)
  · field_simp
  · field_simp
    ring

/-- Multiplication by `n`, by doubling; `fuel` bounds the number of binary digits. -/
def pmul : Nat → Proj → Nat → Proj
  | 0, _, _ => (0, 1, 1)
  | fuel + 1, s, n =>
    if n = 0 then (0, 1, 1)
    else
      let h := pmul fuel (padd s s) (n / 2)
      if n % 2 = 1 then padd s h else h

theorem Rep.zero : Rep 0 (0, 1, 1) := by
  simp [Rep, zero_x, zero_y]

theorem Rep.mul {fuel n : Nat} {P : EdPoint} {s : Proj} (hs : Rep P s) (h : n < 2 ^ fuel) : Rep (n • P) (pmul fuel s n) := by
  induction fuel generalizing P s n with
  | zero =>
    have : n = 0 := by simpa using h
    subst this; rw [zero_nsmul]; exact Rep.zero
  | succ fuel ih =>
    rw [pmul]
    by_cases h0 : n = 0
    · subst h0; rw [zero_nsmul, if_pos rfl]; exact Rep.zero
    rw [if_neg h0]
    have h2 : n / 2 < 2 ^ fuel := by rw [Nat.pow_succ] at h; omega
    have hr := ih (hs.add hs) h2
    have e : (n / 2) • (P + P) = (2 * (n / 2)) • P := by rw [← two_nsmul, smul_smul, mul_comm]
    rw [e] at hr
    simp only
    split
    · rename_i h1
      have : n = 2 * (n / 2) + 1 := by omega
      conv => arg 1; rw [this, succ_nsmul', ]
      exact hs.add hr
    · have : n = 2 * (n / 2) := by omega
      conv => arg 1; rw [this]
      exact hr

theorem Rep.eq_zero {P : EdPoint} {t : Proj} (h : Rep P t) (hx : t.1 % fieldPrime = 0)
    (hy : t.2.1 % fieldPrime = t.2.2 % fieldPrime) : P = 0 := by
  obtain ⟨hz, h1, h2⟩ := h
  have e1 : (t.1 : Fe) = 0 := by rw [← Nat.cast_zero, natCast_eq, hx]; rfl
  have e2 : (t.2.1 : Fe) = (t.2.2 : Fe) := natCast_eq.2 hy
  ext
  · rw [zero_x]
    rw [e1] at h1
    simpa [hz] using h1
  · rw [zero_y]
    rw [e2] at h2
    exact mul_right_cancel₀ hz (by rw [h2, one_mul])

/-- The base point in projective coordinates. -/
def pbase : Proj :=
  (15112221349535400772501151409588531511454012693041857206046113283949847762202,
    46316835694926478169428394003475163141307993866256225615783033603165251855960, 1)

theorem Rep.base : Rep base pbase := by
  simp [Rep, pbase, EdPoint.base]

theorem order_base : groupOrder • base = 0 := by
  refine (Rep.base.mul (fuel := 256) (n := groupOrder) (by decide +kernel)).eq_zero ?_ ?_
  · decide +kernel
  · decide +kernel

theorem base_ne_zero : base ≠ 0 := by
  intro h
  have : base.y * 5 = 4 := base_y
  rw [h, zero_y, one_mul] at this
  have h4 : (4 : Fe) = ((4 : Nat) : Fe) := by norm_cast
  have h5 : (5 : Fe) = ((5 : Nat) : Fe) := by norm_cast
  rw [h4, h5, natCast_eq] at this
  revert this
  decide +kernel

/-- The multiples of the base point repeat with period `groupOrder`, and no sooner. -/
theorem smul_base_eq_zero (n : Nat) : n • base = 0 ↔ groupOrder ∣ n := by
  have : Fact groupOrder.Prime := ⟨groupOrder_prime⟩
  rw [← addOrderOf_eq_prime order_base base_ne_zero, addOrderOf_dvd_iff_nsmul_eq_zero]

theorem smul_base_mod (n : Nat) : (n % groupOrder) • base = n • base := by
  conv_rhs => rw [← Nat.mod_add_div n groupOrder, add_nsmul, mul_nsmul, order_base, nsmul_zero, add_zero]

theorem eq_zero_of_y {P : EdPoint} (h : P.y = 1) : P = 0 := by
  have := P.on
  unfold OnCurve at this
  rw [h] at this
  have e : (1 + edD) * P.x ^ 2 = 0 := by linear_combination -this
  have hd : 1 + edD ≠ 0 := by
    intro h0
    have : IsSquare edD := ⟨feI, by rw [← pow_two, feI_sq]; linear_combination h0⟩
    exact edD_not_square this
  ext
  · simpa [hd, zero_x] using e
  · exact h

/-- A point is determined up to sign by its second coordinate. -/
theorem eq_or_eq_neg {P Q : EdPoint} (h : P.y = Q.y) : P = Q ∨ P = -Q := by
  have hp := P.on
  have hq := Q.on
  unfold OnCurve at hp hq
  rw [h] at hp
  have e : (1 + edD * Q.y ^ 2) * (P.x ^ 2 - Q.x ^ 2) = 0 := by linear_combination hq - hp
  have hd : 1 + edD * Q.y ^ 2 ≠ 0 := by
    intro h0
    by_cases hy : Q.y = 0
    · rw [hy] at h0; simp at h0
    · refine edD_not_square ⟨feI / Q.y, ?_⟩
      field_simp
      linear_combination h0 - feI_sq
  have e2 : (P.x - Q.x) * (P.x + Q.x) = 0 := by
    have := (mul_eq_zero.1 e).resolve_left hd
    linear_combination this
  rcases mul_eq_zero.1 e2 with h1 | h1
  · left; ext
    · exact sub_eq_zero.1 h1
    · exact h
  · right; ext
    · rw [neg_x]; exact eq_neg_of_add_eq_zero_left h1
    · exact h

/-- A point with second coordinate `-1` has order two. -/
theorem two_smul_of_y {P : EdPoint} (h : P.y = -1) : 2 • P = 0 := by
  have := P.on
  unfold OnCurve at this
  rw [h] at this
  have e : (1 + edD) * P.x ^ 2 = 0 := by linear_combination -this
  have hd : 1 + edD ≠ 0 := by
    intro h0
    have : IsSquare edD := ⟨feI, by rw [← pow_two, feI_sq]; linear_combination h0⟩
    exact edD_not_square this
  have hx : P.x = 0 := by simpa [hd] using e
  rw [two_nsmul]
  ext
  · rw [add_x, addX, hx]; simp [zero_x]
  · rw [add_y, addY, hx, h]; simp [zero_y]

end EdPoint

end Verif
