import Mathlib.GroupTheory.Coset.Card
import Mathlib.SetTheory.Cardinal.Finite
import Verif.Proofs.XEdDSA

/-!
# The number of points of the curve
-/

namespace Verif

namespace EdPoint

/-- A point of order eight. -/
def eighth : EdPoint where
  x := (0x1fd5b9a006394a28e933993238de4abb5c193c7013e5e238dea14646c545d14a : Nat)
  y := (0x5fc536d880238b13933c6d305acdfd5f098eff289f4c345b027b2c28f95e826 : Nat)
  on := by
    unfold OnCurve edD
    rw [sub_eq_iff_eq_add]
    norm_cast

/-- The same point in projective coordinates. -/
def peighth : Proj :=
  (0x1fd5b9a006394a28e933993238de4abb5c193c7013e5e238dea14646c545d14a,
    0x5fc536d880238b13933c6d305acdfd5f098eff289f4c345b027b2c28f95e826, 1)

theorem Rep.eighth : Rep eighth peighth := by
  simp [Rep, peighth, EdPoint.eighth]

theorem order_eighth : addOrderOf eighth = 8 := by
  have h8 : 8 • eighth = 0 := by
    refine (Rep.eighth.mul (fuel := 8) (n := 8) (by decide +kernel)).eq_zero ?_ ?_
    · decide +kernel
    · decide +kernel
  have h4 : 4 • eighth ≠ 0 := by
    intro h
    obtain ⟨hz, _, h2⟩ := Rep.eighth.mul (fuel := 8) (n := 4) (by decide +kernel)
    rw [h, zero_y, one_mul, natCast_eq] at h2
    revert h2
    decide +kernel
  have : Fact (Nat.Prime 2) := ⟨Nat.prime_two⟩
  exact addOrderOf_eq_prime_pow (p := 2) (n := 2) (by simpa using h4) (by simpa using h8)

/-- The curve has no more points than there are strings of 32 bytes. -/
theorem code_injective : Function.Injective fun P : EdPoint => (⟨leNat P.bytes, by
    have := leNat_lt P.bytes
    rwa [bytes_length] at this⟩ : Fin (256 ^ 32)) := by
  intro P Q h
  refine bytes_inj ?_
  have h1 : leNat P.bytes = leNat Q.bytes := by simpa only [Fin.mk.injEq] using h
  rw [← leBytes_leNat P.bytes, ← leBytes_leNat Q.bytes, h1, bytes_length, bytes_length]

instance : Finite EdPoint := Finite.of_injective _ code_injective

/-- The curve has eight times as many points as the base point has multiples. -/
theorem card : Nat.card EdPoint = 8 * groupOrder := by
  have hle : Nat.card EdPoint ≤ 256 ^ 32 := by
    have := Nat.card_le_card_of_injective _ code_injective
    simpa using this
  have hL : groupOrder ∣ Nat.card EdPoint := by
    have : Fact groupOrder.Prime := ⟨groupOrder_prime⟩
    rw [← addOrderOf_eq_prime order_base base_ne_zero]
    exact addOrderOf_dvd_natCard _
  have h8 : 8 ∣ Nat.card EdPoint := order_eighth ▸ addOrderOf_dvd_natCard _
  have hco : Nat.Coprime 8 groupOrder := by decide +kernel
  obtain ⟨h, hh⟩ := hco.mul_dvd_of_dvd_of_dvd h8 hL
  have hpos : 0 < Nat.card EdPoint := Nat.card_pos
  have h2 : 256 ^ 32 < 8 * groupOrder * 2 := by decide +kernel
  have : h = 1 := by
    rcases h with _ | _ | h
    · omega
    · rfl
    · exfalso
      have : 8 * groupOrder * 2 ≤ 8 * groupOrder * (h + 1 + 1) := Nat.mul_le_mul_left _ (by omega)
      omega
  rw [hh, this, Nat.mul_one]

/-- A multiple by a private key vanishes, doubled or not, only for the points of small order. -/
theorem smul_clamped {n m : Nat} (hn : n = 8 * m) (h0 : 0 < m) (hlt : m < 2 ^ 252) (P : EdPoint) : 2 • n • P = 0 ↔ 8 • P = 0 := by
  subst hn
  constructor
  · intro h
    have e : (16 * m) • P = 0 := by rw [← h, ← mul_nsmul]; congr 1; omega
    have h1 := addOrderOf_dvd_iff_nsmul_eq_zero.2 e
    have h2 : addOrderOf P ∣ 8 * groupOrder := card ▸ addOrderOf_dvd_natCard P
    have hco : Nat.Coprime (2 * m) groupOrder := by
      refine Nat.Coprime.symm ((Nat.Prime.coprime_iff_not_dvd groupOrder_prime).2 fun hd => ?_)
      rcases (Nat.Prime.dvd_mul groupOrder_prime).1 hd with h3 | h3
      · exact absurd (Nat.le_of_dvd (by omega) h3) (by decide +kernel)
      · have := Nat.le_of_dvd h0 h3
        have h4 : 2 ^ 252 < groupOrder := by decide +kernel
        omega
    have h3 : addOrderOf P ∣ Nat.gcd (8 * (2 * m)) (8 * groupOrder) := Nat.dvd_gcd (by rwa [← Nat.mul_assoc]) h2
    rw [Nat.gcd_mul_left, hco, Nat.mul_one] at h3
    exact addOrderOf_dvd_iff_nsmul_eq_zero.1 h3
  · intro h
    rw [mul_nsmul, h, nsmul_zero, nsmul_zero]

/-! ## The points of small order -/

theorem x_of_u_zero {P : EdPoint} (h : P.x = 0) : P.u = 0 := by
  have hon := P.on
  unfold OnCurve at hon
  rw [h] at hon
  have : (1 + P.y) * (1 - P.y) = 0 := by linear_combination -hon
  unfold u
  rcases mul_eq_zero.1 this with h | h <;> rw [h] <;> simp

theorem double_x (P : EdPoint) : (2 • P).x = 0 ↔ P.x = 0 ∨ P.y = 0 := by
  obtain ⟨hp, _⟩ := denominators P P
  rw [two_nsmul, add_x, addX, div_eq_zero_iff, or_iff_left hp]
  have h2 := fe_two_ne_zero
  constructor
  · intro h
    have : 2 * (P.x * P.y) = 0 := by linear_combination h
    simpa [h2] using this
  · rintro (h | h) <;> rw [h] <;> ring

/-- A square root of `1 + d`. -/
def rootD : Fe := (28684908821141429758912547916212233914183938327803420948194326298794999701186 : Nat)

theorem rootD_sq : rootD ^ 2 = 1 + edD := by
  unfold rootD edD
  rw [← Nat.cast_pow, ← Nat.cast_one, ← Nat.cast_add, natCast_eq]
  decide +kernel

theorem eighth_root : edD * eighth.y ^ 2 = -1 - rootD := by
  have : edD * eighth.y ^ 2 + 1 + rootD = 0 := by
    unfold rootD edD eighth
    simp only
    rw [← Nat.cast_pow, ← Nat.cast_one, ← Nat.cast_mul, ← Nat.cast_add, ← Nat.cast_add, ← Nat.cast_zero, natCast_eq]
    decide +kernel
  linear_combination this

/-- The other root is not a square. -/
theorem other_root (y : Fe) : edD * y ^ 2 ≠ -1 + rootD := by
  intro h
  have hs : IsSquare (edD * (-1 + rootD)) → False := by
    intro hs
    have e : edD * (-1 + rootD) = ((37095705934669439343138083508754565189542113879843219016388785533085940283555 * 28684908821141429758912547916212233914183938327803420948194326298794999701185 : Nat) : Fe) := by
      unfold rootD edD
      rw [Nat.cast_mul]
      have : ((28684908821141429758912547916212233914183938327803420948194326298794999701186 : Nat) : Fe) =
          ((28684908821141429758912547916212233914183938327803420948194326298794999701185 : Nat) : Fe) + 1 := by
        rw [← Nat.cast_one, ← Nat.cast_add]
      rw [this]; ring
    have h0 : edD * (-1 + rootD) ≠ 0 := by
      rw [e, ← Nat.cast_zero, Ne, natCast_eq]
      decide +kernel
    rw [ZMod.euler_criterion fieldPrime h0, e, ← Nat.cast_pow, ← Nat.cast_one, natCast_eq,
      ← powMod_eq fieldPrime 256 _ (fieldPrime / 2) (by decide +kernel)] at hs
    revert hs
    decide +kernel
  exact hs ⟨edD * y, by rw [← h]; ring⟩

theorem double_y {P : EdPoint} (h : (2 • P).y = 0) : P.y = eighth.y ∨ P.y = -eighth.y := by
  obtain ⟨_, hm⟩ := denominators P P
  rw [two_nsmul, add_y, addY, div_eq_zero_iff, or_iff_left hm] at h
  have hon := P.on
  unfold OnCurve at hon
  have hx : P.x ^ 2 = -P.y ^ 2 := by linear_combination h
  rw [hx] at hon
  have e : (edD * P.y ^ 2 - (-1 - rootD)) * (edD * P.y ^ 2 - (-1 + rootD)) = 0 := by
    linear_combination edD * hon - rootD_sq
  have e1 := (mul_eq_zero.1 e).resolve_right (sub_ne_zero.2 (other_root _))
  rw [← eighth_root] at e1
  have e2 : edD * ((P.y - eighth.y) * (P.y + eighth.y)) = 0 := by linear_combination e1
  rcases mul_eq_zero.1 ((mul_eq_zero.1 e2).resolve_left edD_ne_zero) with h | h
  · exact .inl (sub_eq_zero.1 h)
  · exact .inr (eq_neg_of_add_eq_zero_left h)

/-- The coordinates of the points whose order divides eight. -/
def small1 : Nat := 325606250916557431795983626356110631294008115727848805560023387167927233504
def small2 : Nat := 39382357235489614581723060781553021112529911719440698176882885853963445705823

theorem u_of_y {P : EdPoint} {v : Fe} (h1 : 1 - P.y ≠ 0) (h : v * (1 - P.y) = 1 + P.y) : P.u = v := by
  unfold u
  rw [← h, mul_assoc, mul_inv_cancel₀ h1, mul_one]

theorem eighth_y_ne : 1 - eighth.y ≠ 0 ∧ 1 + eighth.y ≠ 0 := by
  constructor
  · intro h
    have h : eighth.y = ((1 : Nat) : Fe) := by rw [Nat.cast_one]; linear_combination -h
    unfold eighth at h
    simp only at h
    rw [natCast_eq] at h
    revert h
    decide +kernel
  · unfold eighth
    simp only
    rw [← Nat.cast_one, ← Nat.cast_add, ← Nat.cast_zero, Ne, natCast_eq]
    decide +kernel

theorem small2_eq : (small2 : Fe) * (1 - eighth.y) = 1 + eighth.y := by
  have : (small2 : Fe) = 1 + eighth.y + (small2 : Fe) * eighth.y := by
    unfold eighth
    simp only
    rw [← Nat.cast_one, ← Nat.cast_mul, ← Nat.cast_add, ← Nat.cast_add, natCast_eq]
    decide +kernel
  linear_combination this

theorem small1_eq : (small1 : Fe) * (1 + eighth.y) = 1 - eighth.y := by
  have : (small1 : Fe) + (small1 : Fe) * eighth.y + eighth.y = 1 := by
    unfold eighth
    simp only
    rw [← Nat.cast_one, ← Nat.cast_mul, ← Nat.cast_add, ← Nat.cast_add, natCast_eq]
    decide +kernel
  linear_combination this

/-- Another point of order eight. -/
def eighth' : EdPoint := ⟨eighth.x, -eighth.y, by have := eighth.on; unfold OnCurve at this ⊢; rw [neg_sq]; exact this⟩

theorem eighth'_y : eighth'.y = -eighth.y := rfl

theorem eight_eighth' : 8 • eighth' = 0 := by
  have hs : eighth.y * eighth.y + eighth.x * eighth.x = 0 := by
    unfold eighth
    simp only
    rw [← Nat.cast_mul, ← Nat.cast_mul, ← Nat.cast_add, ← Nat.cast_zero, natCast_eq]
    decide +kernel
  have hy : (2 • eighth').y = 0 := by
    obtain ⟨_, hm⟩ := denominators eighth' eighth'
    rw [two_nsmul, add_y, addY, div_eq_zero_iff]
    left
    show -eighth.y * -eighth.y + eighth.x * eighth.x = 0
    rw [neg_mul_neg, hs]
  have h4 := eq_zero_of_u (x_of_u_zero ((double_x (2 • eighth')).2 (.inr hy)))
  rw [← mul_nsmul, ← mul_nsmul] at h4
  exact h4

theorem eight_smul_u {P : EdPoint} (h : 8 • P = 0) : P.u = 0 ∨ P.u = 1 ∨ P.u = (small1 : Fe) ∨ P.u = (small2 : Fe) := by
  have h1 : (2 • (2 • (2 • P))).x = 0 := by
    rw [← mul_nsmul, ← mul_nsmul]
    exact (congrArg EdPoint.x h).trans zero_x
  rw [double_x, double_x] at h1
  have four : (2 • P).x = 0 → P.u = 0 ∨ P.u = 1 := by
    intro h
    rcases (double_x P).1 h with h | h
    · exact .inl (x_of_u_zero h)
    · right; unfold u; rw [h]; simp
  have eight : (2 • P).y = 0 → P.u = (small1 : Fe) ∨ P.u = (small2 : Fe) := by
    intro h
    rcases double_y h with h | h
    · right
      exact u_of_y (by rw [h]; exact eighth_y_ne.1) (by rw [h]; exact small2_eq)
    · left
      refine u_of_y (by rw [h, sub_neg_eq_add]; exact eighth_y_ne.2) ?_
      rw [h, sub_neg_eq_add, small1_eq]
      ring
  rcases h1 with (h1 | h1) | h1
  · rcases four h1 with h | h
    · exact .inl h
    · exact .inr (.inl h)
  · rcases eight h1 with h | h
    · exact .inr (.inr (.inl h))
    · exact .inr (.inr (.inr h))
  · exfalso
    generalize hQ : 2 • (2 • P) = Q at h1
    have hy : (2 • Q).y = 1 := by
      rw [← hQ, ← mul_nsmul, ← mul_nsmul]
      exact (congrArg EdPoint.y h).trans zero_y
    have hon := Q.on
    unfold OnCurve at hon
    rw [h1] at hon
    rw [two_nsmul, add_y, addY, h1] at hy
    simp only [mul_zero, sub_zero, div_one, zero_add] at hy
    exact fe_two_ne_zero (by linear_combination -hy - hon)

end EdPoint

end Verif
