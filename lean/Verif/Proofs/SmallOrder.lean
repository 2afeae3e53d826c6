import Verif.Spec.SmallOrder
import Verif.Proofs.CurveOrder
import Verif.Proofs.Twist

/-!
The number a public key stands for, as the element of the field that X25519 works with.
-/

namespace Verif

theorem leNat_mask (l : Bytes) (b : UInt8) :
    leNat (modifyAt (l ++ [b]) l.length (· &&& 127)) = leNat (l ++ [b]) % (256 ^ l.length * 128) := by
  induction l with
  | nil =>
    simp only [modifyAt, List.nil_append, List.length_nil, List.modify_zero_cons, leNat, Nat.pow_zero, Nat.one_mul, Nat.mul_zero, Nat.add_zero]
    have : ∀ c : UInt8, (c &&& 127).toNat = c.toNat % 128 := forall_u8 (by decide +kernel)
    exact this b
  | cons a l ih =>
    have e : modifyAt (a :: l ++ [b]) (a :: l).length (· &&& 127) = a :: modifyAt (l ++ [b]) l.length (· &&& 127) := by
      simp [modifyAt]
    rw [e, leNat, ih]
    simp only [List.cons_append, leNat, List.length_cons]
    have ha : a.toNat < 256 := a.toNat_lt
    rw [show 256 ^ (l.length + 1) * 128 = 256 * (256 ^ l.length * 128) by rw [Nat.pow_succ]; ring]
    generalize 256 ^ l.length * 128 = N
    rw [Nat.mod_mul]
    have h1 : (a.toNat + 256 * leNat (l ++ [b])) / 256 = leNat (l ++ [b]) := by omega
    have h2 : (a.toNat + 256 * leNat (l ++ [b])) % 256 = a.toNat := by omega
    rw [h1, h2]

theorem feOfBytes_number (p : PubKey) : feOfBytes p.key = ((p.number : Nat) : Fe) := by
  have h31 : 31 < p.key.length := by rw [p.len]; decide
  have hsplit : p.key = p.key.take 31 ++ [p.key[31]] := by
    have := List.take_append_getElem h31
    have e : p.key.take (31 + 1) = p.key := List.take_of_length_le (by rw [p.len])
    rw [e] at this
    exact this.symm
  have h := leNat_mask (p.key.take 31) p.key[31]
  rw [← hsplit, List.length_take, p.len] at h
  unfold feOfBytes PubKey.number
  rw [show min 31 32 = 31 from rfl] at h
  rw [h, show 256 ^ 31 * 128 = 2 ^ 255 by decide +kernel, natCast_eq, ← fieldPrime_eq, Nat.mod_mod]

theorem number_lt (p : PubKey) : p.number < fieldPrime := by
  unfold PubKey.number
  rw [fieldPrime_eq]
  exact Nat.mod_lt _ (by decide +kernel)

theorem number_eq_iff (p : PubKey) (n : Nat) (hn : n < fieldPrime) : feOfBytes p.key = ((n : Nat) : Fe) ↔ p.number = n := by
  rw [feOfBytes_number, natCast_eq, Nat.mod_eq_of_lt (number_lt p), Nat.mod_eq_of_lt hn]

theorem mem_smallOrder (p : PubKey) : p.number ∈ smallOrder ↔
    feOfBytes p.key = 0 ∨ feOfBytes p.key = 1 ∨ feOfBytes p.key = (EdPoint.small1 : Fe) ∨ feOfBytes p.key = (EdPoint.small2 : Fe) ∨
      feOfBytes p.key = -1 := by
  have hm : (-1 : Fe) = ((2 ^ 255 - 19 - 1 : Nat) : Fe) := by
    have h : ((2 ^ 255 - 19 - 1 : Nat) : Fe) + ((1 : Nat) : Fe) = ((0 : Nat) : Fe) := by
      rw [← Nat.cast_add, natCast_eq]
      decide +kernel
    rw [Nat.cast_one, Nat.cast_zero] at h
    exact (eq_neg_of_add_eq_zero_left h).symm
  rw [hm, ← Nat.cast_zero, ← Nat.cast_one (R := Fe), number_eq_iff _ _ (by decide +kernel), number_eq_iff _ _ (by decide +kernel),
    number_eq_iff _ _ (by decide +kernel), number_eq_iff _ _ (by decide +kernel), number_eq_iff _ _ (by decide +kernel)]
  simp [smallOrder, EdPoint.small1, EdPoint.small2]

end Verif
