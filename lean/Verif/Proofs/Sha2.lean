import Verif.Model.Sha2
import Verif.Model.Crypto

/-!
# The lengths of hashes
-/

namespace Verif

theorem Sha2.round_length (H : Sha2) {s : List Nat} {kw : Nat} (h : s.length = 8) : (H.round s kw).length = 8 := by
  unfold Sha2.round
  split
  · rfl
  · exact h

theorem Sha2.rounds_length (H : Sha2) {ks w s : List Nat} (h : s.length = 8) : (H.rounds ks w s).length = 8 := by
  induction ks generalizing w s with
  | nil => exact h
  | cons k ks ih => exact ih (H.round_length h)

theorem Sha2.blocks_length (H : Sha2) {n : Nat} {m : Bytes} {s : List Nat} (h : s.length = 8) :
    (H.blocks n m s).length = 8 := by
  induction n generalizing m s with
  | zero => exact h
  | succ n ih =>
    apply ih
    rw [List.length_zipWith, H.rounds_length h, h]
    rfl

theorem Sha2.hash_length (H : Sha2) (h : H.init.length = 8) (m : Bytes) : (H.hash m).length = 8 * H.bytes := by
  have : ∀ l : List Nat, (l.flatMap H.wordBytes).length = l.length * H.bytes := by
    intro l
    induction l with
    | nil => simp
    | cons a l ih =>
      rw [List.flatMap_cons, List.length_append, ih, List.length_cons, Nat.succ_mul]
      simp [Sha2.wordBytes, Nat.add_comm]
  unfold Sha2.hash
  simp only
  rw [this, H.blocks_length h]

theorem sha256_length (m : Bytes) : (sha256 m).length = 32 := sha256P.hash_length rfl m
theorem sha512_length (m : Bytes) : (sha512 m).length = 64 := sha512P.hash_length rfl m
theorem hmac256_length (k m : Bytes) : (hmac256 k m).length = 32 := sha256_length _

theorem hkdfBlocks_length (prk info : Bytes) (n i : Nat) (t : Bytes) : (hkdfBlocks prk info n i t).length = 32 * n := by
  induction n generalizing i t with
  | zero => rfl
  | succ n ih =>
    unfold hkdfBlocks
    simp only
    rw [List.length_append, ih, hmac256_length]
    omega

theorem hkdf256_length (s t i : Bytes) (n : Nat) : (hkdf256 s t i n).length = n := by
  unfold hkdf256
  rw [List.length_take, hkdfBlocks_length]
  omega

end Verif
