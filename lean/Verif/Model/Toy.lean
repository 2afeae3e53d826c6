import Verif.Model.Aes

/-!
# A concrete instance of `Crypto`

It shows that the laws of `Crypto` are consistent, and it runs the executable witnesses. It has no security and
models nothing in the repository.
-/

namespace Verif

/-- Models nothing in /repo (see the head of this file). -/
def toyHash (bs : Bytes) : Nat :=
  bs.foldl (fun a b => (a * 115792089237316195423570985008687907853269984665640564039457584007913129639747 + b.toNat + 1)
    % 57896044618658097711785492504343953926634992332820282019728792003956564819949) 1

/-- Models nothing in /repo (see the head of this file). -/
def toyBytes (n : Nat) (bs : Bytes) : Bytes :=
  let h := toyHash bs
  leBytes n ((h * h * h + h) % 256 ^ n)

/-- Models nothing in /repo (see the head of this file). -/
def toyPub (a : Bytes) : Bytes := if a.length = 32 then a.map (· ^^^ 0x55) else List.replicate 32 0

/-- Models nothing in /repo (see the head of this file). -/
def toyDh (a p : Bytes) : Option Bytes :=
  let b := p.map (· ^^^ 0x55)
  if b.all (· == 0) then none else some (leBytes 32 ((leNat a * leNat b) % 2 ^ 256))

/-- Models nothing in /repo (see the head of this file). -/
def toyAes (k b : Bytes) : Bytes := List.zipWith (· ^^^ ·) (toyBytes 16 k) b

theorem u8_xor_xor (a b : UInt8) : a ^^^ (a ^^^ b) = b := by
  rw [← UInt8.xor_assoc, UInt8.xor_self, UInt8.zero_xor]

theorem zipWith_xor_xor (k b : Bytes) (h : b.length ≤ k.length) :
    List.zipWith (· ^^^ ·) k (List.zipWith (· ^^^ ·) k b) = b := by
  induction b generalizing k with
  | nil => simp
  | cons x b ih =>
    match k with
    | [] => simp at h
    | y :: k =>
      simp at h
      simp [u8_xor_xor, ih k h]

theorem map_xor_xor (a : Bytes) : (a.map (· ^^^ 0x55)).map (· ^^^ (0x55 : UInt8)) = a := by
  induction a with
  | nil => rfl
  | cons x a ih => simp only [List.map_cons, ih]; rw [UInt8.xor_assoc]; simp

theorem clamped_not_zero (b : Bytes) (hl : b.length = 32) (hc : clamp b = b) : b.all (· == 0) = false := by
  cases hall : b.all (· == 0) with
  | false => rfl
  | true =>
    exfalso
    have h31 : 31 < b.length := by omega
    have hz : b[31] = 0 := by
      rw [List.all_eq_true] at hall
      simpa using hall b[31] (List.getElem_mem h31)
    have := congrArg (fun l => l[31]?) hc
    simp only [clamp, modifyAt, List.getElem?_modify, List.getElem?_eq_getElem h31] at this
    simp [hz] at this

/-- Models nothing in /repo (see the head of this file). -/
def toy : Crypto where
  hmac k m := toyBytes 32 (k ++ [7] ++ m)
  hmac_len _ _ := by simp [toyBytes]
  hkdf s t i n := toyBytes n (s ++ [9] ++ t ++ [9] ++ i)
  hkdf_len _ _ _ _ := by simp [toyBytes]
  sha512 m := toyBytes 64 m
  sha512_len _ := by simp [toyBytes]
  aesEnc := toyAes
  aesDec := toyAes
  aesEnc_len k b h := by simp [toyAes, toyBytes, h]
  aesDec_len k b h := by simp [toyAes, toyBytes, h]
  aes_dec_enc k b _ h := by
    unfold toyAes
    exact zipWith_xor_xor _ _ (by simp [toyBytes, h])
  pub := toyPub
  pub_len a := by
    unfold toyPub
    split <;> simp [*]
  dh := toyDh
  dh_len a p s h := by
    simp only [toyDh] at h
    split at h
    · simp at h
    · simp at h; subst h; simp
  dh_comm a b ha hb hca hcb := by
    simp only [toyDh, toyPub, ha, hb, if_true, map_xor_xor, clamped_not_zero a ha hca, clamped_not_zero b hb hcb,
      Nat.mul_comm]
  dh_honest a b _ hb _ hcb := by
    simp only [toyDh, toyPub, hb, if_true, map_xor_xor, clamped_not_zero b hb hcb]
    rfl
  sign a _ m := toyBytes 64 (toyPub a ++ m)
  sign_len _ _ _ := by simp [toyBytes]
  verify p m s := some (s == toyBytes 64 (p ++ m))
  verify_sign _ _ _ _ _ _ := by simp

end Verif
