import Verif.Model.Basic

/-!
# Cryptographic primitives

The primitives the library calls are arbitrary functions with the laws the code relies on. Nothing is assumed
about secrecy, injectivity or collision-freedom.
-/

namespace Verif

/-- `b &= m` / `b |= m` at index `i` of a byte string (no effect outside the bounds).
(protocol/curve/curve25519/curve25519.go:180-181.) -/
def modifyAt (bs : Bytes) (i : Nat) (f : UInt8 → UInt8) : Bytes := bs.modify i f

@[simp] theorem modifyAt_length (bs : Bytes) (i : Nat) (f : UInt8 → UInt8) :
    (modifyAt bs i f).length = bs.length := by simp [modifyAt]

/-- protocol/curve/curve25519/curve25519.go:76-82 — clamping of a 32-byte private key. -/
def clamp (key : Bytes) : Bytes :=
  modifyAt (modifyAt (modifyAt key 0 (· &&& 248)) 31 (· &&& 63)) 31 (· ||| 64)

@[simp] theorem clamp_length (key : Bytes) : (clamp key).length = key.length := by simp [clamp]

theorem u8_clamp0 (b : UInt8) : (b &&& 248) &&& 248 = b &&& 248 := by
  rw [UInt8.and_assoc]; rfl

theorem u8_clamp31 (b : UInt8) : (((b &&& 63) ||| 64) &&& 63) ||| 64 = (b &&& 63) ||| 64 := by
  revert b
  have h : ∀ n : Fin 256, ((((UInt8.ofNat n.1) &&& 63) ||| 64) &&& 63) ||| 64 = ((UInt8.ofNat n.1) &&& 63) ||| 64 := by
    decide +kernel
  intro b
  have := h ⟨b.toNat, b.toNat_lt⟩
  simpa using this

/-- Clamping twice is clamping once. -/
theorem clamp_idem (key : Bytes) : clamp (clamp key) = clamp key := by
  apply List.ext_getElem?
  intro i
  simp only [clamp, modifyAt, List.getElem?_modify]
  cases key[i]? with
  | none => simp
  | some b =>
    by_cases h0 : i = 0
    · subst h0; simp [UInt8.and_assoc]
    · by_cases h31 : i = 31
      · subst h31
        simp [u8_clamp31]
      · simp [Ne.symm h0, Ne.symm h31]

/-- AES key lengths accepted by `aes.NewCipher`. (protocol/crypto/aes/aes.go:14-17 and 38-41.) -/
def aesKeyOk (k : Bytes) : Bool := k.length == 16 || k.length == 24 || k.length == 32

/-- A family of cryptographic primitives. Private keys are given in clamped form; X25519 and
`SetBytesWithClamping` clamp their argument themselves, so this loses nothing.
(the dependencies imported by protocol/curve/curve25519/curve25519.go:5-16, protocol/crypto/aes/aes.go:6-7, protocol/ratchet/keys.go and protocol/fingerprint/fingerprint.go.) -/
structure Crypto where
  /-- HMAC-SHA256 of a message under a key. -/
  hmac : Bytes → Bytes → Bytes
  hmac_len : ∀ k m, (hmac k m).length = 32
  /-- First `n` bytes of HKDF-SHA256 with the given secret, salt and info. -/
  hkdf : Bytes → Bytes → Bytes → Nat → Bytes
  hkdf_len : ∀ s t i n, (hkdf s t i n).length = n
  /-- SHA-512. -/
  sha512 : Bytes → Bytes
  sha512_len : ∀ m, (sha512 m).length = 64
  /-- AES on one 16-byte block. -/
  aesEnc : Bytes → Bytes → Bytes
  aesDec : Bytes → Bytes → Bytes
  aesEnc_len : ∀ k b, b.length = 16 → (aesEnc k b).length = 16
  aesDec_len : ∀ k b, b.length = 16 → (aesDec k b).length = 16
  aes_dec_enc : ∀ k b, aesKeyOk k = true → b.length = 16 → aesDec k (aesEnc k b) = b
  /-- X25519 public key of a (clamped) private key. -/
  pub : Bytes → Bytes
  pub_len : ∀ a, (pub a).length = 32
  /-- X25519; `none` for the all-zero output (low-order public key). -/
  dh : Bytes → Bytes → Option Bytes
  dh_len : ∀ a p s, dh a p = some s → s.length = 32
  /-- Diffie-Hellman commutes for clamped keys. -/
  dh_comm : ∀ a b, a.length = 32 → b.length = 32 → clamp a = a → clamp b = b → dh a (pub b) = dh b (pub a)
  /-- X25519 with an honestly generated public key never gives the all-zero output. -/
  dh_honest : ∀ a b, a.length = 32 → b.length = 32 → clamp a = a → clamp b = b → (dh a (pub b)).isSome
  /-- XEdDSA signature of a message under a clamped private key with 64 random bytes. -/
  sign : Bytes → Bytes → Bytes → Bytes
  sign_len : ∀ a z m, (sign a z m).length = 64
  /-- XEdDSA verification: public key (u-coordinate), message, 64-byte signature; `none` is the
  "invalid u-point" error. -/
  verify : Bytes → Bytes → Bytes → Option Bool
  /-- Honest signatures verify (proved for the XEdDSA code in `Verif.Model.Curve25519`). -/
  verify_sign : ∀ a z m, a.length = 32 → clamp a = a → z.length = 64 → verify (pub a) m (sign a z m) = some true

end Verif
