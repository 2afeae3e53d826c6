import Verif.Model.Curve25519
import Verif.Model.Aes
import Verif.Proofs.Sha2
import Verif.Proofs.AesBlock

/-!
# The primitives the library uses

`Crypto.standard` takes for every function of `Crypto` the one the library calls: HMAC and HKDF with SHA-256, SHA-512,
AES, X25519 and XEdDSA. All laws `Crypto` asks for are proved, so a theorem about an arbitrary `Crypto` holds for this
one without any assumption.
-/

namespace Verif

/-- The hash functions and AES (the imports of protocol/ratchet/keys.go:4-8, protocol/fingerprint/fingerprint.go:5,
protocol/crypto/aes/aes.go:6), on top of other functions for keys, key agreement and signatures. For a key that
`aes.NewCipher` refuses nothing is computed. -/
def Crypto.withHashes (C : Crypto) : Crypto :=
  { C with
    hmac := hmac256
    hmac_len := hmac256_length
    hkdf := hkdf256
    hkdf_len := hkdf256_length
    sha512 := Verif.sha512
    sha512_len := sha512_length
    aesEnc := fun k b => if aesKeyOk k then aesEncrypt k b else b
    aesDec := fun k b => if aesKeyOk k then aesDecrypt k b else b
    aesEnc_len := by
      intro k b h
      split
      · rename_i hk; exact aesEncrypt_length hk h
      · exact h
    aesDec_len := by
      intro k b h
      split
      · rename_i hk; exact aesDecrypt_length hk h
      · exact h
    aes_dec_enc := by
      intro k b hk h
      rw [if_pos hk, if_pos hk, aesDecrypt_encrypt hk h] }

/-- A family of functions to start from; none of them is left in `Crypto.standard`. Models nothing in /repo. -/
def Crypto.start : Crypto where
  hmac _ _ := List.replicate 32 0
  hmac_len _ _ := rfl
  hkdf _ _ _ n := List.replicate n 0
  hkdf_len _ _ _ _ := List.length_replicate
  sha512 _ := List.replicate 64 0
  sha512_len _ := rfl
  aesEnc _ b := b
  aesDec _ b := b
  aesEnc_len _ _ h := h
  aesDec_len _ _ h := h
  aes_dec_enc _ _ _ _ := rfl
  pub _ := List.replicate 32 0
  pub_len _ := rfl
  dh _ _ := some (List.replicate 32 0)
  dh_len _ _ _ h := by injection h with h; subst h; rfl
  dh_comm _ _ _ _ _ _ := rfl
  dh_honest _ _ _ _ _ _ := rfl
  sign _ _ _ := List.replicate 64 0
  sign_len _ _ _ := rfl
  verify _ _ _ := some true
  verify_sign _ _ _ _ _ _ := rfl

/-- The primitives the library uses (protocol/curve/curve25519/curve25519.go:5-16, protocol/crypto/aes/aes.go:6-7,
protocol/ratchet/keys.go:4-8, protocol/fingerprint/fingerprint.go:5). -/
noncomputable def Crypto.standard : Crypto := Crypto.start.withHashes.onCurve

end Verif
