import Verif.Proofs.Standards
import Verif.Proofs.StandardsAes
import Verif.Props.Standard

/-!
# C115: the algorithms are those of the standards
-/

namespace Verif

open Doc

/-- **C115**, SHA-256: what the model computes is the digest of FIPS 180-4, for every message, and nothing else is. -/
theorem C115_sha256 (m d : Bytes) : IsSha sha256Functions m d ↔ d = sha256 m := sha256_follows.hash m d

/-- **C115**, SHA-512. -/
theorem C115_sha512 (m d : Bytes) : IsSha sha512Functions m d ↔ d = sha512 m := sha512_follows.hash m d

/-- **C115**, HMAC: RFC 2104 with SHA-256, for every key, long or short, and every text. -/
theorem C115_hmac (key text d : Bytes) : IsHmac sha256 key text d ↔ d = hmac256 key text := hmac256_eq key text d

/-- **C115**, HKDF: RFC 5869 with this HMAC, for every secret, salt, info and length. -/
theorem C115_hkdf (secret salt info : Bytes) (n : Nat) (okm : Bytes) : IsHkdf hmac256 secret salt info n okm ↔ okm = hkdf256 secret salt info n :=
  hkdf256_eq secret salt info n okm

/-- **C115**, AES: there is an S-box as FIPS 197 describes it, with which `Cipher` of FIPS 197 is what the model computes, for every key of
128, 192 or 256 bits and every block; and decryption is its inverse. -/
theorem C115_aes : ∃ sub : UInt8 → UInt8, (∀ x, IsSub x (sub x)) ∧
    ∀ key block : Bytes, key.length = 16 ∨ key.length = 24 ∨ key.length = 32 → block.length = 16 →
      aesEncrypt key block = aesCipher sub key block ∧ aesDecrypt key (aesCipher sub key block) = block :=
  ⟨aesSub, isSub, fun key block hk hb =>
    ⟨aesEncrypt_eq key block hk hb, by rw [← aesEncrypt_eq key block hk hb]; exact (C81_aes_inverts key block hk hb).2⟩⟩

/-- the first constants of SHA-256 are those of the standard, and eighty primes are enough -/
example : primes.length = 80 ∧ primes.take 5 = [2, 3, 5, 7, 11] ∧ (Sha.K 0 : BitVec 32) = 0x428a2f98 :=
  ⟨by decide +kernel, by decide +kernel, BitVec.eq_of_toNat_eq (rootBits_of_check (by decide) (by decide +kernel))⟩

/-- the field of 256 elements, with the example of FIPS 197, 4.2 -/
example : gmul 0x57 0x83 = 0xc1 ∧ gmul 0x53 0xca = 1 ∧ IsSub 0x53 0xed := ⟨by decide +kernel, by decide +kernel, isSub 0x53⟩

end Verif
