import Verif.Model.Standard
import Verif.Props.Signatures
import Verif.Vectors.Primitives

/-!
# C81: the algorithms the library uses

Every other theorem of this development is about arbitrary primitives that obey a few laws. Here these laws are proved for the algorithms
the library calls, written out from FIPS 180-4, FIPS 197, RFC 2104, RFC 5869 and RFC 7748 and checked against their test vectors
(`Vectors/`).
-/

namespace Verif

/-- **C81.** AES decryption of a block inverts AES encryption, for each of the three key sizes, every key and every block. -/
theorem C81_aes_inverts (key block : Bytes) (hk : key.length = 16 ∨ key.length = 24 ∨ key.length = 32) (hb : block.length = 16) :
    (aesEncrypt key block).length = 16 ∧ aesDecrypt key (aesEncrypt key block) = block := by
  have h : aesKeyOk key = true := by
    unfold aesKeyOk
    rcases hk with h | h | h <;> simp [h]
  exact ⟨aesEncrypt_length h hb, aesDecrypt_encrypt h hb⟩

/-- and AES changes the block: the example of FIPS 197, appendix C.3 -/
example : aesEncrypt (Vectors.hex 32 0x000102030405060708090a0b0c0d0e0f101112131415161718191a1b1c1d1e1f)
    (Vectors.hex 16 0x00112233445566778899aabbccddeeff) = Vectors.hex 16 0x8ea2b7ca516745bfeafc49904b496089 := by
  decide +kernel

/-- **C81.** The algorithms the library uses obey every law that the other theorems ask of the primitives: there are primitives in the sense
of the model whose HMAC, HKDF, SHA-512 and AES are the standard ones, and whose public keys, key agreement, signatures and verification are
the code of the library on the curve with SHA-512. -/
theorem C81_algorithms_meet_the_assumptions : ∃ C : Crypto,
    C.hmac = hmac256 ∧ C.hkdf = hkdf256 ∧ C.sha512 = Verif.sha512 ∧
    (∀ key block : Bytes, key.length = 16 ∨ key.length = 24 ∨ key.length = 32 →
      C.aesEnc key block = aesEncrypt key block ∧ C.aesDec key block = aesDecrypt key block) ∧
    (∀ k : PrivKey, k.pub C = k.curvePub) ∧
    (∀ (k : PrivKey) (p : PubKey), k.agreement C p = Res.ofOption .lowOrderPoint (curveDh k.key p.key)) ∧
    (∀ (k : PrivKey) (messages : List Bytes), k.sign C messages = k.curveSign Verif.sha512 messages) ∧
    (∀ (p : PubKey) (sig : Bytes) (messages : List Bytes),
      p.verifySignature C sig messages = p.curveVerifySignature Verif.sha512 sig messages) := by
  refine ⟨Crypto.standard, rfl, rfl, rfl, ?_, fun _ => rfl, fun _ _ => rfl, ?_, ?_⟩
  · intro key block hk
    have h : aesKeyOk key = true := by
      unfold aesKeyOk
      rcases hk with h | h | h <;> simp [h]
    show (if aesKeyOk key then aesEncrypt key block else block) = _ ∧ (if aesKeyOk key then aesDecrypt key block else block) = _
    rw [if_pos h, if_pos h]
    exact ⟨rfl, rfl⟩
  · intro k ms
    exact (C31_code_meets_the_assumptions Crypto.start.withHashes k ⟨List.replicate 32 0, by simp⟩ [] ms).1
  · intro p sig ms
    exact (C31_code_meets_the_assumptions Crypto.start.withHashes ⟨clamp (List.replicate 32 0), by decide, by decide⟩ p sig ms).2.2.2

end Verif
