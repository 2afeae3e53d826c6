import Verif.Proofs.Slice
import Verif.Model.Toy

/-!
# AES-CBC: C34–C36
-/

namespace Verif

/-! ## C34 -/

/-- C34: with a valid key and IV encryption succeeds, the ciphertext is the least multiple of 16 strictly longer
than the plaintext, and decryption returns the plaintext. -/
theorem C34_cbc_round_trip (C : Crypto) (key iv plaintext : Bytes)
    (hk : key.length = 16 ∨ key.length = 24 ∨ key.length = 32) (hiv : iv.length = 16) :
    ∃ ciphertext, cbcEncrypt C key iv plaintext = .ok ciphertext ∧ cbcDecrypt C key iv ciphertext = .ok plaintext ∧
      ciphertext.length % 16 = 0 ∧ plaintext.length < ciphertext.length ∧
      (∀ n, n % 16 = 0 → plaintext.length < n → ciphertext.length ≤ n) := by
  have hk' : aesKeyOk key = true := by simp [aesKeyOk]; omega
  obtain ⟨c, h1, h2⟩ := cbcEncrypt_ok C key iv plaintext hk' hiv
  exact ⟨c, h1, cbcDecrypt_cbcEncrypt C key iv plaintext c h1, by omega, by omega, fun n _ _ => by omega⟩

/-- C34: with an invalid key or IV size encryption is an error (never a panic, never a ciphertext). -/
theorem C34_cbc_encrypt_rejects (C : Crypto) (key iv plaintext : Bytes)
    (h : ¬ ((key.length = 16 ∨ key.length = 24 ∨ key.length = 32) ∧ iv.length = 16)) :
    ∃ e, cbcEncrypt C key iv plaintext = .err e := by
  unfold cbcEncrypt
  split
  · exact ⟨_, rfl⟩
  · rename_i hk
    split
    · exact ⟨_, rfl⟩
    · rename_i hiv
      simp [aesKeyOk] at hk
      exact absurd ⟨by omega, by omega⟩ h

example : (List.replicate 32 (7 : UInt8)).length = 32 ∧ (List.replicate 16 (1 : UInt8)).length = 16 := by simp

/-! ## C35 -/

/-- C35: `CBCDecrypt` never panics. -/
theorem C35_cbcDecrypt_never_panics (C : Crypto) (key iv ciphertext : Bytes) :
    cbcDecrypt C key iv ciphertext ≠ .panic :=
  cbcDecrypt_no_panic C key iv ciphertext

/-- C35: what is an error. -/
theorem C35_cbcDecrypt_rejects (C : Crypto) (key iv ciphertext : Bytes)
    (h : ¬ (key.length = 16 ∨ key.length = 24 ∨ key.length = 32) ∨ ciphertext = [] ∨ ciphertext.length % 16 ≠ 0 ∨
      iv.length ≠ 16) : ∃ e, cbcDecrypt C key iv ciphertext = .err e := by
  unfold cbcDecrypt
  split
  · exact ⟨_, rfl⟩
  · rename_i hk
    simp [aesKeyOk] at hk
    split
    · exact ⟨_, rfl⟩
    · rename_i hc
      split
      · exact ⟨_, rfl⟩
      · rename_i hi
        rcases h with h | h | h | h
        · omega
        · simp [h] at hc
        · omega
        · exact absurd h hi

/-- C35: a decrypted plaintext is 1 to 16 bytes shorter than the ciphertext. -/
theorem C35_cbcDecrypt_strips (C : Crypto) (key iv ciphertext plaintext : Bytes)
    (h : cbcDecrypt C key iv ciphertext = .ok plaintext) :
    plaintext.length + 1 ≤ ciphertext.length ∧ ciphertext.length ≤ plaintext.length + 16 := by
  unfold cbcDecrypt at h
  split at h
  · simp at h
  · split at h
    · simp at h
    · split at h
      · simp at h
      · rename_i _ h2 h3
        have hl := cbcDecBlocks_length C key (ciphertext.length / 16) iv ciphertext (by omega) (by omega)
        generalize cbcDecBlocks C key (ciphertext.length / 16) iv ciphertext = p at hl h
        unfold pkcs7unpad at h
        cases hp : p.getLast? with
        | none => simp [hp] at h
        | some b =>
          simp only [hp] at h
          split at h
          · simp at h
          · rename_i h4
            rw [if_neg (by omega)] at h
            simp at h
            subst h
            simp
            omega

/-- C35: a final block whose last byte is not a padding length is rejected: for every final byte `b` outside 1..16
there is a ciphertext decrypting to it and it is an error. -/
theorem C35_bad_padding_rejected (C : Crypto) (key iv : Bytes) (padded : Bytes)
    (hk : key.length = 16 ∨ key.length = 24 ∨ key.length = 32) (hiv : iv.length = 16)
    (n : Nat) (hn : padded.length = 16 * (n + 1)) (b : UInt8) (hb : padded.getLast? = some b)
    (hbad : b.toNat = 0 ∨ 16 < b.toNat) :
    ∃ e, cbcDecrypt C key iv (cbcEncBlocks C key (n + 1) iv padded) = .err e := by
  have hk' : aesKeyOk key = true := by simp [aesKeyOk]; omega
  have hl := cbcEncBlocks_length C key (n + 1) iv padded hiv hn
  have hd := cbcDec_enc C key hk' (n + 1) iv padded hiv hn
  have hdiv : (cbcEncBlocks C key (n + 1) iv padded).length / 16 = n + 1 := by omega
  refine ⟨.badPadding, ?_⟩
  unfold cbcDecrypt
  rw [if_neg (by simp [hk']), if_neg (by omega), if_neg (by simp [hiv]), hdiv, hd]
  simp only [pkcs7unpad, hb]
  rw [if_pos (by omega)]

example : (List.replicate 16 (0 : UInt8)).length = 16 * (0 + 1) ∧ (List.replicate 16 (0 : UInt8)).getLast? = some 0 := by
  decide

/-! ## C36 -/

/-- The number of padding bytes for a plaintext of the given length. -/
def padLen (len : Nat) : Nat := 16 - len % 16

/-- The slice-level model returns the same ciphertext as `cbcEncrypt` on the contents. -/
theorem C36_refines (C : Crypto) (key iv : Bytes) (s : Slice) (h : Heap) (hv : h.Valid s) :
    ∀ c, cbcEncrypt C key iv (h.read s) = .ok c →
      ∃ out h', cbcEncryptSlice C key iv s h = (.ok out, h') ∧ h'.read out = c := by
  intro c hc
  have hlen : (h.read s).length = s.len := by
    obtain ⟨h1, h2, h3⟩ := hv
    simp [Heap.read]; omega
  unfold cbcEncrypt at hc
  unfold cbcEncryptSlice
  split at hc
  · simp at hc
  · rename_i hk
    split at hc
    · simp at hc
    · rename_i hi
      simp only [Res.ok.injEq] at hc
      rw [if_neg hk, if_neg hi]
      have hr := goAppend_read h s (List.replicate (16 - s.len % 16) (UInt8.ofNat (16 - s.len % 16))) hv
      have hl := goAppend_len h s (List.replicate (16 - s.len % 16) (UInt8.ofNat (16 - s.len % 16)))
      have e : pkcs7pad (h.read s) = (pkcs7padSlice h s).2.read (pkcs7padSlice h s).1 := by
        simp only [pkcs7padSlice, hr, pkcs7pad, hlen]
      have e2 : (pkcs7padSlice h s).1.len = (pkcs7pad (h.read s)).length := by
        simp [pkcs7padSlice, hl, pkcs7pad, hlen]
      have hnew : ∀ (g : Heap), (g ++ [c]).read ⟨g.length, 0, c.length, c.length⟩ = c := by
        intro g
        simp [Heap.read, Heap.array]
      refine ⟨⟨(pkcs7padSlice h s).2.length, 0, c.length, c.length⟩, (pkcs7padSlice h s).2 ++ [c], ?_, hnew _⟩
      simp only [e2, ← e, hc]

/-- C36 does not hold: encrypting the first byte of a 32-byte buffer overwrites the 15 bytes after it. -/
theorem C36_caller_memory_false :
    ∃ (h : Heap) (s : Slice), h.Valid s ∧ h.read s = [1] ∧ h.array s.arr = 1 :: List.replicate 31 9 ∧
      ∃ out h', cbcEncryptSlice toy (List.replicate 32 0) (List.replicate 16 0) s h = (.ok out, h') ∧
        h'.array s.arr = 1 :: (List.replicate 15 15 ++ List.replicate 16 9) := by
  refine ⟨[1 :: List.replicate 31 9], ⟨0, 0, 1, 32⟩, ⟨by decide, by decide, by decide⟩, by decide, by decide, ?_⟩
  exact ⟨_, _, rfl, by decide +kernel⟩

/-- C36, what holds: encryption never changes the plaintext bytes themselves, no byte before the slice, no byte
from `padLen` bytes after its end on, and no other array; and when the spare capacity is smaller than the padding
(in particular when there is none) it changes nothing at all. -/
theorem C36_caller_memory_partial (C : Crypto) (key iv : Bytes) (s : Slice) (h : Heap) (hv : h.Valid s) :
    (∀ i, i < h.length → i ≠ s.arr → (cbcEncryptSlice C key iv s h).2.array i = h.array i) ∧
    (∀ j, j < s.off + s.len ∨ s.off + s.len + padLen s.len ≤ j →
      ((cbcEncryptSlice C key iv s h).2.array s.arr)[j]? = (h.array s.arr)[j]?) ∧
    (s.cap < s.len + padLen s.len → ∀ i, i < h.length → (cbcEncryptSlice C key iv s h).2.array i = h.array i) := by
  obtain ⟨h1, h2, h3⟩ := hv
  have key_fact : ∀ i, i < h.length → (cbcEncryptSlice C key iv s h).2.array i = h.array i ∨
      (i = s.arr ∧ s.len + padLen s.len ≤ s.cap ∧ (cbcEncryptSlice C key iv s h).2.array i =
        overwrite (h.array i) (s.off + s.len) (List.replicate (padLen s.len) (UInt8.ofNat (padLen s.len)))) := by
    intro i hi
    unfold cbcEncryptSlice
    split
    · exact .inl rfl
    · split
      · exact .inl rfl
      · have hh := goAppend_heap_length h s (List.replicate (padLen s.len) (UInt8.ofNat (padLen s.len)))
        have ha := goAppend_array h s (List.replicate (padLen s.len) (UInt8.ofNat (padLen s.len))) i hi
        simp only [pkcs7padSlice]
        rw [array_append _ _ _ (by simp only [padLen] at hh; omega)]
        simp only [padLen] at ha ⊢
        rw [ha]
        simp only [List.length_replicate]
        by_cases hc : i = s.arr ∧ s.len + (16 - s.len % 16) ≤ s.cap
        · rw [if_pos hc]; exact .inr ⟨hc.1, hc.2, rfl⟩
        · rw [if_neg hc]; exact .inl rfl
  refine ⟨?_, ?_, ?_⟩
  · intro i hi hne
    rcases key_fact i hi with e | ⟨e, _⟩
    · exact e
    · exact absurd e hne
  · intro j hj
    rcases key_fact s.arr h1 with e | ⟨_, hc, e⟩
    · rw [e]
    · rw [e, overwrite_getElem?]
      · simp; omega
      · simpa using hj
  · intro hc i hi
    rcases key_fact i hi with e | ⟨_, hc', _⟩
    · exact e
    · omega

example : Heap.Valid [List.replicate 40 9] ⟨0, 4, 20, 30⟩ := ⟨by decide, by decide, by decide⟩

end Verif
