import Verif.Model.Crypto

/-!
# AES-CBC with PKCS#7 padding (`protocol/crypto/aes/aes.go`)
-/

namespace Verif

/-- Byte-wise exclusive or (crypto/cipher, `subtle.XORBytes`).
(used by the calls at protocol/crypto/aes/aes.go:30 and 56.) -/
def xorBytes (a b : Bytes) : Bytes := List.zipWith (· ^^^ ·) a b

/-- crypto/cipher `cbcEncrypter.CryptBlocks` on `n` blocks. (called at protocol/crypto/aes/aes.go:25-30.) -/
def cbcEncBlocks (C : Crypto) (key : Bytes) : Nat → Bytes → Bytes → Bytes
  | 0, _, _ => []
  | n + 1, iv, pt =>
    let c := C.aesEnc key (xorBytes iv (pt.take 16))
    c ++ cbcEncBlocks C key n c (pt.drop 16)

/-- crypto/cipher `cbcDecrypter.CryptBlocks` on `n` blocks. (called at protocol/crypto/aes/aes.go:53-56.) -/
def cbcDecBlocks (C : Crypto) (key : Bytes) : Nat → Bytes → Bytes → Bytes
  | 0, _, _ => []
  | n + 1, iv, ct =>
    xorBytes iv (C.aesDec key (ct.take 16)) ++ cbcDecBlocks C key n (ct.take 16) (ct.drop 16)

/-- protocol/crypto/aes/aes.go:66-70 — value returned by `pkcs7pad` (its effect on the caller's array is
modelled in `Verif.Model.Slice`). -/
def pkcs7pad (plaintext : Bytes) : Bytes :=
  let n := 16 - plaintext.length % 16
  plaintext ++ List.replicate n (UInt8.ofNat n)

/-- protocol/crypto/aes/aes.go:73-82 — `pkcs7unpad`: only the last byte is checked. Indexing an empty slice or
slicing below zero would panic. -/
def pkcs7unpad (plaintext : Bytes) : Res Bytes :=
  match plaintext.getLast? with
  | none => .panic
  | some b =>
    let n := b.toNat
    if n < 1 ∨ n > 16 then .err .badPadding
    else if plaintext.length < n then .panic
    else .ok (plaintext.take (plaintext.length - n))

/-- protocol/crypto/aes/aes.go:13-33 — `CBCEncrypt`. -/
def cbcEncrypt (C : Crypto) (key iv plaintext : Bytes) : Res Bytes :=
  if aesKeyOk key = false then .err .badAESKey
  else if iv.length ≠ 16 then .err .badIV
  else
    let padded := pkcs7pad plaintext
    .ok (cbcEncBlocks C key (padded.length / 16) iv padded)

/-- protocol/crypto/aes/aes.go:37-59 — `CBCDecrypt`. -/
def cbcDecrypt (C : Crypto) (key iv ciphertext : Bytes) : Res Bytes :=
  if aesKeyOk key = false then .err .badAESKey
  else if ciphertext.length = 0 ∨ ciphertext.length % 16 ≠ 0 then .err .badCiphertextLength
  else if iv.length ≠ 16 then .err .badIV
  else pkcs7unpad (cbcDecBlocks C key (ciphertext.length / 16) iv ciphertext)

/-! ## Facts -/

theorem xorBytes_length (a b : Bytes) (h : a.length = b.length) : (xorBytes a b).length = b.length := by
  simp [xorBytes, h]

theorem xorBytes_cancel (a b : Bytes) (h : a.length = b.length) : xorBytes a (xorBytes a b) = b := by
  induction a generalizing b with
  | nil => cases b <;> simp_all [xorBytes]
  | cons x xs ih =>
    cases b with
    | nil => simp at h
    | cons y ys =>
      have := ih ys (by simpa using h)
      simp only [xorBytes, List.zipWith_cons_cons] at this ⊢
      rw [this, ← UInt8.xor_assoc]
      simp

theorem cbcEncBlocks_length (C : Crypto) (key : Bytes) (n : Nat) (iv pt : Bytes)
    (hiv : iv.length = 16) (hpt : pt.length = 16 * n) : (cbcEncBlocks C key n iv pt).length = 16 * n := by
  induction n generalizing iv pt with
  | zero => simp [cbcEncBlocks]
  | succ n ih =>
    have h1 : (pt.take 16).length = 16 := by simp; omega
    have h2 : (xorBytes iv (pt.take 16)).length = 16 := by rw [xorBytes_length _ _ (by omega), h1]
    have h3 := C.aesEnc_len key _ h2
    simp only [cbcEncBlocks, List.length_append, h3]
    rw [ih _ _ h3 (by simp; omega)]; omega

theorem cbcDecBlocks_length (C : Crypto) (key : Bytes) (n : Nat) (iv ct : Bytes)
    (hiv : iv.length = 16) (hct : ct.length = 16 * n) : (cbcDecBlocks C key n iv ct).length = 16 * n := by
  induction n generalizing iv ct with
  | zero => simp [cbcDecBlocks]
  | succ n ih =>
    have h1 : (ct.take 16).length = 16 := by simp; omega
    have h2 := C.aesDec_len key _ h1
    simp only [cbcDecBlocks, List.length_append]
    rw [xorBytes_length _ _ (by omega), h2, ih _ _ h1 (by simp; omega)]; omega

theorem cbcDec_enc (C : Crypto) (key : Bytes) (hk : aesKeyOk key = true) (n : Nat) (iv pt : Bytes)
    (hiv : iv.length = 16) (hpt : pt.length = 16 * n) :
    cbcDecBlocks C key n iv (cbcEncBlocks C key n iv pt) = pt := by
  induction n generalizing iv pt with
  | zero => simp at hpt; simp [cbcDecBlocks, hpt]
  | succ n ih =>
    have h1 : (pt.take 16).length = 16 := by simp; omega
    have h2 : (xorBytes iv (pt.take 16)).length = 16 := by rw [xorBytes_length _ _ (by omega), h1]
    have h3 := C.aesEnc_len key _ h2
    simp only [cbcEncBlocks, cbcDecBlocks]
    rw [List.take_left' h3, List.drop_left' h3, C.aes_dec_enc key _ hk h2, xorBytes_cancel _ _ (by omega),
      ih _ _ h3 (by simp; omega), List.take_append_drop]

theorem pkcs7pad_length (p : Bytes) : (pkcs7pad p).length = 16 * (p.length / 16 + 1) := by
  simp only [pkcs7pad, List.length_append, List.length_replicate]; omega

theorem pkcs7unpad_pad (p : Bytes) : pkcs7unpad (pkcs7pad p) = .ok p := by
  have hn : 1 ≤ 16 - p.length % 16 ∧ 16 - p.length % 16 ≤ 16 := by omega
  obtain ⟨n, hnn⟩ : ∃ n, n = 16 - p.length % 16 := ⟨_, rfl⟩
  have e : pkcs7pad p = p ++ List.replicate n (UInt8.ofNat n) := by simp [pkcs7pad, hnn]
  have hlast : (pkcs7pad p).getLast? = some (UInt8.ofNat n) := by
    rw [e, List.getLast?_append, List.getLast?_replicate, if_neg (by omega)]; rfl
  have hnat : (UInt8.ofNat n).toNat = n := by rw [UInt8.toNat_ofNat']; omega
  have hlen : (pkcs7pad p).length = p.length + n := by rw [e]; simp
  simp only [pkcs7unpad, hlast, hnat]
  rw [if_neg (by omega), if_neg (by omega), hlen, Nat.add_sub_cancel, e]
  simp

theorem cbcDecrypt_cbcEncrypt (C : Crypto) (key iv p c : Bytes)
    (h : cbcEncrypt C key iv p = .ok c) : cbcDecrypt C key iv c = .ok p := by
  simp only [cbcEncrypt] at h
  split at h
  · simp at h
  · split at h
    · simp at h
    · rename_i h1 h2
      simp only [Res.ok.injEq] at h
      have hk : aesKeyOk key = true := by simpa using h1
      have hiv : iv.length = 16 := by simpa using h2
      have hp := pkcs7pad_length p
      have hd : (pkcs7pad p).length / 16 = p.length / 16 + 1 := by omega
      have hc : c.length = 16 * (p.length / 16 + 1) := by
        rw [← h, hd]; exact cbcEncBlocks_length C key _ iv _ hiv hp
      have hcd : c.length / 16 = p.length / 16 + 1 := by omega
      simp only [cbcDecrypt, hk, hiv]
      rw [if_neg (by simp), if_neg (by omega), if_neg (by simp), hcd, ← h, hd, cbcDec_enc C key hk _ _ _ hiv hp]
      exact pkcs7unpad_pad p

theorem cbcEncrypt_ok (C : Crypto) (key iv p : Bytes) (hk : aesKeyOk key = true) (hiv : iv.length = 16) :
    ∃ c, cbcEncrypt C key iv p = .ok c ∧ c.length = 16 * (p.length / 16 + 1) := by
  have hp := pkcs7pad_length p
  have hd : (pkcs7pad p).length / 16 = p.length / 16 + 1 := by omega
  refine ⟨_, by simp [cbcEncrypt, hk, hiv]; rfl, ?_⟩
  rw [hd]; exact cbcEncBlocks_length C key _ iv _ hiv hp

theorem cbcDecrypt_no_panic (C : Crypto) (key iv ciphertext : Bytes) : cbcDecrypt C key iv ciphertext ≠ .panic := by
  unfold cbcDecrypt
  split
  · simp
  · split
    · simp
    · split
      · simp
      · rename_i _ h2 h3
        have hl := cbcDecBlocks_length C key (ciphertext.length / 16) iv ciphertext (by omega) (by omega)
        generalize cbcDecBlocks C key (ciphertext.length / 16) iv ciphertext = p at hl
        unfold pkcs7unpad
        cases hp : p.getLast? with
        | none =>
          simp at hp
          rw [hp] at hl; simp at hl; omega
        | some b =>
          simp only
          split
          · simp
          · rw [if_neg (by omega)]; simp

end Verif
