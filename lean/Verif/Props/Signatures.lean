import Mathlib.Tactic.Abel
import Verif.Model.Curve25519

/-!
# C31, C32, C59: signatures

These are statements about the signature code itself, on the curve, with SHA-512 replaced by an arbitrary function `H`.
-/

namespace Verif

/-- The public key of a private key (protocol/curve/djb_private.go:47-50). -/
def PrivKey.curvePub (k : PrivKey) : PubKey := ⟨curvePublic k.key, by simp [curvePublic, xtou]⟩

/-- **C31.** Whatever the key, the messages and the random bytes, `Sign` gives a 64-byte signature, uses 64 random
bytes, and `VerifySignature` under the matching public key accepts it. With fewer than 64 random bytes `Sign` returns
an error. -/
theorem C31_signatures_verify (H : Bytes → Bytes) (k : PrivKey) (messages : List Bytes) (rand : Bytes) :
    (64 ≤ rand.length →
      ∃ sig, k.curveSign H messages rand = (.ok sig, rand.drop 64) ∧ sig.length = 64 ∧
        k.curvePub.curveVerifySignature H sig messages = .ok true) ∧
    (rand.length < 64 → (k.curveSign H messages rand).1 = .err .io) := by
  constructor
  · intro hr
    refine ⟨signWith H k.key (rand.take 64) messages, ?_, signWith_length _ _ _ _, ?_⟩
    · unfold PrivKey.curveSign
      rw [M.bind_run, readFull_ok 64 rand hr]
      rfl
    · unfold PubKey.curveVerifySignature
      rw [if_neg (by simp [signWith_length])]
      exact curveVerify_sign H k.len _ messages
  · intro hr
    unfold PrivKey.curveSign
    rw [M.bind_run, readFull_short 64 rand (by omega)]

/-- A concrete key, three message parts and enough random bytes. -/
example : ∃ k : PrivKey, ∃ sig, k.curveSign id [[1, 2], [], [3]] (List.replicate 70 9) = (.ok sig, List.replicate 6 9) ∧
    k.curvePub.curveVerifySignature id sig [[1], [2, 3]] = .ok true := by
  refine ⟨⟨clamp (List.replicate 32 7), by simp, clamp_idem _⟩, ?_⟩
  obtain ⟨sig, h1, _, h3⟩ := (C31_signatures_verify id ⟨clamp (List.replicate 32 7), by simp, clamp_idem _⟩
    [[1, 2], [], [3]] (List.replicate 70 9)).1 (by simp)
  refine ⟨sig, h1, ?_⟩
  have : ∀ ms : List Bytes, writeAll [] ms = ms.flatten := fun ms => by rw [writeAll_eq]; simp
  simp only [PubKey.curveVerifySignature, curveVerify, this] at h3 ⊢
  exact h3

/-- **C31.** The signature, public key, agreement and verification functions the rest of the model takes as given are,
for the primitives on the curve, exactly the modelled code: so every other theorem of this development, which holds for
arbitrary primitives, holds with this code in place. -/
theorem C31_code_meets_the_assumptions (C : Crypto) (k : PrivKey) (p : PubKey)
    (sig : Bytes) (messages : List Bytes) :
    k.sign C.onCurve messages = k.curveSign C.sha512 messages ∧
    k.pub C.onCurve = k.curvePub ∧
    k.agreement C.onCurve p = Res.ofOption .lowOrderPoint (curveDh k.key p.key) ∧
    p.verifySignature C.onCurve sig messages = p.curveVerifySignature C.sha512 sig messages := by
  refine ⟨?_, rfl, rfl, ?_⟩
  · have e : ∀ z, signWith C.sha512 k.key z [messages.flatten] = signWith C.sha512 k.key z messages := by
      intro z; simp [signWith, writeAll_eq]
    unfold PrivKey.sign PrivKey.curveSign
    show (readFull 64 >>= fun z => pure (signWith C.sha512 k.key z [messages.flatten])) = _
    simp only [e]
  · have e : curveVerify C.sha512 p.key sig [messages.flatten] = curveVerify C.sha512 p.key sig messages := by
      simp [curveVerify, writeAll_eq]
    unfold PubKey.verifySignature PubKey.curveVerifySignature
    split
    · rfl
    rename_i hl
    have hl : sig.length = 64 := by simpa using hl
    show Res.ofOption .invalidUPoint (verifyOutcome (curveVerify C.sha512 p.key sig [messages.flatten])) = _
    rw [e]
    rcases curveVerify_cases C.sha512 p hl messages with ⟨b, h⟩ | h
    · rw [h]; rfl
    · rw [h]; rfl

/-- **C32.** Whether a signature is accepted depends only on the concatenation of the message parts. -/
theorem C32_only_the_concatenation (H : Bytes → Bytes) (p : PubKey) (sig : Bytes) (ms ms' : List Bytes)
    (h : ms.flatten = ms'.flatten) : p.curveVerifySignature H sig ms = p.curveVerifySignature H sig ms' := by
  simp only [PubKey.curveVerifySignature, curveVerify, writeAll_eq, h]

/-- Two different splits of the same bytes. -/
example : ([[1, 2], [], [3]] : List Bytes).flatten = ([[1], [2, 3]] : List Bytes).flatten := rfl

/-- **C32.** A signature that is not 64 bytes long is rejected, without an error. -/
theorem C32_wrong_length (H : Bytes → Bytes) (p : PubKey) (sig : Bytes) (ms : List Bytes) (h : sig.length ≠ 64) :
    p.curveVerifySignature H sig ms = .ok false := by
  unfold PubKey.curveVerifySignature
  rw [if_pos h]

/-- **C32**, for whatever implementation of the curve the sessions are used with. -/
theorem C32_any_curve (C : Crypto) (p : PubKey) (sig : Bytes) (ms : List Bytes) :
    (sig.length ≠ 64 → p.verifySignature C sig ms = .ok false) ∧
    ∀ ms' : List Bytes, ms.flatten = ms'.flatten → p.verifySignature C sig ms = p.verifySignature C sig ms' := by
  constructor
  · intro h
    unfold PubKey.verifySignature
    rw [if_pos h]
  · intro ms' h
    simp only [PubKey.verifySignature, h]

/-- **C32.** `VerifySignature` never panics: it answers, or reports an invalid public key. -/
theorem C32_never_panics (H : Bytes → Bytes) (p : PubKey) (sig : Bytes) (ms : List Bytes) :
    (∃ b, p.curveVerifySignature H sig ms = .ok b) ∨ p.curveVerifySignature H sig ms = .err .invalidUPoint := by
  unfold PubKey.curveVerifySignature
  split
  · exact .inl ⟨_, rfl⟩
  rename_i hl
  have hl : sig.length = 64 := by simpa using hl
  exact curveVerify_cases H p hl ms

/-- Bytes with the top bit set for a negative sign (specification helper). -/
def withSign (neg : Bool) (bs : Bytes) : Bytes := modifyAt bs 31 (· ||| if neg then 128 else 0)

/-- **C59.** `VerifySignature` accepts exactly the 64-byte strings `R ‖ S`, with a sign in the top bit, such that
`S B = R + h A` on the curve: `A` is the point with the given `u` coordinate and that sign, `S` is below the group order
and `h` is the hash of `R`, `A` and the concatenated messages. -/
theorem C59_accepts_exactly (H : Bytes → Bytes) (p : PubKey) (sig : Bytes) (ms : List Bytes) :
    p.curveVerifySignature H sig ms = .ok true ↔
      ∃ (A R : EdPoint) (S : Nat) (neg : Bool),
        A ≠ 0 ∧ A.u = feOfBytes p.key ∧ (A.x = 0 ∨ (A.x.val % 2 = 1 ↔ neg = true)) ∧
        S < groupOrder ∧ sig = R.bytes ++ withSign neg (leBytes 32 S) ∧
        S • EdPoint.base =
          R + (leNat (H (R.bytes ++ withSign neg (leBytes 32 A.y.val) ++ ms.flatten)) % groupOrder) • A := by
  have ew : ∀ neg bs, withSign neg bs = modifyAt bs 31 (· ||| signByte neg) := fun _ _ => rfl
  have hlast : ∀ S, S < groupOrder → ∃ b : UInt8, (leBytes 32 S)[31]? = some b ∧ b.toNat < 128 :=
    fun S hS => top_byte (lt_trans hS (by decide +kernel))
  unfold PubKey.curveVerifySignature
  constructor
  · intro h
    by_cases hl : sig.length = 64
    swap
    · rw [if_pos hl] at h; simp at h
    rw [if_neg (by simp [hl])] at h
    obtain ⟨R, T, b, neg, rfl, hR, hT, hb, hlt⟩ := sig_parts hl
    by_cases hu : feOfBytes p.key = -1
    · exfalso
      unfold curveVerify at h
      rw [List.getElem?_eq_getElem (show 63 < (R ++ modifyAt T 31 (· ||| signByte neg)).length by omega)] at h
      simp only [utoy, p.len, ne_eq, not_true_eq_false, if_false, hu, if_true, Res.bind_err] at h
      simp at h
    rw [curveVerify_parts H p R T neg hR hT hb hlt ms hu] at h
    unfold ed25519Verify at h
    rw [if_neg (by simp), if_neg (by simp [hR, hT])] at h
    split at h
    · simp at h
    rename_i A hA
    rw [EdPoint.ofBytes_eq (by simp), EdPoint.encoded_signed] at hA
    obtain ⟨hy, hx⟩ := hA
    obtain ⟨hAu, hA1⟩ := u_of_y hu hy
    have ht : (R ++ T).take 32 = R := by rw [← hR]; exact List.take_left
    have hd : (R ++ T).drop 32 = T := by rw [← hR]; exact List.drop_left
    simp only [ht, hd] at h
    split at h
    · simp at h
    rename_i hS
    simp only [Res.ok.injEq, decide_eq_true_eq] at h
    rw [← hy] at h
    refine ⟨A, (leNat (H (R ++ modifyAt (feBytes A.y) 31 (· ||| signByte neg) ++ ms.flatten)) % groupOrder) • -A +
        leNat T • EdPoint.base, leNat T, neg, ?_, hAu, hx, by omega, ?_, ?_⟩
    · rintro rfl; exact hA1 rfl
    · rw [h, ew, ← hT, leBytes_leNat]
    · rw [h, ew]
      show leNat T • EdPoint.base = _ + (leNat (H (R ++ modifyAt (feBytes A.y) 31 (· ||| signByte neg) ++ ms.flatten)) % groupOrder) • A
      rw [smul_neg]
      abel
  · rintro ⟨A, R, S, neg, hA0, hAu, hx, hS, rfl, he⟩
    have hA1 : A.y ≠ 1 := fun h => hA0 (EdPoint.eq_zero_of_y h)
    obtain ⟨h1, h2⟩ := EdPoint.y_of_u hA1
    rw [hAu] at h1 h2
    obtain ⟨b, hb, hlt⟩ := hlast S hS
    rw [ew, if_neg (by simp), curveVerify_parts H p R.bytes (leBytes 32 S) neg (by simp) (by simp) hb hlt ms h1, h2]
    unfold ed25519Verify
    have hdec : EdPoint.ofBytes (modifyAt (feBytes A.y) 31 (· ||| signByte neg)) = some A := by
      rw [EdPoint.ofBytes_eq (by simp), EdPoint.encoded_signed]; exact ⟨rfl, hx⟩
    rw [if_neg (by simp), if_neg (by simp), hdec]
    have ht : (R.bytes ++ leBytes 32 S).take 32 = R.bytes := by
      have := List.take_left (l₁ := R.bytes) (l₂ := leBytes 32 S)
      rwa [R.bytes_length] at this
    have hd : (R.bytes ++ leBytes 32 S).drop 32 = leBytes 32 S := by
      have := List.drop_left (l₁ := R.bytes) (l₂ := leBytes 32 S)
      rwa [R.bytes_length] at this
    simp only [ht, hd]
    rw [leNat_leBytes 32 S (lt_trans hS (by decide +kernel)), if_neg (by omega), he]
    simp only [Res.ok.injEq, decide_eq_true_eq]
    rw [ew]
    show (_ • -A + (R + (leNat (H (R.bytes ++ modifyAt (feBytes A.y) 31 (· ||| signByte neg) ++ ms.flatten)) % groupOrder) • A)).bytes = _
    rw [smul_neg]
    congr 1
    abel

/-- Both sides of `C59` are met: by a real signature, and by no signature of a wrong length. -/
example (k : PrivKey) (m : Bytes) : ∃ sig, ∃ (A R : EdPoint) (S : Nat) (neg : Bool),
    A ≠ 0 ∧ A.u = feOfBytes k.curvePub.key ∧ (A.x = 0 ∨ (A.x.val % 2 = 1 ↔ neg = true)) ∧
    S < groupOrder ∧ sig = R.bytes ++ withSign neg (leBytes 32 S) ∧
    S • EdPoint.base = R + (leNat (id (R.bytes ++ withSign neg (leBytes 32 A.y.val) ++ [m].flatten)) % groupOrder) • A := by
  obtain ⟨sig, _, _, h⟩ := (C31_signatures_verify id k [m] (List.replicate 64 1)).1 (by simp)
  exact ⟨sig, (C59_accepts_exactly id k.curvePub sig [m]).1 h⟩

end Verif
