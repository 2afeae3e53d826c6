import Verif.Proofs.Fingerprint
import Verif.Model.Toy

/-!
# Safety numbers and addresses: C49–C52, C56
-/

namespace Verif

/-! ## C49 -/

/-- C49: both sides see the same 60 decimal digits, and each accepts the other's scannable code. -/
theorem C49_fingerprints_agree (C : Crypto) (version iterations : UInt32)
    (hi : 1 < iterations.toNat ∧ iterations.toNat ≤ 1000000)
    (aliceID bobID : Bytes) (aliceKey bobKey : PubKey) :
    ∃ fa fb, newFingerprint C version iterations aliceID aliceKey bobID bobKey = .ok fa ∧
      newFingerprint C version iterations bobID bobKey aliceID aliceKey = .ok fb ∧
      fa.displayable.string = fb.displayable.string ∧
      fa.displayable.string.length = 60 ∧
      (∀ c ∈ fa.displayable.string, 48 ≤ c.toNat ∧ c.toNat ≤ 57) ∧
      fa.scannable.compare fb.scannable.bytes = .ok true ∧
      fb.scannable.compare fa.scannable.bytes = .ok true := by
  obtain ⟨fl, fr, el, er, h1, h2, h3, h4, l1, l2, h5⟩ := newFingerprint_ok C version iterations aliceID aliceKey bobID bobKey hi
  obtain ⟨fl', fr', el', er', g1, g2, g3, g4, _, _, g5⟩ := newFingerprint_ok C version iterations bobID bobKey aliceID aliceKey hi
  rw [h2] at g1; rw [h1] at g2
  simp only [Res.ok.injEq] at g1 g2
  subst g1; subst g2
  rw [h4] at g3; rw [h3] at g4
  simp only [Res.ok.injEq] at g3 g4
  subst g3; subst g4
  obtain ⟨e, a1, a2, a3⟩ := encodeFingerprint_ok fl (by omega)
  obtain ⟨e', b1, b2, b3⟩ := encodeFingerprint_ok fr (by omega)
  rw [h3] at a1; rw [h4] at b1
  simp only [Res.ok.injEq] at a1 b1
  subst a1; subst b1
  have s1 := scannable_unmarshal ⟨version, fl.take 32, fr.take 32⟩ (by simp; omega) (by simp; omega)
  have s2 := scannable_unmarshal ⟨version, fr.take 32, fl.take 32⟩ (by simp; omega) (by simp; omega)
  refine ⟨_, _, h5, g5, displayable_symm el er, ?_, ?_, ?_, ?_⟩
  · simp only [Displayable.string]
    split <;> simp [a2, b2]
  · intro c hc
    simp only [Displayable.string] at hc
    split at hc <;> simp only [List.mem_append] at hc <;> rcases hc with hc | hc <;> first | exact a3 c hc | exact b3 c hc
  · simp [Scannable.compare, s2]
  · simp [Scannable.compare, s1]

example : 1 < (5200 : UInt32).toNat ∧ (5200 : UInt32).toNat ≤ 1000000 := by decide

/-! ## C50 -/

/-- C50: comparing with another device's code. -/
theorem C50_compare_codes (s t : Scannable) (ht : t.loc.length ≤ 32 ∧ t.rem.length ≤ 32) :
    (s.compare t.bytes = .ok true ↔ s.version = t.version ∧ s.loc = t.rem ∧ s.rem = t.loc) ∧
    (s.version ≠ t.version → ∃ e, s.compare t.bytes = .err e) ∧
    (s.version = t.version → ¬ (s.loc = t.rem ∧ s.rem = t.loc) → s.compare t.bytes = .ok false) := by
  have h := scannable_unmarshal t ht.1 ht.2
  by_cases hv : t.version = s.version
  · by_cases h1 : s.loc = t.rem <;> by_cases h2 : s.rem = t.loc <;> simp [Scannable.compare, h, hv, h1, h2]
  · have hv' : ¬ s.version = t.version := fun e => hv e.symm
    simp [Scannable.compare, h, hv, hv']

/-- The codes of `NewScannable` satisfy the length condition. -/
theorem C50_newScannable_lengths (v : UInt32) (l r : Bytes) (s : Scannable) (h : newScannable v l r = .ok s) :
    s.loc.length = 32 ∧ s.rem.length = 32 := newScannable_len h

/-- C50: for an arbitrary byte string: an unparsable code is an error; `true` requires that the parsed code carries
our version, our local fingerprint as its remote one and our remote fingerprint as its local one; no panic. -/
theorem C50_compare_any_bytes (s : Scannable) (scanned : Bytes) :
    ((∀ pb, PBCombined.unmarshal scanned ≠ .ok pb) → ∃ e, s.compare scanned = .err e) ∧
    (∀ pb, PBCombined.unmarshal scanned = .ok pb →
      (s.compare scanned = .ok true ↔ pb.version.getD 0 = s.version ∧
        (pb.rem.getD none).getD [] = s.loc ∧ (pb.loc.getD none).getD [] = s.rem) ∧
      (pb.version.getD 0 ≠ s.version → ∃ e, s.compare scanned = .err e)) ∧
    s.compare scanned ≠ .panic := by
  have hnp : PBCombined.unmarshal scanned ≠ .panic := by
    unfold PBCombined.unmarshal
    cases (Wire.parseFields scanned).bind fun fs => List.foldlM PBCombined.field {} fs <;> simp
  unfold Scannable.compare
  cases hu : PBCombined.unmarshal scanned with
  | panic => exact absurd hu hnp
  | err e => simp
  | ok pb =>
    by_cases hv : pb.version.getD 0 = s.version
    · have e1 : s.loc = (pb.rem.getD none).getD [] ↔ (pb.rem.getD none).getD [] = s.loc := eq_comm
      have e2 : s.rem = (pb.loc.getD none).getD [] ↔ (pb.loc.getD none).getD [] = s.rem := eq_comm
      simp [hv, e1, e2]
    · simp [hv]

example : (⟨1, List.replicate 32 1, List.replicate 32 2⟩ : Scannable).compare
    (⟨1, List.replicate 32 2, List.replicate 32 1⟩ : Scannable).bytes = .ok true := by decide +kernel

/-! ## C51 -/

/-- C51: `New` succeeds exactly for iteration counts 2 … 1000000, and otherwise returns an error. -/
theorem C51_iteration_bounds (C : Crypto) (version iterations : UInt32) (localID remoteID : Bytes)
    (localKey remoteKey : PubKey) :
    ((∃ f, newFingerprint C version iterations localID localKey remoteID remoteKey = .ok f) ↔
      2 ≤ iterations.toNat ∧ iterations.toNat ≤ 1000000) ∧
    (¬ (2 ≤ iterations.toNat ∧ iterations.toNat ≤ 1000000) →
      ∃ e, newFingerprint C version iterations localID localKey remoteID remoteKey = .err e) := by
  by_cases h : 1 < iterations.toNat ∧ iterations.toNat ≤ 1000000
  · obtain ⟨fl, fr, el, er, _, _, _, _, _, _, h5⟩ := newFingerprint_ok C version iterations localID localKey remoteID remoteKey h
    exact ⟨⟨fun _ => by omega, fun _ => ⟨_, h5⟩⟩, fun hn => absurd (by omega) hn⟩
  · have he : newFingerprint C version iterations localID localKey remoteID remoteKey = .err .badIterations := by
      simp [newFingerprint, fingerprintOf_err C iterations localID localKey h]
    exact ⟨⟨fun ⟨f, hf⟩ => by rw [he] at hf; simp at hf, fun hn => absurd (by omega) h⟩, fun _ => ⟨_, he⟩⟩

/-! ## C52 -/

/-- C52: addresses with the same text are the same. -/
theorem C52_address_unambiguous (a b : Address) (h : a.string = b.string) : a = b := by
  have hnot : ∀ v : UInt32, (46 : UInt8) ∉ decimal v := by
    intro v hm
    have := decimalN_digits 10 v.toNat 46 hm
    have e : (46 : UInt8).toNat = 46 := rfl
    omega
  obtain ⟨h1, h2⟩ := append_sep_inj (hnot _) (hnot _) h
  have h3 : a.deviceId.toNat = b.deviceId.toNat := by rw [← decimal_value, ← decimal_value, h2]
  cases a; cases b
  simp only at h1 h3
  rw [h1, UInt32.toNat_inj.mp h3]

/-! ## C56 -/

/-- C56: each half of a displayable fingerprint is six groups of five digits; group `i` is, in decimal, the
big-endian value of bytes `5 i … 5 i + 4` modulo 100000. -/
theorem C56_displayable_digits (b : Bytes) (hb : 30 ≤ b.length) (i : Nat) (hi : i < 6) :
    ∃ e, encodeFingerprint b = .ok e ∧ ((e.drop (5 * i)).take 5).length = 5 ∧
      decValue ((e.drop (5 * i)).take 5) = beNat ((b.drop (5 * i)).take 5) % 100000 := by
  refine ⟨_, encodeFingerprint_run b (by omega), ?_⟩
  have hc : ∀ c : Bytes, (encodeChunk c).length = 5 := fun c => by simp [encodeChunk]
  have hd : ∀ (c : Bytes) (n : Nat), 5 ≤ n → (encodeChunk c).drop n = [] := fun c n hn =>
    List.drop_of_length_le (by rw [hc]; exact hn)
  have ht : ∀ c : Bytes, (encodeChunk c).take 5 = encodeChunk c := fun c => List.take_of_length_le (Nat.le_of_eq (hc c))
  have hval : ∀ c : Bytes, decValue (encodeChunk c) = beNat c % 100000 := fun c =>
    decValue_digitsN 5 _ (by omega)
  have hcase : i = 0 ∨ i = 1 ∨ i = 2 ∨ i = 3 ∨ i = 4 ∨ i = 5 := by omega
  rcases hcase with rfl | rfl | rfl | rfl | rfl | rfl <;>
    simp [List.drop_append, List.take_append, hc, hd, ht, hval]

/-- C56: NewDisplayable needs thirty bytes on each side; it refuses less with an error and never panics. -/
theorem C56_needs_thirty_bytes (loc rem : Bytes) :
    ((∃ d, newDisplayable loc rem = .ok d) ↔ 30 ≤ loc.length ∧ 30 ≤ rem.length) ∧ newDisplayable loc rem ≠ .panic := by
  have short : ∀ b : Bytes, ¬ 30 ≤ b.length → encodeFingerprint b = .err .encodingTooShort := fun b hb => by
    rw [encodeFingerprint, if_pos (by omega)]
  by_cases hl : 30 ≤ loc.length
  · by_cases hr : 30 ≤ rem.length
    · rw [newDisplayable, encodeFingerprint_run loc hl, encodeFingerprint_run rem hr]
      exact ⟨⟨fun _ => ⟨hl, hr⟩, fun _ => ⟨_, rfl⟩⟩, by intro h; cases h⟩
    · rw [newDisplayable, encodeFingerprint_run loc hl, short rem hr]
      exact ⟨⟨fun ⟨d, h⟩ => (by cases h), fun h => absurd h.2 hr⟩, by intro h; cases h⟩
  · rw [newDisplayable, short loc hl]
    exact ⟨⟨fun ⟨d, h⟩ => (by cases h), fun h => absurd h.1 hl⟩, by intro h; cases h⟩

end Verif
