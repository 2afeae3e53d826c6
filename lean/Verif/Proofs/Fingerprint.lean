import Verif.Model.Fingerprint

/-! Helper lemmas for fingerprints and addresses. -/

namespace Verif

theorem strLt_total (a b : Bytes) (h1 : strLt a b = false) (h2 : strLt b a = false) : a = b := by
  induction a generalizing b with
  | nil => cases b <;> simp_all [strLt]
  | cons x xs ih =>
    cases b with
    | nil => simp [strLt] at h2
    | cons y ys =>
      simp only [strLt] at h1 h2
      by_cases hxy : x < y
      · simp [hxy] at h1
      · by_cases hyx : y < x
        · simp [hyx] at h2
        · simp only [hxy, hyx, if_false] at h1 h2
          rw [ih ys h1 h2]
          congr 1
          exact UInt8.le_antisymm (UInt8.not_lt.mp hyx) (UInt8.not_lt.mp hxy)

theorem strLt_asymm (a b : Bytes) (h1 : strLt a b = true) : strLt b a = false := by
  induction a generalizing b with
  | nil => cases b <;> simp_all [strLt]
  | cons x xs ih =>
    cases b with
    | nil => simp [strLt] at h1
    | cons y ys =>
      simp only [strLt] at h1 ⊢
      by_cases hxy : x < y
      · have : ¬ y < x := UInt8.not_lt.mpr (UInt8.le_of_lt hxy)
        simp [this, hxy]
      · by_cases hyx : y < x
        · simp [hxy, hyx] at h1
        · simp only [hxy, hyx, if_false] at h1 ⊢
          exact ih ys h1

theorem displayable_symm (l r : Bytes) : Displayable.string ⟨l, r⟩ = Displayable.string ⟨r, l⟩ := by
  simp only [Displayable.string]
  by_cases h1 : strLt l r = true
  · rw [if_pos h1, strLt_asymm _ _ h1]; rfl
  · by_cases h2 : strLt r l = true
    · rw [if_pos h2, if_neg h1]
    · rw [strLt_total l r (by simpa using h1) (by simpa using h2)]

@[simp] theorem digitsN_length (n v : Nat) : (digitsN n v).length = n := by
  induction n generalizing v with
  | zero => rfl
  | succ n ih => simp [digitsN, ih]

theorem digitChar_range (d : Nat) (h : d < 10) : 48 ≤ (digitChar d).toNat ∧ (digitChar d).toNat ≤ 57 := by
  simp only [digitChar, UInt8.toNat_ofNat']; omega

theorem digitChar_toNat (d : Nat) (h : d < 10) : (digitChar d).toNat = 48 + d := by
  simp only [digitChar, UInt8.toNat_ofNat']; omega

theorem digitsN_digits (n v : Nat) : ∀ c ∈ digitsN n v, 48 ≤ c.toNat ∧ c.toNat ≤ 57 := by
  induction n generalizing v with
  | zero => simp [digitsN]
  | succ n ih =>
    intro c hc
    simp only [digitsN, List.mem_append, List.mem_singleton] at hc
    rcases hc with hc | rfl
    · exact ih _ c hc
    · exact digitChar_range _ (by omega)

theorem encodeFingerprint_run (b : Bytes) (h : 30 ≤ b.length) :
    encodeFingerprint b = .ok (encodeChunk (b.take 5) ++ encodeChunk ((b.drop 5).take 5) ++ encodeChunk ((b.drop 10).take 5) ++
      encodeChunk ((b.drop 15).take 5) ++ encodeChunk ((b.drop 20).take 5) ++ encodeChunk ((b.drop 25).take 5)) := by
  have hc : ∀ i, i + 5 ≤ 30 → chunkAt b i = .ok ((b.drop i).take 5) := fun i hi => if_pos (by omega)
  rw [encodeFingerprint, if_neg (by omega), hc 0 (by omega), hc 5 (by omega), hc 10 (by omega), hc 15 (by omega), hc 20 (by omega), hc 25 (by omega)]
  rfl

theorem encodeFingerprint_ok (b : Bytes) (h : 30 ≤ b.length) :
    ∃ e, encodeFingerprint b = .ok e ∧ e.length = 30 ∧ ∀ c ∈ e, 48 ≤ c.toNat ∧ c.toNat ≤ 57 := by
  refine ⟨_, encodeFingerprint_run b h, by simp [encodeChunk], ?_⟩
  intro c hc
  simp only [List.mem_append] at hc
  rcases hc with ((((hc | hc) | hc) | hc) | hc) | hc <;> exact digitsN_digits _ _ c hc

theorem fingerprintLoop_length (C : Crypto) (k : Bytes) (n : Nat) (s : Bytes) (h : s.length = 64) :
    (fingerprintLoop C k n s).length = 64 := by
  induction n generalizing s with
  | zero => exact h
  | succ n ih => exact ih _ (C.sha512_len _)

theorem fingerprintOf_ok (C : Crypto) (it : UInt32) (id : Bytes) (key : PubKey) (h : 1 < it.toNat ∧ it.toNat ≤ 1000000) :
    ∃ f, fingerprintOf C it id key = .ok f ∧ f.length = 64 := by
  have h1 : ¬ (it ≤ 1 ∨ it > 1000000) := by
    simp only [UInt32.le_iff_toNat_le, GT.gt, UInt32.lt_iff_toNat_lt]
    have e1 : (1 : UInt32).toNat = 1 := rfl
    have e2 : (1000000 : UInt32).toNat = 1000000 := rfl
    omega
  refine ⟨_, by rw [fingerprintOf, if_neg h1], ?_⟩
  exact fingerprintLoop_length _ _ _ _ (C.sha512_len _)

theorem fingerprintOf_err (C : Crypto) (it : UInt32) (id : Bytes) (key : PubKey) (h : ¬ (1 < it.toNat ∧ it.toNat ≤ 1000000)) :
    fingerprintOf C it id key = .err .badIterations := by
  have h1 : it ≤ 1 ∨ it > 1000000 := by
    simp only [UInt32.le_iff_toNat_le, GT.gt, UInt32.lt_iff_toNat_lt]
    have e1 : (1 : UInt32).toNat = 1 := rfl
    have e2 : (1000000 : UInt32).toNat = 1000000 := rfl
    omega
  rw [fingerprintOf, if_pos h1]

theorem newFingerprint_ok (C : Crypto) (v it : UInt32) (lid : Bytes) (lk : PubKey) (rid : Bytes) (rk : PubKey)
    (h : 1 < it.toNat ∧ it.toNat ≤ 1000000) :
    ∃ fl fr el er, fingerprintOf C it lid lk = .ok fl ∧ fingerprintOf C it rid rk = .ok fr ∧
      encodeFingerprint fl = .ok el ∧ encodeFingerprint fr = .ok er ∧ fl.length = 64 ∧ fr.length = 64 ∧
      newFingerprint C v it lid lk rid rk = .ok ⟨⟨el, er⟩, ⟨v, fl.take 32, fr.take 32⟩⟩ := by
  obtain ⟨fl, h1, l1⟩ := fingerprintOf_ok C it lid lk h
  obtain ⟨fr, h2, l2⟩ := fingerprintOf_ok C it rid rk h
  obtain ⟨el, h3, _⟩ := encodeFingerprint_ok fl (by omega)
  obtain ⟨er, h4, _⟩ := encodeFingerprint_ok fr (by omega)
  refine ⟨fl, fr, el, er, h1, h2, h3, h4, l1, l2, ?_⟩
  simp [newFingerprint, h1, h2, newDisplayable, h3, h4, newScannable, l1, l2]

theorem mergeLogical_marshal (c : Bytes) (h : c.length < 2 ^ 64) : mergeLogical none (marshalLogical (some c)) = some (some c) := by
  have hok : ∀ f ∈ optLen 1 (some c), f.Ok := optLen_ok 1 (by omega) (by omega) _ h
  rw [mergeLogical, marshalLogical, Wire.parseFields_enc _ hok]
  rfl

theorem marshalLogical_length (c : Bytes) (h : c.length ≤ 32) : (marshalLogical (some c)).length ≤ 52 := by
  have hv : ∀ k n, (Wire.encVarintN k n).length ≤ k := by
    intro k
    induction k with
    | zero => simp [Wire.encVarintN]
    | succ k ih => intro n; unfold Wire.encVarintN; split <;> simp [ih]
  have h1 := hv 10 (1 * 8 + (Wire.Val.len c).wtype)
  have h2 := hv 10 c.length
  simp only [marshalLogical, Wire.encFields, optLen, List.map_cons, List.map_nil, List.flatten_cons, List.flatten_nil,
    Wire.encField, List.length_append, List.length_nil, Wire.encVarint]
  omega

theorem scannable_unmarshal (s : Scannable) (h1 : s.loc.length ≤ 32) (h2 : s.rem.length ≤ 32) :
    PBCombined.unmarshal s.bytes = .ok { version := some s.version, loc := some (some s.loc), rem := some (some s.rem) } := by
  have hl := marshalLogical_length s.loc h1
  have hr := marshalLogical_length s.rem h2
  have hok : ∀ f ∈ optVarint 1 (some s.version) ++ optMsg 2 (some (marshalLogical (some s.loc))) ++
      optMsg 3 (some (marshalLogical (some s.rem))), f.Ok := by
    intro f hf
    simp only [List.mem_append] at hf
    rcases hf with (hf | hf) | hf
    · exact optVarint_ok 1 (by omega) (by omega) _ f hf
    · simp only [optMsg, optLen, List.mem_singleton] at hf
      subst hf
      refine ⟨by simp, by simp, ?_⟩
      simp only; omega
    · simp only [optMsg, optLen, List.mem_singleton] at hf
      subst hf
      refine ⟨by simp, by simp, ?_⟩
      simp only; omega
  rw [PBCombined.unmarshal, Scannable.bytes, PBCombined.marshal]
  simp only [Option.map_some]
  rw [Wire.parseFields_enc _ hok]
  have e1 := mergeLogical_marshal s.loc (by omega)
  have e2 := mergeLogical_marshal s.rem (by omega)
  simp [optVarint, optMsg, optLen, PBCombined.field, e1, e2]

theorem newScannable_len {v : UInt32} {l r : Bytes} {s : Scannable} (h : newScannable v l r = .ok s) :
    s.loc.length = 32 ∧ s.rem.length = 32 := by
  unfold newScannable at h
  split at h
  · simp at h
  · split at h
    · simp at h
    · simp only [Res.ok.injEq] at h
      subst h
      simp; omega

/-! ## Decimal numbers -/

theorem decimalN_digits (n v : Nat) : ∀ c ∈ decimalN n v, 48 ≤ c.toNat ∧ c.toNat ≤ 57 := by
  induction n generalizing v with
  | zero => simp [decimalN]
  | succ n ih =>
    intro c hc
    unfold decimalN at hc
    split at hc
    · simp only [List.mem_singleton] at hc
      subst hc; exact digitChar_range _ (by omega)
    · simp only [List.mem_append, List.mem_singleton] at hc
      rcases hc with hc | rfl
      · exact ih _ c hc
      · exact digitChar_range _ (by omega)

/-- Value of a decimal text. -/
def decValue (s : Bytes) : Nat := s.foldl (fun a c => a * 10 + (c.toNat - 48)) 0

theorem decValue_append (s : Bytes) (c : UInt8) : decValue (s ++ [c]) = decValue s * 10 + (c.toNat - 48) := by
  simp [decValue]

theorem decValue_decimalN (n v : Nat) (h : v < 10 ^ n) : decValue (decimalN n v) = v := by
  induction n generalizing v with
  | zero => simp at h; subst h; rfl
  | succ n ih =>
    unfold decimalN
    split
    · rename_i hv
      have := decValue_append [] (digitChar v)
      rw [List.nil_append, digitChar_toNat v hv] at this
      rw [this]
      simp [decValue]
    · rw [decValue_append, ih (v / 10) (by rw [Nat.pow_succ] at h; omega), digitChar_toNat _ (by omega)]
      omega

theorem decValue_digitsN (n v : Nat) (h : v < 10 ^ n) : decValue (digitsN n v) = v := by
  induction n generalizing v with
  | zero => simp at h; subst h; rfl
  | succ n ih =>
    unfold digitsN
    rw [decValue_append, ih (v / 10) (by rw [Nat.pow_succ] at h; omega), digitChar_toNat _ (by omega)]
    omega

theorem decimal_value (v : UInt32) : decValue (decimal v) = v.toNat :=
  decValue_decimalN 10 v.toNat (by have := v.toNat_lt; omega)

/-- Splitting at the last separator is unambiguous when the tails contain none. -/
theorem append_sep_inj {a b x y : Bytes} {c : UInt8} (hx : c ∉ x) (hy : c ∉ y) (h : a ++ [c] ++ x = b ++ [c] ++ y) :
    a = b ∧ x = y := by
  induction a generalizing b with
  | nil =>
    cases b with
    | nil => simpa using h
    | cons z zs =>
      simp only [List.nil_append, List.cons_append, List.cons.injEq] at h
      exact absurd (by rw [h.2]; simp) hx
  | cons w ws ih =>
    cases b with
    | nil =>
      simp only [List.nil_append, List.cons_append, List.cons.injEq] at h
      exact absurd (by rw [← h.2]; simp) hy
    | cons z zs =>
      simp only [List.cons_append, List.cons.injEq] at h
      have := ih h.2
      exact ⟨by rw [h.1, this.1], this.2⟩

end Verif
