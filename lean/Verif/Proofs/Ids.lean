import Verif.Spec.Ids

/-!
# Texts of distribution ids
-/

namespace Verif

open Doc

theorem unhex_some {c v : UInt8} (h : unhex c = some v) : v.toNat < 16 ∧ IsHex c v.toNat := by
  have all : ∀ n : Fin 256, ∀ v, unhex (UInt8.ofNat n.1) = some v → v.toNat < 16 ∧
      ((ascii "0123456789abcdef")[v.toNat]? = some (UInt8.ofNat n.1) ∨ (ascii "0123456789ABCDEF")[v.toNat]? = some (UInt8.ofNat n.1)) := by
    have : ∀ n : Fin 256, (match unhex (UInt8.ofNat n.1) with
        | some v => decide (v.toNat < 16 ∧ ((ascii "0123456789abcdef")[v.toNat]? = some (UInt8.ofNat n.1) ∨ (ascii "0123456789ABCDEF")[v.toNat]? = some (UInt8.ofNat n.1)))
        | none => true) = true := by decide +kernel
    intro n v hv
    have := this n
    rw [hv] at this
    exact of_decide_eq_true this
  have := all ⟨c.toNat, c.toNat_lt⟩ v (by simpa using h)
  simpa [IsHex] using this

theorem unhex_of {c : UInt8} {v : Nat} (h : IsHex c v) : v < 16 ∧ unhex c = some (UInt8.ofNat v) := by
  have hv : v < 16 := by
    rcases h with h | h
    · have := (List.getElem?_eq_some_iff.1 h).1
      exact this
    · have := (List.getElem?_eq_some_iff.1 h).1
      exact this
  refine ⟨hv, ?_⟩
  have all : ∀ n : Fin 16, ((ascii "0123456789abcdef")[n.1]?.bind unhex = some (UInt8.ofNat n.1)) ∧
      ((ascii "0123456789ABCDEF")[n.1]?.bind unhex = some (UInt8.ofNat n.1)) := by decide +kernel
  have := all ⟨v, hv⟩
  rcases h with h | h
  · simpa [h] using this.1
  · simpa [h] using this.2

theorem nibbles : ∀ x y : Fin 16, UInt8.ofNat x.1 <<< 4 ||| UInt8.ofNat y.1 = UInt8.ofNat (16 * x.1 + y.1) := by decide +kernel

theorem hexDecode_iff : ∀ (t xs : Bytes), hexDecode t = some xs ↔ HexText t xs
  | [], xs => by
    constructor
    · intro h; cases h; exact .nil
    · intro h; cases h; rfl
  | [a], xs => by
    constructor
    · intro h; cases h
    · intro h; cases h
  | a :: b :: t, xs => by
    have ih := hexDecode_iff t
    constructor
    · intro h
      simp only [hexDecode, xtob] at h
      rcases ha : unhex a with _ | x
      · simp [ha] at h
      rcases hb : unhex b with _ | y
      · simp [ha, hb] at h
      rcases ht : hexDecode t with _ | ys
      · simp [ha, hb, ht] at h
      simp only [ha, hb, ht, Option.some.injEq] at h
      obtain ⟨hx, hax⟩ := unhex_some ha
      obtain ⟨hy, hby⟩ := unhex_some hb
      have := HexText.cons hax hby ((ih ys).1 ht)
      rw [← nibbles ⟨_, hx⟩ ⟨_, hy⟩] at this
      simp only [UInt8.ofNat_toNat] at this
      rw [← h]
      exact this
    · intro h
      cases h with
      | @cons _ _ x y _ ys ha hb h =>
        obtain ⟨hx, ha⟩ := unhex_of ha
        obtain ⟨hy, hb⟩ := unhex_of hb
        simp only [hexDecode, xtob, ha, hb, (ih ys).2 h, nibbles ⟨x, hx⟩ ⟨y, hy⟩]

theorem HexText.length {t xs : Bytes} (h : HexText t xs) : t.length = 2 * xs.length := by
  induction h with
  | nil => rfl
  | cons ha hb h ih => simp [ih]; omega

theorem HexText.append {t u xs ys : Bytes} (h : HexText t xs) (h' : HexText u ys) : HexText (t ++ u) (xs ++ ys) := by
  induction h with
  | nil => exact h'
  | cons ha hb h ih => exact .cons ha hb ih

theorem HexText.split {u zs : Bytes} : ∀ {n : Nat} {t : Bytes}, t.length = 2 * n → HexText (t ++ u) zs →
    ∃ xs ys, zs = xs ++ ys ∧ xs.length = n ∧ HexText t xs ∧ HexText u ys
  | 0, t, hl, h => by
    have : t = [] := List.length_eq_zero_iff.1 (by omega)
    subst this
    exact ⟨[], zs, rfl, rfl, .nil, h⟩
  | n + 1, [], hl, h => by simp at hl
  | n + 1, [a], hl, h => by simp at hl; omega
  | n + 1, a :: b :: t, hl, h => by
    simp only [List.cons_append] at h
    cases h with
    | cons ha hb h =>
      obtain ⟨xs, ys, rfl, h1, h2, h3⟩ := HexText.split (n := n) (by simp at hl; omega) h
      exact ⟨_, ys, rfl, by simp [h1], .cons ha hb h2, h3⟩

theorem mkDistId_some {b : Bytes} {d : DistId} : mkDistId b = some d ↔ b = d.id := by
  unfold mkDistId
  constructor
  · intro h
    split at h
    · cases h; rfl
    · cases h
  · intro h
    subst h
    simp [d.len]

theorem Hyphenated.length {t : Bytes} {d : DistId} (h : Hyphenated t d) : t.length = 36 := by
  obtain ⟨t1, t2, t3, t4, t5, x1, x2, x3, x4, x5, rfl, h1, h2, h3, h4, h5, l1, l2, l3, l4, l5, -⟩ := h
  have := h1.length
  have := h2.length
  have := h3.length
  have := h4.length
  have := h5.length
  simp [ascii]
  omega

/-- What is after the 36 bytes does not matter. -/
theorem parseHyphenated_iff (t r : Bytes) (d : DistId) (ht : t.length = 36) : parseHyphenated (t ++ r) = some d ↔ Hyphenated t d := by
  match t, ht with
  | a0 :: a1 :: a2 :: a3 :: a4 :: a5 :: a6 :: a7 :: b0 :: a8 :: a9 :: a10 :: a11 :: b1 :: a12 :: a13 :: a14 :: a15 ::
      b2 :: a16 :: a17 :: a18 :: a19 :: b3 :: a20 :: a21 :: a22 :: a23 :: a24 :: a25 :: a26 :: a27 :: a28 :: a29 :: a30 :: a31 :: [], _ =>
    simp only [parseHyphenated]
    constructor
    · intro h
      split at h
      · rename_i hy
        simp only [List.cons_append, List.getD_cons_succ, List.getD_cons_zero] at hy
        obtain ⟨rfl, rfl, rfl, rfl⟩ := hy
        split at h
        · rename_i z hz
          rw [mkDistId_some] at h
          subst h
          rw [hexDecode_iff] at hz
          simp only [List.cons_append, List.take_succ_cons, List.take_zero, List.drop_succ_cons, List.drop_zero, List.nil_append] at hz
          obtain ⟨x1, r1, e1, l1, h1, hz⟩ := HexText.split (n := 4) (t := [a0, a1, a2, a3, a4, a5, a6, a7]) rfl hz
          obtain ⟨x2, r2, e2, l2, h2, hz⟩ := HexText.split (n := 2) (t := [a8, a9, a10, a11]) rfl hz
          obtain ⟨x3, r3, e3, l3, h3, hz⟩ := HexText.split (n := 2) (t := [a12, a13, a14, a15]) rfl hz
          obtain ⟨x4, r4, e4, l4, h4, hz⟩ := HexText.split (n := 2) (t := [a16, a17, a18, a19]) rfl hz
          refine ⟨_, _, _, _, _, x1, x2, x3, x4, r4, ?_, h1, h2, h3, h4, hz, l1, l2, l3, l4, ?_, ?_⟩
          · rfl
          · have := hz.length; simp at this; omega
          · rw [e1, e2, e3, e4]; simp
        · cases h
      · cases h
    · rintro ⟨t1, t2, t3, t4, t5, x1, x2, x3, x4, x5, e, h1, h2, h3, h4, h5, l1, l2, l3, l4, l5, hd⟩
      have k1 := h1.length
      have k2 := h2.length
      have k3 := h3.length
      have k4 := h4.length
      have k5 := h5.length
      rw [e]
      have hz := (h1.append (h2.append (h3.append (h4.append h5))))
      rw [l1] at k1
      rw [l2] at k2
      rw [l3] at k3
      rw [l4] at k4
      rw [l5] at k5
      match t1, k1, t2, k2, t3, k3, t4, k4, t5, k5 with
      | [_, _, _, _, _, _, _, _], _, [_, _, _, _], _, [_, _, _, _], _, [_, _, _, _], _, [_, _, _, _, _, _, _, _, _, _, _, _], _ =>
        have hz' := (hexDecode_iff _ _).2 hz
        simp only [List.cons_append, List.nil_append] at hz'
        have a : ascii "-" = [45] := by decide
        simp only [a, List.cons_append, List.nil_append, List.getD_cons_succ, List.getD_cons_zero, and_self, if_true,
          List.take_succ_cons, List.take_zero, List.drop_succ_cons, List.drop_zero]
        rw [hz']
        simp only
        rw [mkDistId_some, hd]
        simp

theorem lowerAscii_iff : ∀ a c : UInt8, (97 ≤ c ∧ c ≤ 122) ∨ ¬ (65 ≤ c ∧ c ≤ 90) → (lowerAscii a = c ↔ (a = c ∧ ¬ (65 ≤ a ∧ a ≤ 90)) ∨ (97 ≤ c ∧ c ≤ 122 ∧ a = c - 32)) := by
  intro a c h
  unfold lowerAscii
  split
  · rename_i ha
    constructor
    · rintro rfl
      refine .inr ?_
      refine ⟨?_, ?_, ?_⟩
      · rw [UInt8.le_iff_toNat_le] at *
        have := ha.1; have := ha.2
        simp [UInt8.le_iff_toNat_le] at *
        omega
      · have := ha.1; have := ha.2
        simp [UInt8.le_iff_toNat_le] at *
        omega
      · simp
    · rintro (⟨rfl, hn⟩ | ⟨h1, h2, rfl⟩)
      · exact absurd ha hn
      · simp
  · rename_i ha
    constructor
    · rintro rfl; exact .inl ⟨rfl, ha⟩
    · rintro (⟨rfl, hn⟩ | ⟨h1, h2, rfl⟩)
      · rfl
      · exfalso
        apply ha
        simp [UInt8.le_iff_toNat_le, UInt8.toNat_sub] at *
        omega

theorem urn_iff (p : Bytes) : p.map lowerAscii = urnPrefix ↔ SameButCase p (ascii "urn:uuid:") := by
  have hu : ascii "urn:uuid:" = urnPrefix := by decide
  rw [hu]
  have one : ∀ a : UInt8, ∀ c ∈ urnPrefix, (lowerAscii a = c ↔ a = c ∨ (97 ≤ c ∧ c ≤ 122 ∧ a = c - 32)) := by
    intro a c hc
    have hc' : ((97 : UInt8) ≤ c ∧ c ≤ 122) ∨ ¬ ((65 : UInt8) ≤ c ∧ c ≤ 90) := by
      have : ∀ c ∈ urnPrefix, ((97 : UInt8) ≤ c ∧ c ≤ 122) ∨ ¬ ((65 : UInt8) ≤ c ∧ c ≤ 90) := by decide
      exact this c hc
    have hn : ¬ ((65 : UInt8) ≤ c ∧ c ≤ 90) := by
      have : ∀ c ∈ urnPrefix, ¬ ((65 : UInt8) ≤ c ∧ c ≤ 90) := by decide
      exact this c hc
    rw [lowerAscii_iff a c hc']
    constructor
    · rintro (⟨h, -⟩ | h)
      · exact .inl h
      · exact .inr h
    · rintro (rfl | h)
      · exact .inl ⟨rfl, hn⟩
      · exact .inr h
  constructor
  · intro h
    refine ⟨by rw [← h]; simp, fun i c hi => ?_⟩
    have hm : c ∈ urnPrefix := List.mem_of_getElem? hi
    rw [← h, List.getElem?_map, Option.map_eq_some_iff] at hi
    obtain ⟨a, ha, hac⟩ := hi
    rcases (one a c hm).1 hac with rfl | ⟨h1, h2, rfl⟩
    · exact .inl ha
    · exact .inr ⟨h1, h2, ha⟩
  · rintro ⟨hl, h⟩
    refine List.ext_getElem? fun i => ?_
    rw [List.getElem?_map]
    rcases hi : urnPrefix[i]? with _ | c
    · rw [List.getElem?_eq_none_iff] at hi
      rw [List.getElem?_eq_none (by omega)]; rfl
    · have hm : c ∈ urnPrefix := List.mem_of_getElem? hi
      rcases h i c hi with ha | ⟨h1, h2, ha⟩
      · rw [ha]; simp [(one c c hm).2 (.inl rfl)]
      · rw [ha]; simp [(one (c - 32) c hm).2 (.inr ⟨h1, h2, rfl⟩)]

theorem parseDistId_iff (b : Bytes) (d : DistId) : parseDistId b = .ok d ↔ Writes d b := by
  have hopt : ∀ (o : Option DistId), Res.ofOption .badUUID o = .ok d ↔ o = some d := by
    intro o; cases o <;> simp [Res.ofOption]
  unfold parseDistId
  rw [hopt]
  constructor
  · intro h
    split at h
    · rename_i hl
      exact .plain ((parseHyphenated_iff b [] d hl).1 (by simpa using h))
    · split at h
      · rename_i hl
        split at h
        · rename_i hp
          have := (parseHyphenated_iff (b.drop 9) [] d (by simp [hl])).1 (by simpa using h)
          have hw := Writes.urn ((urn_iff _).1 hp) this
          rwa [List.take_append_drop] at hw
        · cases h
      · split at h
        · rename_i hl
          match b, hl with
          | x :: b, hl =>
            rcases List.eq_nil_or_concat b with rfl | ⟨t, y, rfl⟩
            · simp at hl
            · rw [List.concat_eq_append] at hl h ⊢
              simp only [List.drop_succ_cons, List.drop_zero] at h
              exact .braced x y ((parseHyphenated_iff t [y] d (by simpa using hl)).1 h)
        · split at h
          · split at h
            · rename_i x hx
              rw [mkDistId_some] at h
              subst h
              exact .digits ((hexDecode_iff _ _).1 hx)
            · cases h
          · cases h
  · intro h
    cases h with
    | plain h =>
      rw [if_pos h.length]
      have := (parseHyphenated_iff b [] d h.length).2 h
      simpa using this
    | @urn p t hp h =>
      have hl := h.length
      have hp9 : p.length = 9 := hp.1.trans (by decide)
      rw [if_neg (by simp [hl, hp9]), if_pos (by simp [hl, hp9]), List.take_left' hp9, if_pos ((urn_iff p).2 hp), List.drop_left' hp9]
      have := (parseHyphenated_iff t [] d hl).2 h
      simpa using this
    | @braced x y t h =>
      have hl := h.length
      rw [if_neg (by simp [hl]), if_neg (by simp [hl]), if_pos (by simp [hl])]
      exact (parseHyphenated_iff t [y] d hl).2 h
    | digits h =>
      have hl := h.length
      rw [d.len] at hl
      rw [if_neg (by simp [hl]), if_neg (by simp [hl]), if_neg (by simp [hl]), if_pos (by simp [hl]), (hexDecode_iff _ _).2 h]
      simp [mkDistId_some]

/-! ## The text form -/

theorem hexEncode_text (l : Bytes) : HexText (hexEncode l) l := (hexDecode_iff _ _).1 (hexDecode_encode l)

theorem hexEncode_lower (l : Bytes) : ∀ c ∈ hexEncode l, c ∈ ascii "0123456789abcdef" := by
  induction l with
  | nil => simp [hexEncode]
  | cons b l ih =>
    have all : ∀ n : Fin 256, hexDigit (UInt8.ofNat n.1 >>> 4) ∈ ascii "0123456789abcdef" ∧ hexDigit (UInt8.ofNat n.1 &&& 15) ∈ ascii "0123456789abcdef" := by
      decide +kernel
    have hb := all ⟨b.toNat, b.toNat_lt⟩
    simp only [UInt8.ofNat_toNat] at hb
    intro c hc
    simp only [hexEncode, List.mem_cons] at hc
    rcases hc with rfl | rfl | hc
    · exact hb.1
    · exact hb.2
    · exact ih c hc

theorem DistId.string_hyphenated (d : DistId) : Hyphenated d.string d := by
  have hl := d.len
  refine ⟨_, _, _, _, _, d.id.take 4, (d.id.drop 4).take 2, (d.id.drop 6).take 2, (d.id.drop 8).take 2, d.id.drop 10, ?_, hexEncode_text _, hexEncode_text _,
    hexEncode_text _, hexEncode_text _, hexEncode_text _, ?_, ?_, ?_, ?_, ?_, ?_⟩
  · rfl
  · simp [hl]
  · simp [hl]
  · simp [hl]
  · simp [hl]
  · simp [hl]
  · obtain ⟨id, len⟩ := d
    match id, len with
    | [a0, a1, a2, a3, a4, a5, a6, a7, a8, a9, a10, a11, a12, a13, a14, a15], len => rfl

end Verif
