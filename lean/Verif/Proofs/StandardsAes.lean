import Verif.Spec.Standards
import Verif.Model.AesBlock

namespace Verif

open Doc

theorem gmul2 (x : UInt8) : gmul 2 x = xtime x := by
  have : ∀ n : Fin 256, gmul 2 (UInt8.ofNat n.1) = xtime (UInt8.ofNat n.1) := by decide +kernel
  have := this ⟨x.toNat, x.toNat_lt⟩
  simpa using this

theorem gmul3 (x : UInt8) : gmul 3 x = xtime x ^^^ x := by
  have : ∀ n : Fin 256, gmul 3 (UInt8.ofNat n.1) = xtime (UInt8.ofNat n.1) ^^^ UInt8.ofNat n.1 := by decide +kernel
  have := this ⟨x.toNat, x.toNat_lt⟩
  simpa using this

/-- The inverses in the field of 256 elements. -/
def inverses : List UInt8 :=
  [0x00, 0x01, 0x8d, 0xf6, 0xcb, 0x52, 0x7b, 0xd1, 0xe8, 0x4f, 0x29, 0xc0, 0xb0, 0xe1, 0xe5, 0xc7,
   0x74, 0xb4, 0xaa, 0x4b, 0x99, 0x2b, 0x60, 0x5f, 0x58, 0x3f, 0xfd, 0xcc, 0xff, 0x40, 0xee, 0xb2,
   0x3a, 0x6e, 0x5a, 0xf1, 0x55, 0x4d, 0xa8, 0xc9, 0xc1, 0x0a, 0x98, 0x15, 0x30, 0x44, 0xa2, 0xc2,
   0x2c, 0x45, 0x92, 0x6c, 0xf3, 0x39, 0x66, 0x42, 0xf2, 0x35, 0x20, 0x6f, 0x77, 0xbb, 0x59, 0x19,
   0x1d, 0xfe, 0x37, 0x67, 0x2d, 0x31, 0xf5, 0x69, 0xa7, 0x64, 0xab, 0x13, 0x54, 0x25, 0xe9, 0x09,
   0xed, 0x5c, 0x05, 0xca, 0x4c, 0x24, 0x87, 0xbf, 0x18, 0x3e, 0x22, 0xf0, 0x51, 0xec, 0x61, 0x17,
   0x16, 0x5e, 0xaf, 0xd3, 0x49, 0xa6, 0x36, 0x43, 0xf4, 0x47, 0x91, 0xdf, 0x33, 0x93, 0x21, 0x3b,
   0x79, 0xb7, 0x97, 0x85, 0x10, 0xb5, 0xba, 0x3c, 0xb6, 0x70, 0xd0, 0x06, 0xa1, 0xfa, 0x81, 0x82,
   0x83, 0x7e, 0x7f, 0x80, 0x96, 0x73, 0xbe, 0x56, 0x9b, 0x9e, 0x95, 0xd9, 0xf7, 0x02, 0xb9, 0xa4,
   0xde, 0x6a, 0x32, 0x6d, 0xd8, 0x8a, 0x84, 0x72, 0x2a, 0x14, 0x9f, 0x88, 0xf9, 0xdc, 0x89, 0x9a,
   0xfb, 0x7c, 0x2e, 0xc3, 0x8f, 0xb8, 0x65, 0x48, 0x26, 0xc8, 0x12, 0x4a, 0xce, 0xe7, 0xd2, 0x62,
   0x0c, 0xe0, 0x1f, 0xef, 0x11, 0x75, 0x78, 0x71, 0xa5, 0x8e, 0x76, 0x3d, 0xbd, 0xbc, 0x86, 0x57,
   0x0b, 0x28, 0x2f, 0xa3, 0xda, 0xd4, 0xe4, 0x0f, 0xa9, 0x27, 0x53, 0x04, 0x1b, 0xfc, 0xac, 0xe6,
   0x7a, 0x07, 0xae, 0x63, 0xc5, 0xdb, 0xe2, 0xea, 0x94, 0x8b, 0xc4, 0xd5, 0x9d, 0xf8, 0x90, 0x6b,
   0xb1, 0x0d, 0xd6, 0xeb, 0xc6, 0x0e, 0xcf, 0xad, 0x08, 0x4e, 0xd7, 0xe3, 0x5d, 0x50, 0x1e, 0xb3,
   0x5b, 0x23, 0x38, 0x34, 0x68, 0x46, 0x03, 0x8c, 0xdd, 0x9c, 0x7d, 0xa0, 0xcd, 0x1a, 0x41, 0x1c]

theorem isSub (x : UInt8) : IsSub x (aesSub x) := by
  have h : ∀ n : Fin 256, (n.1 = 0 ∨ gmul (UInt8.ofNat n.1) (inverses.getD n.1 0) = 1) ∧ ∀ i < 8,
      (aesSub (UInt8.ofNat n.1)).toNat.testBit i = ((((((inverses.getD n.1 0).toNat.testBit i ^^ (inverses.getD n.1 0).toNat.testBit ((i + 4) % 8)) ^^
        (inverses.getD n.1 0).toNat.testBit ((i + 5) % 8)) ^^ (inverses.getD n.1 0).toNat.testBit ((i + 6) % 8)) ^^
        (inverses.getD n.1 0).toNat.testBit ((i + 7) % 8)) ^^ Nat.testBit 0x63 i) := by decide +kernel
  obtain ⟨h1, h2⟩ := h ⟨x.toNat, x.toNat_lt⟩
  simp only [UInt8.ofNat_toNat] at h1 h2
  refine ⟨inverses.getD x.toNat 0, ?_, h2⟩
  rcases h1 with h1 | h1
  · have : x = 0 := UInt8.toNat_inj.mp h1
    subst this
    exact .inl ⟨rfl, rfl⟩
  · exact .inr h1

/-! ## States -/

theorem list16 {b : Bytes} (h : b.length = 16) : ∃ a0 a1 a2 a3 b0 b1 b2 b3 c0 c1 c2 c3 d0 d1 d2 d3 : UInt8,
    b = [a0, a1, a2, a3, b0, b1, b2, b3, c0, c1, c2, c3, d0, d1, d2, d3] := by
  match b, h with
  | [a0, a1, a2, a3, b0, b1, b2, b3, c0, c1, c2, c3, d0, d1, d2, d3], _ => exact ⟨_, _, _, _, _, _, _, _, _, _, _, _, _, _, _, _, rfl⟩

theorem Square.to_of {b : Bytes} (h : b.length = 16) : (Square.ofBytes b).toBytes = b := by
  obtain ⟨a0, a1, a2, a3, b0, b1, b2, b3, c0, c1, c2, c3, d0, d1, d2, d3, rfl⟩ := list16 h
  rfl

theorem Square.toBytes_shift (s : Square) : s.shiftRows.toBytes = aesShiftRows s.toBytes := rfl

theorem Square.toBytes_sub (f : UInt8 → UInt8) (s : Square) : Square.toBytes (fun r c => f (s r c)) = s.toBytes.map f := rfl

theorem Square.toBytes_mix (s : Square) : s.mixColumns.toBytes = aesMixColumns s.toBytes := by
  simp only [Square.toBytes, Square.mixColumns, gmul2, gmul3]
  rw [show List.range 16 = [0, 1, 2, 3, 4, 5, 6, 7, 8, 9, 10, 11, 12, 13, 14, 15] from rfl]
  simp only [List.map, aesMixColumns, Nat.reduceMod, Nat.reduceDiv, Nat.reduceAdd]
  simp only [List.cons.injEq, and_true]
  refine ⟨?_, ?_, ?_, ?_, ?_, ?_, ?_, ?_, ?_, ?_, ?_, ?_, ?_, ?_, ?_, ?_⟩ <;> first | trivial | ac_rfl

/-! ## Key schedule -/

/-- Word `i` of the key schedule. -/
def keyW (key : Bytes) (nk i : Nat) : Bytes := (List.range 4).map (keyWord aesSub key nk i)

theorem rcon_succ (i : Nat) : rcon (i + 1) = xtime (rcon i) := gmul2 _

theorem keyW_step (key : Bytes) {nk i : Nat} (hk : 0 < nk) (hi : nk ≤ i) : keyW key nk i =
    if i % nk = 0 then aesAddKey (keyW key nk (i - nk)) ((((keyW key nk (i - 1)).drop 1 ++ (keyW key nk (i - 1)).take 1).map aesSub).modify 0 (· ^^^ rcon (i / nk - 1)))
    else aesAddKey (keyW key nk (i - nk)) (if nk > 6 ∧ i % nk = 4 then (keyW key nk (i - 1)).map aesSub else keyW key nk (i - 1)) := by
  have h : ∀ r, keyWord aesSub key nk i r = keyWord aesSub key nk (i - nk) r ^^^
      (if i % nk = 0 then aesSub (keyWord aesSub key nk (i - 1) ((r + 1) % 4)) ^^^ (if r = 0 then rcon (i / nk - 1) else 0)
       else if 6 < nk ∧ i % nk = 4 then aesSub (keyWord aesSub key nk (i - 1) r)
       else keyWord aesSub key nk (i - 1) r) := by
    intro r
    rw [keyWord, dif_neg (by omega)]
  have e : List.range 4 = [0, 1, 2, 3] := rfl
  simp only [keyW, e, List.map, h]
  by_cases h1 : i % nk = 0
  · simp [h1, aesAddKey]
  · by_cases h2 : 6 < nk ∧ i % nk = 4
    · simp only [if_neg h1, gt_iff_lt, if_pos h2, aesAddKey, List.zipWith_cons_cons, List.zipWith_nil_left]
    · simp only [if_neg h1, gt_iff_lt, if_neg h2, aesAddKey, List.zipWith_cons_cons, List.zipWith_nil_left]

/-- The words so far, last first. -/
def keyRev (key : Bytes) (nk i : Nat) : List Bytes := ((List.range i).map (keyW key nk)).reverse

theorem keyRev_succ (key : Bytes) (nk i : Nat) : keyRev key nk (i + 1) = keyW key nk i :: keyRev key nk i := by
  simp [keyRev, List.range_succ]

theorem keyRev_getD (key : Bytes) (nk i j : Nat) (h : j < i) : (keyRev key nk i).getD j [] = keyW key nk (i - 1 - j) := by
  simp [keyRev, List.getD_eq_getElem?_getD, h]

theorem expand_eq (key : Bytes) {nk : Nat} (hk : 0 < nk) (n : Nat) : ∀ i, nk ≤ i →
    aesExpand nk n i (rcon ((i + nk - 1) / nk - 1)) (keyRev key nk i) = keyRev key nk (i + n) := by
  induction n with
  | zero => intro i _; rfl
  | succ n ih =>
    intro i hi
    have hp : (keyRev key nk i).headD [] = keyW key nk (i - 1) := by
      obtain ⟨j, rfl⟩ := Nat.exists_eq_add_of_le' (Nat.lt_of_lt_of_le hk hi)
      rw [keyRev_succ]
      rfl
    have hb : (keyRev key nk i).getD (nk - 1) [] = keyW key nk (i - nk) := by
      rw [keyRev_getD _ _ _ _ (by omega)]
      congr 1
      omega
    have hs := keyW_step key hk hi
    have hn := ih (i + 1) (by omega)
    rw [keyRev_succ, show i + 1 + n = i + (n + 1) by omega] at hn
    rw [aesExpand]
    simp only [hp, hb]
    have hdm := Nat.div_add_mod i nk
    have hml := Nat.mod_lt i hk
    by_cases h0 : i % nk = 0
    · simp only [h0, if_true] at hs ⊢
      have hq : (i + nk - 1) / nk = i / nk := by
        obtain ⟨q, rfl⟩ := Nat.dvd_of_mod_eq_zero h0
        rw [Nat.mul_div_cancel_left _ hk, show nk * q + nk - 1 = nk * q + (nk - 1) by omega, Nat.mul_add_div hk, Nat.div_eq_of_lt (by omega)]
        rfl
      have hq' : (i + 1 + nk - 1) / nk = i / nk + 1 := by
        rw [show i + 1 + nk - 1 = i + nk by omega, Nat.add_div_right _ hk]
      have hpos : 0 < i / nk := Nat.div_pos hi hk
      rw [hq, ← hs, ← rcon_succ, show i / nk - 1 + 1 = i / nk + 1 - 1 by omega, ← hq']
      exact hn
    · simp only [h0, if_false] at hs ⊢
      have hq : (i + nk - 1) / nk = i / nk + 1 := by
        have : i + nk - 1 = nk * (i / nk + 1) + (i % nk - 1) := by rw [Nat.mul_add]; omega
        rw [this, Nat.mul_add_div hk, Nat.div_eq_of_lt (show i % nk - 1 < nk by omega)]
      have hq' : (i + 1 + nk - 1) / nk = i / nk + 1 := by
        rw [show i + 1 + nk - 1 = i + nk by omega, Nat.add_div_right _ hk]
      rw [← hs, hq, ← hq']
      exact hn

theorem chunks_eq (k n : Nat) : ∀ (b : Bytes) (i : Nat), chunks k n (b.drop (k * i)) = (List.range' i n).map fun j => (b.drop (k * j)).take k := by
  induction n with
  | zero => intro b i; rfl
  | succ n ih =>
    intro b i
    rw [chunks, List.range'_succ, List.map_cons, List.drop_drop, ← Nat.mul_succ, ih]

theorem keyW_key (key : Bytes) {nk i : Nat} (hl : key.length = 4 * nk) (hi : i < nk) : keyW key nk i = (key.drop (4 * i)).take 4 := by
  apply List.ext_getElem
  · simp [keyW]; omega
  · intro j h1 h2
    have hj : j < 4 := by simpa [keyW] using h1
    simp only [keyW, List.getElem_map, List.getElem_range, List.getElem_take, List.getElem_drop]
    rw [keyWord, dif_pos (.inl hi), List.getD_eq_getElem?_getD, List.getElem?_eq_getElem (by omega)]
    rfl

theorem flatten_words {f : Nat → Bytes} (hf : ∀ i, (f i).length = 4) (i : Nat) : ∀ n, i ≤ n →
    (((List.range n).map f).flatten).drop (4 * i) = ((List.range' i (n - i)).map f).flatten := by
  intro n hn
  have hl : ∀ i, (((List.range i).map f).flatten).length = 4 * i := by
    intro i
    rw [List.length_flatten]
    have : ((List.range i).map f).map List.length = List.replicate i 4 := by
      rw [List.eq_replicate_iff]
      simp [hf]
    rw [this]
    simp [Nat.mul_comm]
  obtain ⟨c, rfl⟩ := Nat.exists_eq_add_of_le hn
  rw [List.range_add, List.map_append, List.flatten_append, ← hl i, List.drop_left, Nat.add_sub_cancel_left, List.range'_eq_map_range]

/-- The key of round `n`. -/
def roundKey (key : Bytes) (nk n : Nat) : Bytes := Square.toBytes fun r c => keyWord aesSub key nk (4 * n + c) r

theorem aesKeys_eq (key : Bytes) (nk : Nat) (hk : 0 < nk) (hl : key.length = 4 * nk) :
    aesKeys key = (List.range (nk + 7)).map (roundKey key nk) := by
  have hn : key.length / 4 = nk := by omega
  unfold aesKeys
  simp only [hn]
  have h0 : (chunks 4 nk key).reverse = keyRev key nk nk := by
    have := chunks_eq 4 nk key 0
    rw [Nat.mul_zero, List.drop_zero, ← List.range_eq_range'] at this
    rw [this, keyRev]
    congr 1
    apply List.map_congr_left
    intro i hi
    exact (keyW_key key hl (by simpa using hi)).symm
  have h1 := expand_eq key hk (4 * (nk + 7) - nk) nk (Nat.le_refl _)
  have h2 : (nk + nk - 1) / nk - 1 = 0 := by
    rw [show nk + nk - 1 = nk * 1 + (nk - 1) by omega, Nat.mul_add_div hk, Nat.div_eq_of_lt (by omega)]
  rw [h2] at h1
  rw [h0, show (1 : UInt8) = rcon 0 from rfl, h1, show nk + (4 * (nk + 7) - nk) = 4 * (nk + 7) by omega, keyRev, List.reverse_reverse]
  have h3 := chunks_eq 16 (nk + 7) ((List.range (4 * (nk + 7))).map (keyW key nk)).flatten 0
  rw [Nat.mul_zero, List.drop_zero, ← List.range_eq_range'] at h3
  rw [h3]
  apply List.map_congr_left
  intro j hj
  have hj : j < nk + 7 := by simpa using hj
  rw [show 16 * j = 4 * (4 * j) by omega, flatten_words (fun i => by simp [keyW]) _ _ (by omega)]
  obtain ⟨c, hc⟩ : ∃ c, 4 * (nk + 7) - 4 * j = 4 + c := ⟨4 * (nk + 7) - 4 * j - 4, by omega⟩
  rw [hc, ← List.range'_append_1, List.map_append, List.flatten_append]
  rw [List.take_append_of_le_length (by simp [List.range', keyW])]
  rfl

theorem toBytes_add (s : Square) (key : Bytes) (nk n : Nat) (hl : key.length = 4 * nk) :
    (Square.addRoundKey aesSub key n s).toBytes = aesAddKey s.toBytes (roundKey key nk n) := by
  have hn : key.length / 4 = nk := by omega
  unfold Square.addRoundKey
  rw [hn]
  rfl

theorem aesRounds_eq (key : Bytes) (nk : Nat) (hl : key.length = 4 * nk) (s : Square) : ∀ n i,
    aesRounds ((List.range' (i + 1) (n + 1)).map (roundKey key nk)) (Square.rounds aesSub key s i).toBytes =
      (Square.addRoundKey aesSub key (i + n + 1) (Square.shiftRows fun r c => aesSub (Square.rounds aesSub key s (i + n) r c))).toBytes := by
  intro n
  induction n with
  | zero =>
    intro i
    rw [toBytes_add _ _ nk _ hl, Square.toBytes_shift, Square.toBytes_sub]
    rfl
  | succ n ih =>
    intro i
    have h := ih (i + 1)
    rw [show i + 1 + n = i + (n + 1) by omega] at h
    rw [← h, List.range'_succ, List.range'_succ, List.map_cons, List.map_cons, aesRounds, ← Square.toBytes_sub, ← Square.toBytes_shift, ← Square.toBytes_mix,
      ← toBytes_add _ _ nk _ hl]
    · rfl
    · simp

theorem aesEncrypt_eq (key block : Bytes) (hk : key.length = 16 ∨ key.length = 24 ∨ key.length = 32) (hb : block.length = 16) :
    aesEncrypt key block = aesCipher aesSub key block := by
  obtain ⟨nk, hl, hpos⟩ : ∃ nk, key.length = 4 * nk ∧ 0 < nk := by
    rcases hk with h | h | h
    · exact ⟨4, h, by decide⟩
    · exact ⟨6, h, by decide⟩
    · exact ⟨8, h, by decide⟩
  have hn : key.length / 4 = nk := by omega
  have h := aesRounds_eq key nk hl (Square.ofBytes block) (nk + 5) 0
  rw [show 0 + (nk + 5) + 1 = nk + 6 by omega, Nat.zero_add] at h
  simp only [Nat.zero_add] at h
  have hks : aesKeys key = roundKey key nk 0 :: (List.range' 1 (nk + 6)).map (roundKey key nk) := by
    rw [aesKeys_eq key nk hpos hl, List.range_eq_range', List.range'_succ, List.map_cons]
  have he : aesEncrypt key block = aesRounds ((List.range' 1 (nk + 6)).map (roundKey key nk)) (aesAddKey block (roundKey key nk 0)) := by
    unfold aesEncrypt
    simp only [hks]
  have hr : (Square.rounds aesSub key (Square.ofBytes block) 0).toBytes = aesAddKey block (roundKey key nk 0) := by
    unfold Square.rounds
    rw [toBytes_add _ _ nk _ hl, Square.to_of hb]
  have hc : aesCipher aesSub key block = (Square.addRoundKey aesSub key (nk + 6) (Square.shiftRows fun r c =>
      aesSub (Square.rounds aesSub key (Square.ofBytes block) (nk + 5) r c))).toBytes := by
    unfold aesCipher
    simp only [hn, show nk + 6 - 1 = nk + 5 by omega]
  rw [hc, ← h, he, hr]

end Verif
