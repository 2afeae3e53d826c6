import Verif.Model.AesBlock
import Verif.Model.Crypto

/-!
# AES decryption inverts encryption
-/

namespace Verif

theorem UInt8.forall_of_fin {p : UInt8 → Prop} (h : ∀ n : Fin 256, p (UInt8.ofNat n.1)) (x : UInt8) : p x := by
  have := h ⟨x.toNat, x.toNat_lt⟩
  simpa using this

theorem aesInvSub_sub (x : UInt8) : aesInvSub (aesSub x) = x := by
  revert x
  apply UInt8.forall_of_fin
  decide +kernel

theorem aesInvShiftRows_shiftRows {s : Bytes} (h : s.length = 16) : aesInvShiftRows (aesShiftRows s) = s := by
  match s, h with
  | [a0, a1, a2, a3, b0, b1, b2, b3, c0, c1, c2, c3, d0, d1, d2, d3], _ => rfl

theorem aesShiftRows_length {s : Bytes} : (aesShiftRows s).length = s.length := by
  unfold aesShiftRows
  split <;> rfl

theorem aesInvShiftRows_length {s : Bytes} : (aesInvShiftRows s).length = s.length := by
  unfold aesInvShiftRows
  split <;> rfl

theorem aesMixColumns_length (s : Bytes) : (aesMixColumns s).length = s.length := by
  fun_induction aesMixColumns s <;> simp_all

theorem aesInvMixColumns_length (s : Bytes) : (aesInvMixColumns s).length = s.length := by
  fun_induction aesInvMixColumns s <;> simp_all

theorem u8_xor_left_comm (a b c : UInt8) : a ^^^ (b ^^^ c) = b ^^^ (a ^^^ c) := by
  rw [← UInt8.xor_assoc, UInt8.xor_comm a b, UInt8.xor_assoc]

theorem u8_xor_left_self (a b : UInt8) : a ^^^ (a ^^^ b) = b := by
  rw [← UInt8.xor_assoc, UInt8.xor_self, UInt8.zero_xor]

theorem xtime_xor (x y : UInt8) : xtime (x ^^^ y) = xtime x ^^^ xtime y := by
  have hs : (x ^^^ y) <<< 1 = (x <<< 1) ^^^ (y <<< 1) := by
    apply UInt8.toBitVec_inj.1
    simp [BitVec.shiftLeft_xor_distrib]
  have hm : ∀ z : UInt8, (z &&& 0x80 = 0 ∨ z &&& 0x80 = 0x80) := by
    apply UInt8.forall_of_fin
    decide +kernel
  have hx : (x ^^^ y) &&& 0x80 = (x &&& 0x80) ^^^ (y &&& 0x80) := by
    apply UInt8.toBitVec_inj.1
    apply BitVec.eq_of_getLsbD_eq
    intro i _
    simp [Bool.and_xor_distrib_right]
  unfold xtime
  rw [hs, hx]
  rcases hm x with h | h <;> rcases hm y with h' | h' <;> rw [h, h'] <;>
    simp [UInt8.xor_assoc]
  · rw [UInt8.xor_comm]
  · rw [u8_xor_left_comm 27, UInt8.xor_self, UInt8.xor_zero]

/-- A sum of four sums of four, by columns. -/
theorem u8_xor_sixteen (a0 b0 c0 d0 a1 b1 c1 d1 a2 b2 c2 d2 a3 b3 c3 d3 : UInt8) :
    (a0 ^^^ b0 ^^^ c0 ^^^ d0) ^^^ (a1 ^^^ b1 ^^^ c1 ^^^ d1) ^^^ (a2 ^^^ b2 ^^^ c2 ^^^ d2) ^^^ (a3 ^^^ b3 ^^^ c3 ^^^ d3) =
    (a0 ^^^ a1 ^^^ a2 ^^^ a3) ^^^ (b0 ^^^ b1 ^^^ b2 ^^^ b3) ^^^ (c0 ^^^ c1 ^^^ c2 ^^^ c3) ^^^ (d0 ^^^ d1 ^^^ d2 ^^^ d3) := by
  ac_rfl

/-- The product of the matrices, one entry at a time. -/
theorem mix_entries (x : UInt8) :
    (mul14 (xtime x) ^^^ mul11 x ^^^ mul13 x ^^^ mul9 (xtime x ^^^ x) = x) ∧
    (mul14 (xtime x ^^^ x) ^^^ mul11 (xtime x) ^^^ mul13 x ^^^ mul9 x = 0) ∧
    (mul14 x ^^^ mul11 (xtime x ^^^ x) ^^^ mul13 (xtime x) ^^^ mul9 x = 0) ∧
    (mul14 x ^^^ mul11 x ^^^ mul13 (xtime x ^^^ x) ^^^ mul9 (xtime x) = 0) ∧
    (mul9 (xtime x) ^^^ mul14 x ^^^ mul11 x ^^^ mul13 (xtime x ^^^ x) = 0) ∧
    (mul9 (xtime x ^^^ x) ^^^ mul14 (xtime x) ^^^ mul11 x ^^^ mul13 x = x) ∧
    (mul9 x ^^^ mul14 (xtime x ^^^ x) ^^^ mul11 (xtime x) ^^^ mul13 x = 0) ∧
    (mul9 x ^^^ mul14 x ^^^ mul11 (xtime x ^^^ x) ^^^ mul13 (xtime x) = 0) ∧
    (mul13 (xtime x) ^^^ mul9 x ^^^ mul14 x ^^^ mul11 (xtime x ^^^ x) = 0) ∧
    (mul13 (xtime x ^^^ x) ^^^ mul9 (xtime x) ^^^ mul14 x ^^^ mul11 x = 0) ∧
    (mul13 x ^^^ mul9 (xtime x ^^^ x) ^^^ mul14 (xtime x) ^^^ mul11 x = x) ∧
    (mul13 x ^^^ mul9 x ^^^ mul14 (xtime x ^^^ x) ^^^ mul11 (xtime x) = 0) ∧
    (mul11 (xtime x) ^^^ mul13 x ^^^ mul9 x ^^^ mul14 (xtime x ^^^ x) = 0) ∧
    (mul11 (xtime x ^^^ x) ^^^ mul13 (xtime x) ^^^ mul9 x ^^^ mul14 x = 0) ∧
    (mul11 x ^^^ mul13 (xtime x ^^^ x) ^^^ mul9 (xtime x) ^^^ mul14 x = 0) ∧
    (mul11 x ^^^ mul13 x ^^^ mul9 (xtime x ^^^ x) ^^^ mul14 (xtime x) = x) := by
  revert x
  apply UInt8.forall_of_fin
  decide +kernel

theorem mul14_xor (x y : UInt8) : mul14 (x ^^^ y) = mul14 x ^^^ mul14 y := by simp only [mul14, xtime_xor]; ac_rfl
theorem mul11_xor (x y : UInt8) : mul11 (x ^^^ y) = mul11 x ^^^ mul11 y := by simp only [mul11, xtime_xor]; ac_rfl
theorem mul13_xor (x y : UInt8) : mul13 (x ^^^ y) = mul13 x ^^^ mul13 y := by simp only [mul13, xtime_xor]; ac_rfl
theorem mul9_xor (x y : UInt8) : mul9 (x ^^^ y) = mul9 x ^^^ mul9 y := by simp only [mul9, xtime_xor]; ac_rfl

theorem additive_four {f : UInt8 → UInt8} (h : ∀ x y, f (x ^^^ y) = f x ^^^ f y) (a b c d : UInt8) :
    f (a ^^^ b ^^^ c ^^^ d) = f a ^^^ f b ^^^ f c ^^^ f d := by rw [h, h, h]

theorem aesInvMixColumns_mixColumns (s : Bytes) : aesInvMixColumns (aesMixColumns s) = s := by
  fun_induction aesMixColumns s with
  | case1 a b c d s ih =>
    obtain ⟨a1, -, -, -, a2, -, -, -, a3, -, -, -, a4, -, -, -⟩ := mix_entries a
    obtain ⟨-, b1, -, -, -, b2, -, -, -, b3, -, -, -, b4, -, -⟩ := mix_entries b
    obtain ⟨-, -, c1, -, -, -, c2, -, -, -, c3, -, -, -, c4, -⟩ := mix_entries c
    obtain ⟨-, -, -, d1, -, -, -, d2, -, -, -, d3, -, -, -, d4⟩ := mix_entries d
    simp only [aesInvMixColumns, ih, additive_four mul14_xor, additive_four mul11_xor, additive_four mul13_xor,
      additive_four mul9_xor]
    congr 1
    · rw [u8_xor_sixteen, a1, b1, c1, d1]; simp
    congr 1
    · rw [u8_xor_sixteen, a2, b2, c2, d2]; simp
    congr 1
    · rw [u8_xor_sixteen, a3, b3, c3, d3]; simp
    congr 1
    · rw [u8_xor_sixteen, a4, b4, c4, d4]; simp
  | case2 s h =>
    unfold aesInvMixColumns
    split
    · rename_i a b c d s'
      exact absurd rfl (h a b c d s')
    · rfl

theorem aesAddKey_length {s k : Bytes} (h : s.length = 16) (hk : k.length = 16) : (aesAddKey s k).length = 16 := by
  simp [aesAddKey, h, hk]

theorem aesAddKey_addKey {s k : Bytes} (h : s.length = 16) (hk : k.length = 16) : aesAddKey (aesAddKey s k) k = s := by
  unfold aesAddKey
  apply List.ext_getElem
  · simp [h, hk]
  · intro i h1 h2
    simp [UInt8.xor_assoc]

theorem aesRounds_length {ks : List Bytes} {s : Bytes} (hk : ∀ k ∈ ks, k.length = 16) (h : s.length = 16) :
    (aesRounds ks s).length = 16 := by
  fun_induction aesRounds ks s with
  | case1 s => exact h
  | case2 k s =>
    exact aesAddKey_length (by simp [aesShiftRows_length, h]) (hk k (by simp))
  | case3 k ks s _ ih =>
    apply ih (fun k' hk' => hk k' (by simp [hk']))
    exact aesAddKey_length (by simp [aesMixColumns_length, aesShiftRows_length, h]) (hk k (by simp))

theorem aesInvRounds_length {ks : List Bytes} {s : Bytes} (hk : ∀ k ∈ ks, k.length = 16) (h : s.length = 16) :
    (aesInvRounds ks s).length = 16 := by
  fun_induction aesInvRounds ks s with
  | case1 s => exact h
  | case2 k s =>
    rw [List.length_map, aesInvShiftRows_length, aesAddKey_length h (hk k (by simp))]
  | case3 k ks s _ ih =>
    rw [List.length_map, aesInvShiftRows_length, aesInvMixColumns_length,
      aesAddKey_length (ih (fun k' hk' => hk k' (by simp [hk'])) h) (hk k (by simp))]

theorem map_invSub_sub (s : Bytes) : (s.map aesSub).map aesInvSub = s := by
  rw [List.map_map]
  conv => rhs; rw [← List.map_id s]
  apply List.map_congr_left
  intro x _
  simp [aesInvSub_sub]

theorem aesInvRounds_rounds {ks : List Bytes} {s : Bytes} (hk : ∀ k ∈ ks, k.length = 16) (h : s.length = 16) :
    aesInvRounds ks (aesRounds ks s) = s := by
  fun_induction aesRounds ks s with
  | case1 s => rfl
  | case2 k s =>
    rw [aesInvRounds, aesAddKey_addKey (by simp [aesShiftRows_length, h]) (hk k (by simp)),
      aesInvShiftRows_shiftRows (by simp [h]), map_invSub_sub]
  | case3 k ks s hne ih =>
    have hm : (aesMixColumns (aesShiftRows (s.map aesSub))).length = 16 := by
      simp [aesMixColumns_length, aesShiftRows_length, h]
    have hl := aesAddKey_length hm (hk k (by simp))
    rw [aesInvRounds, ih (fun k' hk' => hk k' (by simp [hk'])) hl, aesAddKey_addKey hm (hk k (by simp)),
      aesInvMixColumns_mixColumns, aesInvShiftRows_shiftRows (by simp [h]), map_invSub_sub]
    exact hne

theorem aesExpand_words {nk : Nat} (n i : Nat) (rcon : UInt8) (w : List Bytes) (hnk : 0 < nk) (hw : nk ≤ w.length)
    (h : ∀ x ∈ w, x.length = 4) :
    (∀ x ∈ aesExpand nk n i rcon w, x.length = 4) ∧ (aesExpand nk n i rcon w).length = n + w.length := by
  induction n generalizing i rcon w with
  | zero => exact ⟨h, by simp [aesExpand]⟩
  | succ n ih =>
    have hb : (w.getD (nk - 1) []).length = 4 := by
      rw [List.getD_eq_getElem?_getD, List.getElem?_eq_getElem (show nk - 1 < w.length by omega)]
      exact h _ (List.getElem_mem _)
    have hp : (w.headD []).length = 4 := by
      match w, hw, h with
      | [], hw, _ => simp at hw; omega
      | x :: w, _, h => exact h x (by simp)
    unfold aesExpand
    simp only
    split
    · have := ih (i + 1) (xtime rcon)
        (aesAddKey (w.getD (nk - 1) []) ((((w.headD []).drop 1 ++ (w.headD []).take 1).map aesSub).modify 0 (· ^^^ rcon)) :: w)
        (by simp; omega) (by
          intro x hx
          rcases List.mem_cons.1 hx with rfl | hx
          · unfold aesAddKey
            rw [List.length_zipWith, List.length_modify, List.length_map, List.length_append, List.length_drop,
              List.length_take, hb, hp]
            rfl
          · exact h x hx)
      refine ⟨this.1, ?_⟩
      rw [this.2, List.length_cons]; omega
    · have := ih (i + 1) rcon
        (aesAddKey (w.getD (nk - 1) []) (if nk > 6 ∧ i % nk = 4 then (w.headD []).map aesSub else w.headD []) :: w)
        (by simp; omega) (by
          intro x hx
          rcases List.mem_cons.1 hx with rfl | hx
          · unfold aesAddKey
            rw [List.length_zipWith, hb]
            split
            · rw [List.length_map, hp]; rfl
            · rw [hp]; rfl
          · exact h x hx)
      refine ⟨this.1, ?_⟩
      rw [this.2, List.length_cons]; omega

theorem chunks_words {k n : Nat} {b : Bytes} (h : b.length = k * n) :
    (∀ x ∈ chunks k n b, x.length = k) ∧ (chunks k n b).length = n := by
  induction n generalizing b with
  | zero => simp [chunks]
  | succ n ih =>
    have hk : k ≤ b.length := by rw [h, Nat.mul_succ]; omega
    have := ih (b := b.drop k) (by rw [List.length_drop, h, Nat.mul_succ]; omega)
    simp only [chunks, List.mem_cons, forall_eq_or_imp, List.length_take, List.length_cons, this.2, and_true]
    exact ⟨by omega, this.1⟩

theorem length_flatten_words {l : List Bytes} {k : Nat} (h : ∀ x ∈ l, x.length = k) : l.flatten.length = k * l.length := by
  induction l with
  | nil => simp
  | cons a l ih =>
    rw [List.flatten_cons, List.length_append, h a (by simp), ih (fun x hx => h x (by simp [hx])), List.length_cons,
      Nat.mul_succ, Nat.add_comm]

theorem aesKeys_words {key : Bytes} (h : aesKeyOk key = true) : ∀ k ∈ aesKeys key, k.length = 16 := by
  have hl : key.length = 4 * (key.length / 4) ∧ 0 < key.length / 4 := by
    simp only [aesKeyOk, Bool.or_eq_true, beq_iff_eq] at h
    omega
  unfold aesKeys
  simp only
  generalize key.length / 4 = nk at hl
  have hc := chunks_words hl.1
  have he := aesExpand_words (4 * (nk + 7) - nk) nk 1 (chunks 4 nk key).reverse hl.2 (by rw [List.length_reverse, hc.2]; exact Nat.le_refl _)
    (fun x hx => hc.1 x (List.mem_reverse.1 hx))
  apply (chunks_words _).1
  rw [length_flatten_words (k := 4) (fun x hx => he.1 x (List.mem_reverse.1 hx)), List.length_reverse, he.2,
    List.length_reverse, hc.2]
  omega

theorem aesEncrypt_length {key b : Bytes} (hk : aesKeyOk key = true) (h : b.length = 16) :
    (aesEncrypt key b).length = 16 := by
  have hw := aesKeys_words hk
  unfold aesEncrypt
  split
  · exact h
  · rename_i k ks heq
    rw [heq] at hw
    exact aesRounds_length (fun x hx => hw x (by simp [hx])) (aesAddKey_length h (hw k (by simp)))

theorem aesDecrypt_length {key b : Bytes} (hk : aesKeyOk key = true) (h : b.length = 16) :
    (aesDecrypt key b).length = 16 := by
  have hw := aesKeys_words hk
  unfold aesDecrypt
  split
  · exact h
  · rename_i k ks heq
    rw [heq] at hw
    exact aesAddKey_length (aesInvRounds_length (fun x hx => hw x (by simp [hx])) h) (hw k (by simp))

theorem aesDecrypt_encrypt {key b : Bytes} (hk : aesKeyOk key = true) (h : b.length = 16) :
    aesDecrypt key (aesEncrypt key b) = b := by
  have hw := aesKeys_words hk
  unfold aesDecrypt aesEncrypt
  split
  · rfl
  · rename_i k ks heq
    rw [heq] at hw
    rw [aesInvRounds_rounds (fun x hx => hw x (by simp [hx])) (aesAddKey_length h (hw k (by simp))),
      aesAddKey_addKey h (hw k (by simp))]

end Verif
