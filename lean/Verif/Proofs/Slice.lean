import Verif.Model.Slice

/-! Helper lemmas about `append` and padding on slices. -/

namespace Verif

theorem overwrite_length (a : Bytes) (i : Nat) (bs : Bytes) (h : i + bs.length ≤ a.length) :
    (overwrite a i bs).length = a.length := by
  simp [overwrite]; omega

theorem overwrite_getElem? (a : Bytes) (i : Nat) (bs : Bytes) (h : i + bs.length ≤ a.length) (j : Nat)
    (hj : j < i ∨ i + bs.length ≤ j) : (overwrite a i bs)[j]? = a[j]? := by
  unfold overwrite
  rcases hj with hj | hj
  · rw [List.append_assoc, List.getElem?_append_left (by simp; omega), List.getElem?_take, if_pos hj]
  · rw [List.getElem?_append_right (by simp; omega), List.getElem?_drop]
    congr 1
    simp; omega

theorem overwrite_window (a : Bytes) (off len : Nat) (bs : Bytes) (h : off + len + bs.length ≤ a.length) :
    ((overwrite a (off + len) bs).drop off).take (len + bs.length) = (a.drop off).take len ++ bs := by
  unfold overwrite
  have e : a.take (off + len) = a.take off ++ (a.drop off).take len := by rw [List.take_add]
  rw [e]
  simp only [List.append_assoc]
  have h1 : off = (a.take off).length := by simp; omega
  rw [List.drop_left' h1.symm]
  have h2 : ((a.drop off).take len).length = len := by simp; omega
  rw [← List.append_assoc, List.take_left' (by simp; omega)]

theorem array_modify_self (h : Heap) (i : Nat) (f : Bytes → Bytes) (hi : i < h.length) :
    Heap.array (h.modify i f) i = f (h.array i) := by
  simp [Heap.array, List.getElem?_modify, List.getElem?_eq_getElem hi]

theorem array_modify_ne (h : Heap) (i j : Nat) (f : Bytes → Bytes) (hi : i ≠ j) :
    Heap.array (h.modify i f) j = h.array j := by
  simp only [Heap.array, List.getElem?_modify, hi, if_false]
  simp

theorem array_append (h t : Heap) (i : Nat) (hi : i < h.length) : Heap.array (h ++ t) i = h.array i := by
  simp [Heap.array, List.getElem?_append_left hi]

theorem goAppend_read (h : Heap) (s : Slice) (bs : Bytes) (hv : h.Valid s) :
    (goAppend h s bs).2.read (goAppend h s bs).1 = h.read s ++ bs := by
  obtain ⟨h1, h2, h3⟩ := hv
  unfold goAppend
  split
  · simp only [Heap.read]
    rw [array_modify_self _ _ _ h1]
    exact overwrite_window _ _ _ _ (by omega)
  · have hl : (h.read s).length = s.len := by simp [Heap.read]; omega
    simp only [Heap.read] at hl ⊢
    simp [Heap.array, hl]
    rw [List.take_of_length_le]
    simpa [Heap.array] using Nat.le_of_eq hl

theorem goAppend_len (h : Heap) (s : Slice) (bs : Bytes) : (goAppend h s bs).1.len = s.len + bs.length := by
  unfold goAppend; split <;> rfl

theorem goAppend_heap_length (h : Heap) (s : Slice) (bs : Bytes) : h.length ≤ (goAppend h s bs).2.length := by
  unfold goAppend; split <;> simp

theorem goAppend_array (h : Heap) (s : Slice) (bs : Bytes) (i : Nat) (hi : i < h.length) :
    (goAppend h s bs).2.array i =
      if i = s.arr ∧ s.len + bs.length ≤ s.cap then overwrite (h.array i) (s.off + s.len) bs else h.array i := by
  unfold goAppend
  by_cases hc : s.len + bs.length ≤ s.cap
  · by_cases ha : i = s.arr
    · subst ha; simp [hc, array_modify_self _ _ _ hi]
    · simp [hc, ha, array_modify_ne _ _ _ _ (Ne.symm ha)]
  · simp [hc, array_append _ _ _ hi]

end Verif
