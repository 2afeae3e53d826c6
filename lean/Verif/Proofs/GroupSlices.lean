import Verif.Model.GroupHeap

/-!
Slices that show lists, and group states whose message keys are in a slice.
-/

namespace Verif

theorem map_eraseIdx' {α β : Type} (f : α → β) : ∀ (l : List α) (i : Nat), (l.map f).eraseIdx i = (l.eraseIdx i).map f
  | [], _ => rfl
  | _ :: _, 0 => rfl
  | a :: l, i + 1 => by simp [map_eraseIdx' f l i]

theorem set_eraseIdx_same {α : Type} (x : α) : ∀ (l : List α) (i : Nat), (l.set i x).eraseIdx i = l.eraseIdx i
  | [], _ => rfl
  | _ :: _, 0 => rfl
  | a :: l, i + 1 => by simp [set_eraseIdx_same x l i]

namespace PtrSlice
variable {α : Type}

/-- The window lies in the array and shows these elements, none of them nil. -/
structure Shows (s : PtrSlice α) (l : List α) : Prop where
  fits : s.off + s.len ≤ s.array.length
  items : s.items = l.map some

theorem items_length {s : PtrSlice α} (h : s.off + s.len ≤ s.array.length) : s.items.length = s.len := by
  simp only [items, List.length_take, List.length_drop]
  omega

theorem Shows.live {s : PtrSlice α} {l : List α} (h : s.Shows l) : s.live = l := by
  unfold PtrSlice.live
  rw [h.items, List.filterMap_map]
  have : (id ∘ some : α → Option α) = some := rfl
  rw [this, List.filterMap_some]

theorem Shows.length {s : PtrSlice α} {l : List α} (h : s.Shows l) : s.len = l.length := by
  rw [← items_length h.fits, h.items, List.length_map]

theorem append_fits {grow : Nat → Nat} {s : PtrSlice α} {xs : List (Option α)} (h : s.off + s.len ≤ s.array.length) :
    (s.append grow xs).off + (s.append grow xs).len ≤ (s.append grow xs).array.length := by
  have hi := items_length h
  unfold append
  split
  · simp only [List.length_append, List.length_take, List.length_drop]
    omega
  · simp only [List.length_append, List.length_replicate, hi]
    omega

theorem append_items {grow : Nat → Nat} {s : PtrSlice α} {xs : List (Option α)} (h : s.off + s.len ≤ s.array.length) :
    (s.append grow xs).items = s.items ++ xs := by
  have hi := items_length h
  unfold append
  split
  · next hc =>
    simp only [items]
    have e1 : (s.array.take (s.off + s.len)).drop s.off = (s.array.drop s.off).take s.len := by
      rw [List.drop_take]
      congr 1
      omega
    rw [List.append_assoc, List.drop_append_of_le_length (by rw [List.length_take]; omega), e1, ← List.append_assoc]
    have e2 : s.len + xs.length = ((s.array.drop s.off).take s.len ++ xs).length := by
      rw [List.length_append, List.length_take, List.length_drop]
      omega
    rw [e2, List.take_left]
  · simp only [items, List.drop_zero]
    have e2 : s.len + xs.length = (((s.array.drop s.off).take s.len) ++ xs).length := by
      rw [List.length_append, List.length_take, List.length_drop]
      omega
    rw [e2, List.take_left]

theorem Shows.append {s : PtrSlice α} {l : List α} (h : s.Shows l) (grow : Nat → Nat) (x : α) : (s.append grow [some x]).Shows (l ++ [x]) :=
  ⟨append_fits h.fits, by rw [append_items h.fits, h.items, List.map_append]; rfl⟩

theorem setNil_items {s s' : PtrSlice α} {i : Nat} (h : s.setNil i = .ok s') : s'.items = s.items.set i none ∧ s'.off = s.off ∧ s'.len = s.len ∧ s'.array.length = s.array.length := by
  unfold setNil at h
  split at h
  · cases h
    refine ⟨?_, rfl, rfl, by simp⟩
    simp only [items]
    rw [List.drop_set, if_neg (by omega), List.take_set]
    congr 1
    omega
  · cases h

theorem setNil_ok {s : PtrSlice α} {i : Nat} (h : i < s.len) : ∃ s', s.setNil i = .ok s' := by
  unfold setNil
  rw [if_pos h]
  exact ⟨_, rfl⟩

theorem tail_ok {s : PtrSlice α} (h : 1 ≤ s.len) (hf : s.off + s.len ≤ s.array.length) :
    ∃ s', s.tail = .ok s' ∧ s'.items = s.items.drop 1 ∧ s'.off + s'.len ≤ s'.array.length := by
  refine ⟨_, by unfold tail; rw [if_pos h], ?_, ?_⟩
  · simp only [items, List.drop_take, List.drop_drop]
  · simp only
    omega

theorem cut_ok {grow : Nat → Nat} {s : PtrSlice α} {i : Nat} (h : i < s.len) (hf : s.off + s.len ≤ s.array.length) :
    ∃ s', s.cut grow i = .ok s' ∧ s'.items = s.items.eraseIdx i ∧ s'.off + s'.len ≤ s'.array.length := by
  refine ⟨_, by unfold cut; rw [if_pos (by omega)], ?_, append_fits (by simp only; omega)⟩
  rw [append_items (by simp only; omega), List.eraseIdx_eq_take_drop_succ]
  congr 1
  simp only [items, List.take_take]
  rw [Nat.min_eq_left (by omega)]

/-- `s[0] = nil; s = s[1:]`. -/
theorem Shows.dropFirst {s : PtrSlice α} {l : List α} (h : s.Shows l) (h1 : 1 ≤ s.len) : ∃ s', (s.setNil 0 >>= PtrSlice.tail) = .ok s' ∧ s'.Shows (l.drop 1) := by
  obtain ⟨s1, e1⟩ := setNil_ok (s := s) (i := 0) h1
  obtain ⟨f1, f2, f3, f4⟩ := setNil_items e1
  have hfit := h.fits
  obtain ⟨s2, e2, e3, e4⟩ := tail_ok (s := s1) (by omega) (by omega)
  refine ⟨s2, ?_, e4, ?_⟩
  · rw [e1]
    exact e2
  · rw [e3, f1, List.map_drop, ← h.items]
    cases s.items <;> rfl

/-- `s = append(s[:i], s[i+1:]...)`. -/
theorem Shows.cut {s : PtrSlice α} {l : List α} (h : s.Shows l) (grow : Nat → Nat) {i : Nat} (hi : i < l.length) : ∃ s', s.cut grow i = .ok s' ∧ s'.Shows (l.eraseIdx i) := by
  obtain ⟨s', e1, e2, e3⟩ := cut_ok (grow := grow) (s := s) (i := i) (by rw [h.length]; exact hi) h.fits
  exact ⟨s', e1, e3, by rw [e2, h.items, map_eraseIdx']⟩

/-- `s[i] = nil; s = append(s[:i], s[i+1:]...)`. -/
theorem Shows.nilCut {s : PtrSlice α} {l : List α} (h : s.Shows l) (grow : Nat → Nat) {i : Nat} (hi : i < l.length) :
    ∃ s1 s2, s.setNil i = .ok s1 ∧ s1.cut grow i = .ok s2 ∧ s2.Shows (l.eraseIdx i) := by
  obtain ⟨s1, e1⟩ := setNil_ok (s := s) (i := i) (by rw [h.length]; exact hi)
  obtain ⟨f1, f2, f3, f4⟩ := setNil_items e1
  have hl := h.length
  have hfit := h.fits
  obtain ⟨s2, e2, e3, e4⟩ := cut_ok (grow := grow) (s := s1) (i := i) (by omega) (by omega)
  refine ⟨s1, s2, e1, e2, e4, ?_⟩
  rw [e3, f1, set_eraseIdx_same, h.items, map_eraseIdx']

theorem Shows.nil (a : List (Option α)) : (⟨a, 0, 0⟩ : PtrSlice α).Shows [] := ⟨by simp, by simp [PtrSlice.items]⟩

theorem Shows.fresh (l : List α) : (⟨l.map some, 0, l.length⟩ : PtrSlice α).Shows l :=
  ⟨by simp, by simp only [PtrSlice.items, List.drop_zero]; rw [List.take_of_length_le (by simp)]⟩

end PtrSlice

/-! ## States -/

/-- The state's slice of message keys shows the keys of its value. -/
def GCell.Ok (c : GCell) : Prop := c.keys.Shows c.value.messageKeys

theorem GCell.Ok.of {c : GCell} {l : List SKChainKey} (h : c.keys.Shows l) : c.Ok ∧ c.value = { c.value with messageKeys := l } := by
  have hl := h.live
  refine ⟨?_, ?_⟩
  · unfold GCell.Ok
    show c.keys.Shows c.keys.live
    rw [hl]
    exact h
  · show c.value = { c.value with messageKeys := l }
    rw [← hl]
    rfl

theorem newGCell_ok (v : UInt8) (cid it : UInt32) (ck : Bytes) (k : PubKey) (p : Option PrivKey) :
    (newGCell v cid it ck k p).Ok ∧ (newGCell v cid it ck k p).value = newGroupState v cid it ck k p :=
  ⟨PtrSlice.Shows.nil [], rfl⟩

theorem GCell.addMessageKey_ok {grow : Nat → Nat} {c : GCell} (h : c.Ok) (k : SKMessageKey) :
    ∃ c', c.addMessageKey grow k = .ok c' ∧ c'.Ok ∧ c'.value = c.value.addMessageKey k := by
  have h1 := PtrSlice.Shows.append h grow { seed := k.seed, iteration := k.iteration }
  unfold GCell.addMessageKey
  simp only
  split
  · next hc =>
    obtain ⟨s', e1, e2⟩ := h1.dropFirst (by omega)
    refine ⟨{ c with keys := s' }, ?_, ?_⟩
    · rw [Res.bind_eq_ok] at e1
      obtain ⟨s1, f1, f2⟩ := e1
      rw [f1]
      show (s1.tail >>= fun keys => pure { c with keys := keys }) = _
      rw [f2]
      rfl
    · obtain ⟨g1, g2⟩ := GCell.Ok.of (c := { c with keys := s' }) e2
      refine ⟨g1, g2.trans ?_⟩
      have hl := h1.length
      unfold GState.addMessageKey
      simp only
      rw [if_pos (by rw [← hl]; exact hc)]
      rfl
  · next hc =>
    refine ⟨_, rfl, ?_⟩
    obtain ⟨g1, g2⟩ := GCell.Ok.of (c := { c with keys := _ }) h1
    refine ⟨g1, g2.trans ?_⟩
    have hl := h1.length
    unfold GState.addMessageKey
    simp only
    rw [if_neg (by rw [← hl]; exact hc)]
    rfl

theorem findIdx?_find? {α : Type} (p : α → Bool) (l : List α) :
    match l.findIdx? p with
    | none => l.find? p = none
    | some i => i < l.length ∧ l[i]? = l.find? p ∧ l.find? p ≠ none ∧ l.eraseIdx i = l.eraseP p := by
  induction l with
  | nil => simp
  | cons a l ih =>
    rw [List.findIdx?_cons]
    cases hp : p a with
    | true => simp [hp]
    | false =>
      simp only [Bool.false_eq_true, if_false]
      cases hi : l.findIdx? p with
      | none =>
        rw [hi] at ih
        simp [hp]
        simpa using ih
      | some i =>
        rw [hi] at ih
        obtain ⟨h1, h2, h3, h4⟩ := ih
        simp only [Option.map_some]
        refine ⟨by simp; omega, ?_, ?_, ?_⟩
        · rw [List.getElem?_cons_succ, h2, List.find?_cons_of_neg (by simp [hp])]
        · rw [List.find?_cons_of_neg (by simp [hp])]
          exact h3
        · rw [List.eraseIdx_cons_succ, List.eraseP_cons_of_neg (by simp [hp]), h4]

theorem GCell.removeMessageKeys_ok (C : Crypto) {grow : Nat → Nat} {c : GCell} (h : c.Ok) (iteration : UInt32) :
    match c.value.removeMessageKeys C iteration with
    | none => c.removeMessageKeys C grow iteration = .ok none
    | some (k, s) => ∃ c', c.removeMessageKeys C grow iteration = .ok (some (k, c')) ∧ c'.Ok ∧ c'.value = s := by
  have hfi : c.keys.items.findIdx? (fun k => GCell.iterationOf k = iteration) = c.value.messageKeys.findIdx? (fun k => k.iteration = iteration) := by
    rw [h.items, List.findIdx?_map]
    rfl
  have hspec := findIdx?_find? (fun k : SKChainKey => decide (k.iteration = iteration)) c.value.messageKeys
  unfold GState.removeMessageKeys
  cases hi : c.value.messageKeys.findIdx? (fun k => k.iteration = iteration) with
  | none =>
    rw [hi] at hspec
    rw [hspec]
    simp only
    unfold GCell.removeMessageKeys
    rw [hfi, hi]
  | some i =>
    rw [hi] at hspec
    obtain ⟨h1, h2, h3, h4⟩ := hspec
    cases hk : c.value.messageKeys.find? (fun k => k.iteration = iteration) with
    | none => exact absurd hk h3
    | some k =>
      simp only
      obtain ⟨s1, s2, e1, e2, e3⟩ := PtrSlice.Shows.nilCut h grow h1
      refine ⟨{ c with keys := s2 }, ?_, ?_⟩
      · unfold GCell.removeMessageKeys
        rw [hfi, hi]
        simp only
        rw [e1]
        show (s1.cut grow i >>= _) = _
        rw [e2, h.items, List.getElem?_map, h2, hk]
        rfl
      · rw [h4] at e3
        obtain ⟨g1, g2⟩ := GCell.Ok.of (c := { c with keys := s2 }) e3
        exact ⟨g1, g2.trans rfl⟩

theorem GCell.skipLoop_ok (C : Crypto) (grow : Nat → Nat) (iteration : UInt32) : ∀ (fuel : Nat) (ck : SKChainKey) {c : GCell}, c.Ok →
    ∃ c', GCell.skipLoop C grow iteration fuel ck c = .ok ((groupSkipLoop C iteration fuel ck c.value).1, c') ∧ c'.Ok ∧
      c'.value = (groupSkipLoop C iteration fuel ck c.value).2 := by
  intro fuel
  induction fuel with
  | zero => exact fun ck c h => ⟨c, rfl, h, rfl⟩
  | succ n ih =>
    intro ck c h
    unfold GCell.skipLoop groupSkipLoop
    split
    · obtain ⟨c1, e1, e2, e3⟩ := GCell.addMessageKey_ok (grow := grow) h (ck.messageKey C)
      obtain ⟨c2, f1, f2, f3⟩ := ih (ck.next C) e2
      rw [e3] at f1 f3
      refine ⟨c2, ?_, f2, f3⟩
      rw [e1]
      exact f1
    · exact ⟨c, rfl, h, rfl⟩

/-- `messageKey` on a state in memory does what it does on its value. -/
theorem GCell.messageKey_ok (C : Crypto) (grow : Nat → Nat) {c : GCell} (h : c.Ok) (iteration : UInt32) :
    match groupMessageKey C c.value iteration with
    | .ok (k, s) => ∃ c', c.messageKey C grow iteration = .ok (k, c') ∧ c'.Ok ∧ c'.value = s
    | .err e => c.messageKey C grow iteration = .err e
    | .panic => False := by
  unfold groupMessageKey GCell.messageKey
  have hck : c.value.chainKey = c.chainKey := rfl
  simp only [hck]
  split
  · next s1 k s heq =>
    split at heq
    · next hc =>
      rw [if_pos hc]
      have := GCell.removeMessageKeys_ok C (grow := grow) h iteration
      cases hr : c.value.removeMessageKeys C iteration with
      | none => rw [hr] at heq; cases heq
      | some out =>
        rw [hr] at heq this
        cases heq
        obtain ⟨c', e1, e2, e3⟩ := this
        refine ⟨c', ?_, e2, e3⟩
        rw [e1]
        rfl
    · next hc =>
      rw [if_neg hc]
      split at heq
      · cases heq
      · next hj =>
        rw [if_neg hj]
        obtain ⟨c1, e1, e2, e3⟩ := GCell.skipLoop_ok C grow iteration (iteration.toNat - c.chainKey.iteration.toNat) c.chainKey h
        rcases hg : groupSkipLoop C iteration (iteration.toNat - c.chainKey.iteration.toNat) c.chainKey c.value with ⟨ck, s'⟩
        rw [hg] at heq e1 e3
        cases heq
        refine ⟨c1.setSenderChainKey (ck.next C), ?_, ?_, ?_⟩
        · rw [e1]
          rfl
        · exact e2
        · rw [← e3]
          rfl
  · next s1 e heq =>
    split at heq
    · next hc =>
      rw [if_pos hc]
      have := GCell.removeMessageKeys_ok C (grow := grow) h iteration
      cases hr : c.value.removeMessageKeys C iteration with
      | none =>
        rw [hr] at heq this
        cases heq
        simp only at this
        rw [this]
        rfl
      | some out => rw [hr] at heq; cases heq
    · next hc =>
      rw [if_neg hc]
      split at heq
      · next hj => cases heq; rw [if_pos hj]
      · cases heq
  · next heq =>
    split at heq
    · cases hr : c.value.removeMessageKeys C iteration with
      | none => rw [hr] at heq; cases heq
      | some out => rw [hr] at heq; cases heq
    · split at heq
      · cases heq
      · cases heq

end Verif
