import Verif.Proofs.GroupSlices

/-!
Slices with what lies in their array before and after the window, and the loops over the states of a record.
-/

namespace Verif

namespace PtrSlice
variable {α : Type}

/-- The array has `pre`, then the window with `l`, then `post`. -/
structure Lays (s : PtrSlice α) (pre : List (Option α)) (l : List α) (post : List (Option α)) : Prop where
  array : s.array = pre ++ (l.map some ++ post)
  off : s.off = pre.length
  len : s.len = l.length

theorem Lays.items {s : PtrSlice α} {pre post : List (Option α)} {l : List α} (h : s.Lays pre l post) : s.items = l.map some := by
  unfold PtrSlice.items
  rw [h.array, h.off, h.len, List.drop_left]
  have : l.length = (l.map some).length := by simp
  rw [this, List.take_left]

theorem Lays.shows {s : PtrSlice α} {pre post : List (Option α)} {l : List α} (h : s.Lays pre l post) : s.Shows l :=
  ⟨by rw [h.array, h.off, h.len]; simp, h.items⟩

theorem Shows.lays {s : PtrSlice α} {l : List α} (h : s.Shows l) : s.Lays (s.array.take s.off) l (s.array.drop (s.off + s.len)) := by
  have hf := h.fits
  refine ⟨?_, by rw [List.length_take]; omega, h.length⟩
  rw [← h.items]
  unfold PtrSlice.items
  rw [← List.drop_drop, List.take_append_drop, List.take_append_drop]

theorem Lays.append_new {s : PtrSlice α} {pre : List (Option α)} {l : List α} (h : s.Lays pre l []) (grow : Nat → Nat) (x : α) :
    (s.append grow [some x]).Lays [] (l ++ [x]) (List.replicate (grow (l.length + 1)) none) := by
  have hle : s.array.length = pre.length + l.length := by rw [h.array]; simp
  unfold PtrSlice.append
  rw [if_neg (by rw [hle, h.off, h.len]; simp)]
  refine ⟨?_, rfl, by simp [h.len]⟩
  simp [h.items, h.len]

theorem Lays.append_in {s : PtrSlice α} {pre post' : List (Option α)} {y : Option α} {l : List α} (h : s.Lays pre l (y :: post')) (grow : Nat → Nat) (x : α) :
    (s.append grow [some x]).Lays pre (l ++ [x]) post' := by
  have hle : s.array.length = pre.length + (l.length + (post'.length + 1)) := by rw [h.array]; simp
  unfold PtrSlice.append
  rw [if_pos (by rw [hle, h.off, h.len]; simp only [List.length_singleton]; omega)]
  refine ⟨?_, h.off, by simp [h.len]⟩
  simp only
  have e1 : s.off + s.len = (pre ++ l.map some).length := by rw [h.off, h.len]; simp
  have e2 : s.array = (pre ++ l.map some) ++ y :: post' := by rw [h.array]; simp
  have e3 : s.off + s.len + ([some x] : List (Option α)).length = (pre ++ l.map some ++ [y]).length := by rw [h.off, h.len]; simp; omega
  have e4 : s.array = (pre ++ l.map some ++ [y]) ++ post' := by rw [h.array]; simp
  have e5 : s.array.take (s.off + s.len) = pre ++ l.map some := by rw [e1, e2, List.take_left]
  have e6 : s.array.drop (s.off + s.len + ([some x] : List (Option α)).length) = post' := by rw [e3, e4, List.drop_left]
  rw [e5, e6]
  simp

/-- `s[0] = nil; s = s[1:]`. -/
theorem Lays.dropFirst {s : PtrSlice α} {pre post : List (Option α)} {x : α} {l : List α} (h : s.Lays pre (x :: l) post) :
    ∃ s', (s.setNil 0 >>= PtrSlice.tail) = .ok s' ∧ s'.Lays (pre ++ [none]) l post := by
  refine ⟨⟨s.array.set (s.off + 0) none, s.off + 1, s.len - 1⟩, ?_, ?_, ?_, ?_⟩
  · unfold PtrSlice.setNil
    rw [if_pos (by rw [h.len]; simp)]
    show PtrSlice.tail _ = _
    unfold PtrSlice.tail
    rw [if_pos (by simp only; rw [h.len]; simp)]
  · simp only
    rw [h.array, h.off, Nat.add_zero, List.set_append_right _ _ (Nat.le_refl _)]
    simp
  · simp [h.off]
  · simp [h.len]

/-- `s = append(s[:i], s[i+1:]...)`, when `s[i]` may have been set to nil before. -/
theorem cut_lays {s : PtrSlice α} {pre post : List (Option α)} {a b : List α} (x : Option α) (grow : Nat → Nat)
    (h1 : s.array = pre ++ (a.map some ++ x :: (b.map some ++ post))) (h2 : s.off = pre.length) (h3 : s.len = a.length + (b.length + 1)) :
    ∃ s', s.cut grow a.length = .ok s' ∧ s'.Lays pre (a ++ b) ((match b.getLast? with | none => x | some y => some y) :: post) := by
  have hit : s.items.drop (a.length + 1) = b.map some := by
    unfold PtrSlice.items
    rw [h1, h2, h3, List.drop_left]
    have e : (a.map some ++ x :: (b.map some ++ post)) = (a.map some ++ x :: b.map some) ++ post := by simp
    have e2 : a.length + (b.length + 1) = (a.map some ++ x :: b.map some).length := by simp
    rw [e, e2, List.take_left]
    have e3 : (a.map some ++ x :: b.map some) = (a.map some ++ [x]) ++ b.map some := by simp
    have e4 : a.length + 1 = (a.map some ++ [x]).length := by simp
    rw [e3, e4, List.drop_left]
  refine ⟨_, by unfold PtrSlice.cut; rw [if_pos (by omega)], ?_⟩
  rw [hit]
  unfold PtrSlice.append
  rw [if_pos (by simp only; rw [h1, h2]; simp; omega)]
  refine ⟨?_, h2, by simp⟩
  simp only
  have e1 : s.array.take (s.off + a.length) = pre ++ a.map some := by
    have : s.off + a.length = (pre ++ a.map some).length := by rw [h2]; simp
    rw [this, h1, ← List.append_assoc, List.take_left]
  have e2 : s.array.drop (s.off + a.length + (b.map some).length) = (match b.getLast? with | none => x | some y => some y) :: post := by
    have hb : x :: b.map some = (x :: b.map some).dropLast ++ [match b.getLast? with | none => x | some y => some y] := by
      rcases List.eq_nil_or_concat b with hb | ⟨c, y, hb⟩
      · subst hb; rfl
      · rw [List.concat_eq_append] at hb
        subst hb
        rw [List.map_append, List.map_singleton, ← List.cons_append, List.dropLast_concat]
        simp
    have : s.off + a.length + (b.map some).length = (pre ++ (a.map some ++ (x :: b.map some).dropLast)).length := by rw [h2]; simp; omega
    rw [this, h1]
    have e : pre ++ (a.map some ++ x :: (b.map some ++ post)) = (pre ++ (a.map some ++ (x :: b.map some).dropLast)) ++ ([match b.getLast? with | none => x | some y => some y] ++ post) := by
      rw [← List.cons_append, hb]
      simp
    rw [e, List.drop_left]
    rfl
  rw [e1, e2]
  simp

theorem Lays.cut {s : PtrSlice α} {pre post : List (Option α)} {l : List α} (h : s.Lays pre l post) (grow : Nat → Nat) {i : Nat} (hi : i < l.length) :
    ∃ s' y, s.cut grow i = .ok s' ∧ s'.Lays pre (l.eraseIdx i) (y :: post) := by
  have hl : l = l.take i ++ l[i] :: l.drop (i + 1) := by
    rw [List.getElem_cons_drop, List.take_append_drop]
  have hti : (l.take i).length = i := by rw [List.length_take]; omega
  have h1 : s.array = pre ++ ((l.take i).map some ++ some l[i] :: ((l.drop (i + 1)).map some ++ post)) := by
    rw [h.array]
    congr 1
    rw [← List.cons_append, ← List.map_cons, ← List.append_assoc, ← List.map_append, ← hl]
  obtain ⟨s', e1, e2⟩ := cut_lays (some l[i]) grow h1 h.off (by rw [h.len, hti, List.length_drop]; omega)
  rw [hti] at e1
  rw [← List.eraseIdx_eq_take_drop_succ] at e2
  exact ⟨s', _, e1, e2⟩

end PtrSlice

/-! ## Loops over the states of a record -/

theorem gSearch_run (test : GCell → Bool) (h : GHWorld) : ∀ (ps : List Nat) (i : Nat),
    gSearch test i (ps.map some) h = (.ok ((ps.findIdx? fun p => test (h.states p)).bind fun j => ps[j]?.map fun p => (i + j, p)), h) := by
  intro ps
  induction ps with
  | nil => exact fun i => rfl
  | cons p ps ih =>
    intro i
    rw [List.map_cons, gSearch, M.bind_ok_run (show gReadState p h = (.ok (h.states p), h) from rfl), List.findIdx?_cons]
    cases ht : test (h.states p) with
    | true => simp
    | false =>
      simp only [Bool.false_eq_true, if_false]
      rw [ih]
      cases ps.findIdx? (fun p => test (h.states p)) with
      | none => rfl
      | some j => simp [Nat.add_assoc, Nat.add_comm 1 j]

/-- `StateForChainID` finds what the search on values finds. -/
theorem gSearch_found (test : GCell → Bool) (h : GHWorld) (ps : List Nat) (i : Nat) :
    (((ps.findIdx? fun p => test (h.states p)).bind fun j => ps[j]?.map fun p => (i + j, p)).map fun q : Nat × Nat => q.2) = ps.find? fun p => test (h.states p) := by
  have := findIdx?_find? (fun p => test (h.states p)) ps
  cases hf : ps.findIdx? (fun p => test (h.states p)) with
  | none => rw [hf] at this; exact this.symm
  | some j =>
    rw [hf] at this
    obtain ⟨h1, h2, h3, _⟩ := this
    rw [← h2]
    simp [h1]

theorem hgRemoveState_run (grow : Nat → Nat) {h : GHWorld} {r : Nat} {pre post : List (Option Nat)} {ps : List Nat} (hl : (h.records r).Lays pre ps post) (cid : UInt32) (key : PubKey) :
    ∃ s' gap, hgRemoveState grow r cid key h = (.ok (ps.find? fun p => gIsState cid key (h.states p)), { h with records := upd h.records r s' }) ∧
      s'.Lays pre (ps.eraseP fun p => gIsState cid key (h.states p)) (gap ++ post) ∧
      gap.length + (ps.eraseP fun p => gIsState cid key (h.states p)).length = ps.length := by
  unfold hgRemoveState
  rw [M.bind_ok_run (show gReadRecord r h = (.ok (h.records r), h) from rfl), hl.items, M.bind_ok_run (gSearch_run _ h ps 0)]
  have hspec := findIdx?_find? (fun p => gIsState cid key (h.states p)) ps
  cases hf : ps.findIdx? (fun p => gIsState cid key (h.states p)) with
  | none =>
    rw [hf] at hspec
    simp only at hspec
    refine ⟨h.records r, [], ?_, ?_, ?_⟩
    · rw [hspec]
      simp only [Option.bind_none]
      rw [show upd h.records r (h.records r) = h.records from by funext x; unfold upd; split <;> simp_all]
      rfl
    · rw [List.eraseP_of_forall_not (by simpa using hspec)]
      exact hl
    · rw [List.eraseP_of_forall_not (by simpa using hspec)]
      simp
  | some j =>
    rw [hf] at hspec
    obtain ⟨h1, h2, h3, h4⟩ := hspec
    obtain ⟨s', y, e1, e2⟩ := hl.cut grow h1
    refine ⟨s', [y], ?_, ?_, ?_⟩
    · rw [← h2]
      simp only [Option.bind_some, List.getElem?_eq_getElem h1, Option.map_some, Nat.zero_add]
      rw [M.bind_ok_run (show (M.lift (PtrSlice.cut grow (h.records r) j) : M GHWorld _) h = (.ok s', h) from by rw [M.lift_run, e1])]
      rfl
    · rw [← h4]
      exact e2
    · rw [← h4, List.length_eraseIdx_of_lt h1]
      simp only [List.length_singleton]
      omega

theorem gFilterLoop_run (grow : Nat → Nat) (cid : UInt32) (h : GHWorld) (pre post : List (Option Nat)) : ∀ (rem kept : List Nat) (gap : List (Option Nat)) (f : PtrSlice Nat),
    f.Lays pre kept (gap ++ (rem.map some ++ post)) →
    ∃ f' gap', gFilterLoop grow cid rem.length (kept.length + gap.length) f h = (.ok f', h) ∧
      f'.Lays pre (kept ++ rem.filter fun p => (h.states p).chainId ≠ cid) (gap' ++ post) ∧
      gap'.length + (rem.filter fun p => (h.states p).chainId ≠ cid).length = gap.length + rem.length := by
  intro rem
  induction rem with
  | nil =>
    intro kept gap f hf
    exact ⟨f, gap, rfl, by simpa using hf, rfl⟩
  | cons p rem ih =>
    intro kept gap f hf
    have hget : f.array[f.off + (kept.length + gap.length)]?.join = some p := by
      rw [hf.array, hf.off, List.getElem?_append_right (by omega), Nat.add_sub_cancel_left, List.getElem?_append_right (by simp),
        List.length_map, Nat.add_sub_cancel_left, List.getElem?_append_right (by simp)]
      simp
    rw [List.length_cons, gFilterLoop, hget]
    simp only
    rw [M.bind_ok_run (show gReadState p h = (.ok (h.states p), h) from rfl)]
    by_cases hc : (h.states p).chainId = cid
    · rw [if_pos hc]
      obtain ⟨f', gap', e1, e2, e3⟩ := ih kept (gap ++ [some p]) f (by simpa using hf)
      refine ⟨f', gap', ?_, ?_, ?_⟩
      · rw [← e1, List.length_append]
        rfl
      · rw [List.filter_cons_of_neg (by simp [hc])]
        exact e2
      · rw [List.filter_cons_of_neg (by simp [hc]), e3]
        simp
        omega
    · rw [if_neg hc]
      cases gap with
      | nil =>
        have happ := PtrSlice.Lays.append_in (post' := rem.map some ++ post) (y := some p) (by simpa using hf) grow p
        obtain ⟨f', gap', e1, e2, e3⟩ := ih (kept ++ [p]) [] _ (by simpa using happ)
        refine ⟨f', gap', ?_, ?_, ?_⟩
        · rw [← e1]
          simp
        · rw [List.filter_cons_of_pos (by simp [hc])]
          simpa using e2
        · rw [List.filter_cons_of_pos (by simp [hc])]
          simp only [List.length_cons, List.length_nil] at e3 ⊢
          omega
      | cons g gap =>
        have happ := PtrSlice.Lays.append_in (post' := gap ++ ((p :: rem).map some ++ post)) (y := g) (by simpa using hf) grow p
        obtain ⟨f', gap', e1, e2, e3⟩ := ih (kept ++ [p]) (gap ++ [some p]) _ (by simpa using happ)
        refine ⟨f', gap', ?_, ?_, ?_⟩
        · have hn : (kept ++ [p]).length + (gap ++ [some p]).length = kept.length + (g :: gap).length + 1 := by simp; omega
          rw [← e1, hn]
        · rw [List.filter_cons_of_pos (by simp [hc])]
          simpa using e2
        · rw [List.filter_cons_of_pos (by simp [hc])]
          simp only [List.length_cons] at e3 ⊢
          rw [List.length_append, List.length_singleton] at e3
          omega

theorem hgRemoveStates_run (grow : Nat → Nat) {h : GHWorld} {r : Nat} {pre post : List (Option Nat)} {ps : List Nat} (hl : (h.records r).Lays pre ps post) (cid : UInt32) :
    ∃ s' gap, hgRemoveStates grow r cid h = (.ok (), { h with records := upd h.records r s' }) ∧
      s'.Lays pre (ps.filter fun p => (h.states p).chainId ≠ cid) (gap ++ post) ∧ gap.length + (ps.filter fun p => (h.states p).chainId ≠ cid).length = ps.length := by
  obtain ⟨f', gap, e1, e2, e3⟩ := gFilterLoop_run grow cid h pre post ps [] [] { h.records r with len := 0 } ⟨by simpa using hl.array, hl.off, rfl⟩
  refine ⟨f', gap, ?_, by simpa using e2, by simpa using e3⟩
  unfold hgRemoveStates
  rw [M.bind_ok_run (show gReadRecord r h = (.ok (h.records r), h) from rfl), hl.len]
  simp only [List.length_nil, Nat.add_zero] at e1
  rw [M.bind_ok_run e1]
  rfl

/-- The pointers of a record after `AddState`. -/
def addPtr (h : GHWorld) (ps : List Nat) (p : Nat) (key : PubKey) : List Nat :=
  let cid := (h.states p).chainId
  let l := (ps.eraseP fun q => gIsState cid key (h.states q)).filter fun q => (h.states q).chainId ≠ cid
  (if l.length ≥ maxSenderKeyStates then l.drop 1 else l) ++ [(ps.find? fun q => gIsState cid key (h.states q)).getD p]

def AllNil {α : Type} (l : List (Option α)) : Prop := ∀ x ∈ l, x = none

/-- `AddState` on a record. What was not in use in the array stays unused, when no more than one state is taken out. -/
theorem hgAddState_run (grow : Nat → Nat) {h : GHWorld} {r p : Nat} {pre post : List (Option Nat)} {ps : List Nat} (hl : (h.records r).Lays pre ps post) {key : PubKey}
    (hk : (h.states p).publicSigningKey = .ok key) :
    ∃ s' pre' post', hgAddState grow r p h = (.ok (), { h with records := upd h.records r s' }) ∧ s'.Lays pre' (addPtr h ps p key) post' ∧
      (AllNil pre → AllNil post → ps.length ≤ ((ps.eraseP fun q => gIsState (h.states p).chainId key (h.states q)).filter fun q => (h.states q).chainId ≠ (h.states p).chainId).length + 1 →
        AllNil pre' ∧ AllNil post') := by
  unfold hgAddState
  rw [M.bind_ok_run (show gReadState p h = (.ok (h.states p), h) from rfl),
    M.bind_ok_run (show (M.lift (h.states p).publicSigningKey : M GHWorld _) h = (.ok key, h) from by rw [M.lift_run, hk])]
  obtain ⟨s1, gap1, e1, e2, e3⟩ := hgRemoveState_run grow hl (h.states p).chainId key
  rw [M.bind_ok_run e1]
  have hl1 : (({ h with records := upd h.records r s1 } : GHWorld).records r).Lays pre (ps.eraseP fun q => gIsState (h.states p).chainId key (h.states q)) (gap1 ++ post) := by
    simpa using e2
  obtain ⟨s2, gap2, f1, f2, f3⟩ := hgRemoveStates_run grow hl1 (h.states p).chainId
  rw [M.bind_ok_run f1]
  simp only at f2 f3 ⊢
  rw [show upd (upd h.records r s1) r s2 = upd h.records r s2 from by funext x; unfold upd; split <;> rfl]
  rw [M.bind_ok_run (show gReadRecord r { h with records := upd h.records r s2 } = (.ok s2, { h with records := upd h.records r s2 }) from by simp [gReadRecord])]
  unfold addPtr
  simp only
  generalize hlst : ((ps.eraseP fun q => gIsState (h.states p).chainId key (h.states q)).filter fun q => decide ((h.states q).chainId ≠ (h.states p).chainId)) = l at *
  have hgap : gap1.length + gap2.length + l.length = ps.length := by omega
  -- make room
  have hroom : ∃ s3 pre3, (if s2.len ≥ maxSenderKeyStates then s2.setNil 0 >>= PtrSlice.tail else .ok s2) = .ok s3 ∧
      s3.Lays pre3 (if l.length ≥ maxSenderKeyStates then l.drop 1 else l) (gap2 ++ (gap1 ++ post)) ∧ (AllNil pre → AllNil pre3) := by
    rw [f2.len]
    by_cases hc : l.length ≥ maxSenderKeyStates
    · rw [if_pos hc, if_pos hc]
      cases l with
      | nil => simp [maxSenderKeyStates] at hc
      | cons x l =>
        obtain ⟨s3, g1, g2⟩ := f2.dropFirst
        exact ⟨s3, _, g1, g2, fun hn x hx => by
          rw [List.mem_append] at hx
          rcases hx with hx | hx
          · exact hn x hx
          · simpa using hx⟩
    · rw [if_neg hc, if_neg hc]
      exact ⟨s2, pre, rfl, f2, id⟩
  obtain ⟨s3, pre3, g1, g2, g3⟩ := hroom
  rw [g1, M.bind_ok_run (show (M.lift (Res.ok s3) : M GHWorld _) { h with records := upd h.records r s2 } = (.ok s3, _) from rfl)]
  have hrun : ∀ s4, gWriteRecord r s4 { h with records := upd h.records r s2 } = (.ok (), { h with records := upd h.records r s4 }) := fun s4 => by
    simp only [gWriteRecord]
    rw [show upd (upd h.records r s2) r s4 = upd h.records r s4 from by funext x; unfold upd; split <;> rfl]
  rw [hrun]
  cases hp : gap2 ++ (gap1 ++ post) with
  | nil =>
    rw [hp] at g2
    exact ⟨_, _, _, rfl, g2.append_new grow _, fun _ _ _ => ⟨by simp [AllNil], by intro x hx; exact (List.mem_replicate.mp hx).2⟩⟩
  | cons y post' =>
    rw [hp] at g2
    refine ⟨_, _, _, rfl, g2.append_in grow _, fun hn1 hn2 hle => ⟨g3 hn1, ?_⟩⟩
    intro x hx
    have hlen : (gap2 ++ gap1).length ≤ 1 := by
      rw [List.length_append]
      omega
    have hin : x ∈ post := by
      cases gap2 with
      | nil =>
        cases gap1 with
        | nil => simp at hp; rw [hp]; exact List.mem_cons_of_mem _ hx
        | cons u gap1 =>
          simp at hlen hp
          subst hlen
          simp at hp
          rw [hp.2]; exact hx
      | cons u gap2 =>
        simp at hlen hp
        rw [← hp.2, hlen.1, hlen.2] at hx
        simpa using hx
    exact hn2 x hin

end Verif
