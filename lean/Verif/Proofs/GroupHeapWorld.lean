import Verif.Proofs.GroupLays
import Verif.Spec.GroupHeap

/-!
The group API on pointers agrees with the group API on values.
-/

namespace Verif

/-- The states a record refers to. -/
def GHWorld.ptrs (h : GHWorld) (r : Nat) : List Nat := (h.records r).live

/-- A record object: every slot of its array outside the window is nil, its states exist and have different chain ids. -/
structure GHWorld.Good (h : GHWorld) (i : Nat) : Prop where
  tidy : ∃ pre post, (h.records i).Lays pre (h.ptrs i) post ∧ AllNil pre ∧ AllNil post
  bound : ∀ p ∈ h.ptrs i, p < h.nextState
  ids : ((h.ptrs i).map fun p => (h.states p).chainId).Nodup

/-- Every record object has its own states, and the store has one object per sender and group. -/
structure GHWorld.Sound (h : GHWorld) : Prop where
  stored : ∀ k i, h.store k = some i → i < h.nextRecord
  good : ∀ i < h.nextRecord, h.Good i
  apart : ∀ i < h.nextRecord, ∀ j < h.nextRecord, ∀ p, p ∈ h.ptrs i → p ∈ h.ptrs j → i = j
  cells : ∀ p < h.nextState, (h.states p).Ok
  single : ∀ a b i, h.store a = some i → h.store b = some i → a = b

/-- Same heap and store; only the random readers and the failures to come differ. -/
def GHWorld.Same (h h' : GHWorld) : Prop := ∃ rand sysRand faults, h' = { h with rand := rand, sysRand := sysRand, faults := faults }

theorem GHWorld.Same.sound {h h' : GHWorld} (he : h.Same h') (hs : h.Sound) : h'.Sound := by
  obtain ⟨_, _, _, rfl⟩ := he
  exact ⟨hs.stored, fun i hi => ⟨(hs.good i hi).tidy, (hs.good i hi).bound, (hs.good i hi).ids⟩, hs.apart, hs.cells, hs.single⟩

/-- What code that works on the record object `r` can have done. -/
structure GHWorld.Grow (r : Nat) (h h' : GHWorld) : Prop where
  store : h'.store = h.store
  rand : h'.rand = h.rand
  sysRand : h'.sysRand = h.sysRand
  faults : h'.faults = h.faults
  nextRecord : h'.nextRecord = h.nextRecord
  nextState : h.nextState ≤ h'.nextState
  records : ∀ i, i ≠ r → h'.records i = h.records i
  states : ∀ p < h.nextState, p ∉ h.ptrs r → h'.states p = h.states p
  fresh : ∀ p ∈ h'.ptrs r, p ∈ h.ptrs r ∨ h.nextState ≤ p
  good : h'.Good r
  cells : ∀ p < h'.nextState, (h'.states p).Ok

theorem GHWorld.Grow.ptrs {r : Nat} {h h' : GHWorld} (hg : h.Grow r h') {i : Nat} (hi : i ≠ r) : h'.ptrs i = h.ptrs i := by
  unfold GHWorld.ptrs
  rw [hg.records i hi]

theorem GHWorld.Grow.kept {r : Nat} {h h' : GHWorld} (hs : h.Sound) (hr : r < h.nextRecord) (hg : h.Grow r h') {i : Nat} (hi : i < h.nextRecord) (hne : i ≠ r) {p : Nat}
    (hp : p ∈ h.ptrs i) : h'.states p = h.states p :=
  hg.states p ((hs.good i hi).bound p hp) fun hpr => hne (hs.apart i hi r hr p hp hpr)

theorem GHWorld.Grow.view_other {h h' : GHWorld} {r i : Nat} (hs : h.Sound) (hr : r < h.nextRecord) (hi : i < h.nextRecord) (hg : h.Grow r h') (hne : i ≠ r) : h'.view i = h.view i := by
  show (h'.ptrs i).map _ = (h.ptrs i).map _
  rw [hg.ptrs hne]
  refine List.map_congr_left fun p hp => ?_
  rw [hg.kept hs hr hi hne hp]

theorem GHWorld.Grow.sound {h h' : GHWorld} {r : Nat} (hs : h.Sound) (hr : r < h.nextRecord) (hg : h.Grow r h') : h'.Sound where
  stored k i hk := by rw [hg.nextRecord]; exact hs.stored k i (hg.store ▸ hk)
  good i hi := by
    rw [hg.nextRecord] at hi
    by_cases hir : i = r
    · subst hir; exact hg.good
    · have := hs.good i hi
      refine ⟨?_, ?_, ?_⟩
      · rw [hg.ptrs hir, hg.records i hir]; exact this.tidy
      · rw [hg.ptrs hir]; exact fun p hp => Nat.lt_of_lt_of_le (this.bound p hp) hg.nextState
      · rw [hg.ptrs hir, List.map_congr_left (g := fun p => (h.states p).chainId) fun p hp => by rw [hg.kept hs hr hi hir hp]]
        exact this.ids
  apart i hi j hj p hp hq := by
    rw [hg.nextRecord] at hi hj
    by_cases hir : i = r
    · by_cases hjr : j = r
      · rw [hir, hjr]
      · rw [hg.ptrs hjr] at hq
        subst hir
        rcases hg.fresh p hp with h1 | h1
        · exact hs.apart i hi j hj p h1 hq
        · have := (hs.good j hj).bound p hq
          omega
    · rw [hg.ptrs hir] at hp
      by_cases hjr : j = r
      · subst hjr
        rcases hg.fresh p hq with h1 | h1
        · exact hs.apart i hi j hj p hp h1
        · have := (hs.good i hi).bound p hp
          omega
      · rw [hg.ptrs hjr] at hq
        exact hs.apart i hi j hj p hp hq
  cells := hg.cells
  single a b i ha hb := hs.single a b i (hg.store ▸ ha) (hg.store ▸ hb)

/-! ## Writing one state -/

theorem nodup_of_map {α β} {f : α → β} : ∀ {l : List α}, (l.map f).Nodup → l.Nodup := by
  intro l h
  unfold List.Nodup at h ⊢
  rw [List.pairwise_map] at h
  exact h.imp fun hab he => hab (by rw [he])

theorem write_grow {h : GHWorld} (hs : h.Sound) {r p : Nat} (hr : r < h.nextRecord) (hp : p ∈ h.ptrs r) {c : GCell} (hc : c.Ok) (hid : c.chainId = (h.states p).chainId) :
    h.Grow r { h with states := upd h.states p c } where
  store := rfl
  rand := rfl
  sysRand := rfl
  faults := rfl
  nextRecord := rfl
  nextState := Nat.le_refl _
  records _ _ := rfl
  states q _ hq := upd_ne _ _ fun he => hq (he ▸ hp)
  fresh _ hq := .inl hq
  good := by
    have := hs.good r hr
    refine ⟨this.tidy, this.bound, ?_⟩
    have he : ((h.ptrs r).map fun q => (upd h.states p c q).chainId) = (h.ptrs r).map fun q => (h.states q).chainId := by
      refine List.map_congr_left fun q _ => ?_
      by_cases hq : q = p
      · subst hq; rw [upd_same, hid]
      · rw [upd_ne _ _ hq]
    exact he ▸ this.ids
  cells q hq := by
    by_cases he : q = p
    · subst he; simpa using hc
    · simp only [upd_ne _ _ he]; exact hs.cells q hq

/-- The first state has been written. -/
theorem write_head {h : GHWorld} (hs : h.Sound) {r p : Nat} {ps : List Nat} (hr : r < h.nextRecord) (hps : h.ptrs r = p :: ps) (c : GCell) :
    ({ h with states := upd h.states p c } : GHWorld).view r = c.value :: (h.view r).drop 1 := by
  have hnd := nodup_of_map (hs.good r hr).ids
  rw [hps, List.nodup_cons] at hnd
  show (h.ptrs r).map _ = c.value :: ((h.ptrs r).map _).drop 1
  rw [hps]
  simp only [List.map_cons, upd_same, List.drop_succ_cons, List.drop_zero, List.cons.injEq, true_and]
  refine List.map_congr_left fun q hq => ?_
  have : q ≠ p := fun he => hnd.1 (he ▸ hq)
  rw [upd_ne _ _ this]

theorem setState_map (states : Nat → GCell) (cid : UInt32) (p : Nat) (c : GCell) : ∀ ps : List Nat, ps.Nodup → ps.find? (fun q => cid == (states q).chainId) = some p →
    (ps.map fun q => (upd states p c q).value) = GRecord.setStateForChainID (ps.map fun q => (states q).value) cid c.value := by
  intro ps
  induction ps with
  | nil => intro _ h; cases h
  | cons q ps ih =>
    intro hnd hf
    rw [List.nodup_cons] at hnd
    rw [List.map_cons, List.map_cons, GRecord.setStateForChainID]
    by_cases hq : cid = (states q).chainId
    · rw [List.find?_cons_of_pos (by simp [hq])] at hf
      simp only [Option.some.injEq] at hf
      subst hf
      rw [if_pos (show cid = (states q).value.chainId from hq), upd_same]
      congr 1
      refine List.map_congr_left fun x hx => ?_
      have : x ≠ q := fun he => hnd.1 (he ▸ hx)
      rw [upd_ne _ _ this]
    · rw [List.find?_cons_of_neg (by simp [hq])] at hf
      rw [if_neg (show ¬ cid = (states q).value.chainId from hq), ih hnd.2 hf]
      have : q ≠ p := fun he => hnd.1 (he ▸ List.mem_of_find?_eq_some hf)
      rw [upd_ne _ _ this]

/-! ## Adding a state -/

theorem gIsState_value (cid : UInt32) (key : PubKey) (c : GCell) : GRecord.isState cid key c.value = gIsState cid key c := rfl

theorem addPtr_view (h : GHWorld) (ps : List Nat) (p : Nat) (key : PubKey) (hk : (h.states p).publicSigningKey = .ok key) :
    GRecord.addState (ps.map fun q => (h.states q).value) (h.states p).value = .ok ((addPtr h ps p key).map fun q => (h.states q).value) := by
  unfold GRecord.addState
  have hk' : (h.states p).value.publicSigningKey = .ok key := hk
  rw [hk']
  simp only [Res.bind_ok, GRecord.removeState, GRecord.removeStates]
  unfold addPtr
  simp only [List.eraseP_map, List.filter_map, List.find?_map]
  have e1 : (GRecord.isState (h.states p).value.chainId key ∘ fun q => (h.states q).value) = fun q => gIsState (h.states p).chainId key (h.states q) := rfl
  have e2 : ((fun s : GState => decide (s.chainId ≠ (h.states p).value.chainId)) ∘ fun q => (h.states q).value) = fun q => decide ((h.states q).chainId ≠ (h.states p).chainId) := rfl
  rw [e1, e2]
  generalize ((ps.eraseP fun q => gIsState (h.states p).chainId key (h.states q)).filter fun q => decide ((h.states q).chainId ≠ (h.states p).chainId)) = l
  generalize ps.find? (fun q => gIsState (h.states p).chainId key (h.states q)) = o
  rw [List.length_map, List.map_append, Res.pure_eq]
  congr 2
  · split
    · rw [List.map_drop]
    · rfl
  · cases o <;> rfl

theorem nodup_filter_le (states : Nat → GCell) (cid : UInt32) : ∀ ps : List Nat, (ps.map fun p => (states p).chainId).Nodup →
    ps.length ≤ (ps.filter fun q => decide ((states q).chainId ≠ cid)).length + 1 := by
  intro ps
  induction ps with
  | nil => simp
  | cons p ps ih =>
    intro hnd
    rw [List.map_cons, List.nodup_cons] at hnd
    by_cases hp : (states p).chainId = cid
    · rw [List.filter_cons_of_neg (by simp [hp])]
      have : ps.filter (fun q => decide ((states q).chainId ≠ cid)) = ps := by
        rw [List.filter_eq_self]
        intro q hq
        simp only [ne_eq, decide_not, Bool.not_eq_true', decide_eq_false_iff_not]
        intro he
        exact hnd.1 (by rw [hp, ← he]; exact List.mem_map_of_mem (f := fun p => (states p).chainId) hq)
      rw [this]
      simp
    · rw [List.filter_cons_of_pos (by simp [hp])]
      have := ih hnd.2
      simp only [List.length_cons]
      omega

theorem gIsState_chainId {cid : UInt32} {key : PubKey} {c : GCell} (h : gIsState cid key c = true) : c.chainId = cid := by
  unfold gIsState at h
  split at h
  · simp only [Bool.and_eq_true, beq_iff_eq] at h
    exact h.1
  · cases h

theorem taken_le (states : Nat → GCell) (cid : UInt32) (key : PubKey) : ∀ ps : List Nat, (ps.map fun p => (states p).chainId).Nodup →
    ps.length ≤ ((ps.eraseP fun q => gIsState cid key (states q)).filter fun q => decide ((states q).chainId ≠ cid)).length + 1 := by
  intro ps
  induction ps with
  | nil => simp
  | cons p ps ih =>
    intro hnd
    have hnd' := hnd
    rw [List.map_cons, List.nodup_cons] at hnd'
    by_cases ht : gIsState cid key (states p) = true
    · rw [List.eraseP_cons_of_pos (p := fun q => gIsState cid key (states q)) ht]
      have h1 := nodup_filter_le states cid (p :: ps) hnd
      rw [List.filter_cons_of_neg (by simp [gIsState_chainId ht])] at h1
      exact h1
    · rw [List.eraseP_cons_of_neg (p := fun q => gIsState cid key (states q)) ht]
      by_cases hp : (states p).chainId = cid
      · have : (ps.eraseP fun q => gIsState cid key (states q)) = ps := by
          refine List.eraseP_of_forall_not fun q hq hg => ?_
          exact hnd'.1 (by rw [hp, ← gIsState_chainId hg]; exact List.mem_map_of_mem (f := fun p => (states p).chainId) hq)
        rw [this]
        exact nodup_filter_le states cid (p :: ps) hnd
      · rw [List.filter_cons_of_pos (by simp [hp])]
        have := ih hnd'.2
        simp only [List.length_cons]
        omega

theorem addPtr_mem {h : GHWorld} {ps : List Nat} {p : Nat} {key : PubKey} {q : Nat} (hq : q ∈ addPtr h ps p key) : q ∈ ps ∨ q = p := by
  unfold addPtr at hq
  simp only [List.mem_append, List.mem_singleton] at hq
  rcases hq with hq | hq
  · have : q ∈ ((ps.eraseP fun q => gIsState (h.states p).chainId key (h.states q)).filter fun q => decide ((h.states q).chainId ≠ (h.states p).chainId)) := by
      split at hq
      · exact List.mem_of_mem_drop hq
      · exact hq
    exact .inl (List.mem_of_mem_eraseP (List.mem_filter.mp this).1)
  · cases hf : ps.find? (fun q => gIsState (h.states p).chainId key (h.states q)) with
    | none => rw [hf] at hq; exact .inr hq
    | some x =>
      rw [hf] at hq
      simp only [Option.getD_some] at hq
      subst hq
      exact .inl (List.mem_of_find?_eq_some hf)

theorem addPtr_ids {h : GHWorld} {ps : List Nat} {p : Nat} {key : PubKey} (hnd : (ps.map fun q => (h.states q).chainId).Nodup) :
    ((addPtr h ps p key).map fun q => (h.states q).chainId).Nodup := by
  unfold addPtr
  simp only
  have hl : (((if ((ps.eraseP fun q => gIsState (h.states p).chainId key (h.states q)).filter fun q => decide ((h.states q).chainId ≠ (h.states p).chainId)).length ≥ maxSenderKeyStates then
      ((ps.eraseP fun q => gIsState (h.states p).chainId key (h.states q)).filter fun q => decide ((h.states q).chainId ≠ (h.states p).chainId)).drop 1 else
      ((ps.eraseP fun q => gIsState (h.states p).chainId key (h.states q)).filter fun q => decide ((h.states q).chainId ≠ (h.states p).chainId)))).Sublist
      ((ps.eraseP fun q => gIsState (h.states p).chainId key (h.states q)).filter fun q => decide ((h.states q).chainId ≠ (h.states p).chainId))) := by
    split
    · exact List.drop_sublist _ _
    · exact List.Sublist.refl _
  generalize (if ((ps.eraseP fun q => gIsState (h.states p).chainId key (h.states q)).filter fun q => decide ((h.states q).chainId ≠ (h.states p).chainId)).length ≥ maxSenderKeyStates then
      ((ps.eraseP fun q => gIsState (h.states p).chainId key (h.states q)).filter fun q => decide ((h.states q).chainId ≠ (h.states p).chainId)).drop 1 else
      ((ps.eraseP fun q => gIsState (h.states p).chainId key (h.states q)).filter fun q => decide ((h.states q).chainId ≠ (h.states p).chainId))) = l at hl ⊢
  rw [List.map_append, List.nodup_append]
  refine ⟨?_, by simp, ?_⟩
  · exact List.Nodup.sublist ((hl.trans (List.filter_sublist.trans List.eraseP_sublist)).map _) hnd
  · intro x hx y hy
    simp only [List.map_singleton, List.mem_singleton] at hy
    have hyc : y = (h.states p).chainId := by
      rw [hy]
      cases hf : ps.find? (fun q => gIsState (h.states p).chainId key (h.states q)) with
      | none => rfl
      | some z =>
        have := List.find?_some hf
        exact gIsState_chainId this
    obtain ⟨q, hq, rfl⟩ := List.mem_map.mp hx
    have := (List.mem_filter.mp (hl.subset hq)).2
    rw [hyc]
    simpa using this

/-- A new state is made and added to a record. -/
theorem add_run (grow : Nat → Nat) {h : GHWorld} (hs : h.Sound) {r : Nat} (hr : r < h.nextRecord) {c : GCell} (hc : c.Ok) :
    ∃ res h', (gAllocState c >>= hgAddState grow r) h = (res, h') ∧ h.Grow r h' ∧
      match GRecord.addState (h.view r) c.value with
      | .ok rec => res = .ok () ∧ h'.view r = rec
      | .err e => res = .err e ∧ h'.view r = h.view r
      | .panic => res = .panic ∧ h'.view r = h.view r := by
  obtain ⟨⟨pre, post, hl, hn1, hn2⟩, hb, hid⟩ := hs.good r hr
  have hst : ∀ q ∈ h.ptrs r, upd h.states h.nextState c q = h.states q := fun q hq => upd_ne _ _ fun he => by
    have := hb q hq
    omega
  have halloc : gAllocState c h = (.ok h.nextState, { h with states := upd h.states h.nextState c, nextState := h.nextState + 1 }) := rfl
  have hcells : ∀ p < h.nextState + 1, (upd h.states h.nextState c p).Ok := fun p hp => by
    by_cases he : p = h.nextState
    · subst he; simpa using hc
    · rw [upd_ne _ _ he]; exact hs.cells p (by omega)
  have hids : ((h.ptrs r).map fun q => (upd h.states h.nextState c q).chainId) = (h.ptrs r).map fun q => (h.states q).chainId :=
    List.map_congr_left fun q hq => by rw [hst q hq]
  have hview : ((h.ptrs r).map fun q => (upd h.states h.nextState c q).value) = h.view r := List.map_congr_left fun q hq => by rw [hst q hq]
  have hgrow0 : h.Grow r { h with states := upd h.states h.nextState c, nextState := h.nextState + 1 } :=
    ⟨rfl, rfl, rfl, rfl, rfl, Nat.le_succ _, fun _ _ => rfl, fun q hq _ => upd_ne _ _ (by omega), fun _ hq => .inl hq,
      ⟨⟨pre, post, hl, hn1, hn2⟩, fun q hq => Nat.lt_succ_of_lt (hb q hq), hids ▸ hid⟩, hcells⟩
  rw [M.bind_ok_run halloc]
  have hcell : ({ h with states := upd h.states h.nextState c, nextState := h.nextState + 1 } : GHWorld).states h.nextState = c := by simp
  cases hk : c.publicSigningKey with
  | ok key =>
    have hk' : (({ h with states := upd h.states h.nextState c, nextState := h.nextState + 1 } : GHWorld).states h.nextState).publicSigningKey = .ok key := by rw [hcell, hk]
    have hval := addPtr_view { h with states := upd h.states h.nextState c, nextState := h.nextState + 1 } (h.ptrs r) h.nextState key hk'
    rw [hcell, hview] at hval
    rw [hval]
    obtain ⟨s', pre', post', e1, e2, e3⟩ := hgAddState_run grow (h := { h with states := upd h.states h.nextState c, nextState := h.nextState + 1 }) (r := r) (p := h.nextState) hl hk'
    have e4 := e3 hn1 hn2 (taken_le _ _ _ _ (by simp only; rw [hids]; exact hid))
    have hptrs : ∀ s'' : PtrSlice Nat, s''.Lays pre' (addPtr { h with states := upd h.states h.nextState c, nextState := h.nextState + 1 } (h.ptrs r) h.nextState key) post' →
        ({ h with states := upd h.states h.nextState c, nextState := h.nextState + 1, records := upd h.records r s'' } : GHWorld).ptrs r =
          addPtr { h with states := upd h.states h.nextState c, nextState := h.nextState + 1 } (h.ptrs r) h.nextState key := fun s'' hl'' => by
      unfold GHWorld.ptrs
      simp only [upd_same]
      exact hl''.shows.live
    refine ⟨_, _, e1, ?_, rfl, ?_⟩
    · refine ⟨rfl, rfl, rfl, rfl, rfl, Nat.le_succ _, fun i hi => upd_ne _ _ hi, fun q hq _ => upd_ne _ _ (by omega), ?_, ⟨?_, ?_, ?_⟩, hcells⟩
      · intro q hq
        rw [hptrs s' e2] at hq
        rcases addPtr_mem hq with h1 | h1
        · exact .inl h1
        · exact .inr (by omega)
      · rw [hptrs s' e2]
        exact ⟨pre', post', by simpa using e2, e4⟩
      · intro q hq
        rw [hptrs s' e2] at hq
        rcases addPtr_mem hq with h1 | h1
        · exact Nat.lt_succ_of_lt (hb q h1)
        · simp only; omega
      · rw [hptrs s' e2]
        exact addPtr_ids (by simp only; rw [hids]; exact hid)
    · show List.map _ (({ h with states := upd h.states h.nextState c, nextState := h.nextState + 1, records := upd h.records r s' } : GHWorld).ptrs r) = _
      rw [hptrs s' e2]
  | err e =>
    refine ⟨.err e, _, ?_, hgrow0, ?_⟩
    · unfold hgAddState
      rw [M.bind_ok_run (show gReadState h.nextState { h with states := upd h.states h.nextState c, nextState := h.nextState + 1 } = (.ok c, { h with states := upd h.states h.nextState c, nextState := h.nextState + 1 }) from by simp only [gReadState, upd_same])]
      exact M.bind_err_run (by rw [M.lift_run, hk])
    · unfold GRecord.addState
      rw [show c.value.publicSigningKey = .err e from hk]
      exact ⟨rfl, hview⟩
  | panic =>
    refine ⟨.panic, _, ?_, hgrow0, ?_⟩
    · unfold hgAddState
      rw [M.bind_ok_run (show gReadState h.nextState { h with states := upd h.states h.nextState c, nextState := h.nextState + 1 } = (.ok c, { h with states := upd h.states h.nextState c, nextState := h.nextState + 1 }) from by simp only [gReadState, upd_same])]
      exact M.bind_panic_run (by rw [M.lift_run, hk])
    · unfold GRecord.addState
      rw [show c.value.publicSigningKey = .panic from hk]
      exact ⟨rfl, hview⟩

end Verif
