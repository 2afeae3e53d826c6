import Verif.Proofs.SessionHeapSim
import Verif.Proofs.History

/-!
What the arrays of sessions still point to.
-/

namespace Verif

/-! ## Slices -/

theorem AllNil.filterMap {α : Type} {l : List (Option α)} (h : AllNil l) : l.filterMap id = [] := by
  induction l with
  | nil => rfl
  | cons x l ih =>
    have := h x List.mem_cons_self
    subst this
    simpa using ih fun y hy => h y (List.mem_cons_of_mem _ hy)

theorem PtrSlice.Lays.hidden {α : Type} {s : PtrSlice α} {pre post : List (Option α)} {l : List α} (h : s.Lays pre l post) : s.hidden = pre.filterMap id ++ post.filterMap id := by
  unfold PtrSlice.hidden
  have h1 : s.array.take s.off = pre := by rw [h.array, h.off, List.take_left]
  have h2 : s.array.drop (s.off + s.len) = post := by
    rw [h.array, h.off, h.len, ← List.append_assoc]
    have : pre.length + l.length = (pre ++ l.map some).length := by simp
    rw [this, List.drop_left]
  rw [h1, h2, List.filterMap_append]

theorem PtrSlice.Clean.hidden {α : Type} {s : PtrSlice α} (h : s.Clean) : s.hidden = [] := by
  obtain ⟨_, _, _, hl, h1, h2⟩ := h
  rw [hl.hidden, h1.filterMap, h2.filterMap]
  rfl

/-- `s[1:]` when there are too many, then `append`. -/
theorem PtrSlice.archive_slice {s : PtrSlice Bytes} (h : s.Shows s.live) (hc : s.Clean ∨ maxArchivedStates ≤ s.len) (grow : Nat → Nat) (x : Bytes) :
    ∃ s1, (if s.len ≥ maxArchivedStates then s.tail else .ok s) = .ok s1 ∧ (s1.append grow [some x]).Shows (s1.append grow [some x]).live ∧
      ((s1.append grow [some x]).Clean ∨ maxArchivedStates ≤ (s1.append grow [some x]).len) := by
  have hm : maxArchivedStates = 40 := rfl
  by_cases hn : s.len ≥ maxArchivedStates
  · rw [if_pos hn]
    obtain ⟨s1, f1, f2, f3⟩ := PtrSlice.tail_ok (s := s) (by omega) h.fits
    have hs : s1.Shows (s.live.drop 1) := ⟨f3, by rw [f2, h.items, List.map_drop]⟩
    have ha := hs.append grow x
    refine ⟨s1, f1, ha.self, .inr ?_⟩
    rw [ha.length, List.length_append, List.length_drop, ← h.length]
    simp
    omega
  · rw [if_neg hn]
    have hcl : s.Clean := hc.resolve_right hn
    exact ⟨s, rfl, (h.append grow x).self, .inl (hcl.append grow x)⟩

/-- `s[i] = nil; s = append(s[:i], s[i+1:]...)`, and then `append`, which fills the slot that has become free. -/
theorem PtrSlice.old_slice {s : PtrSlice Bytes} (h : s.Shows s.live) (hc : s.Clean ∨ maxArchivedStates ≤ s.len) (hle : s.live.length ≤ maxArchivedStates) (grow : Nat → Nat) {i : Nat} (hi : i < s.len) (x : Bytes) :
    ∃ s1 s2 s3, s.setNil i = .ok s1 ∧ s1.cut grow i = .ok s2 ∧ (if s2.len ≥ maxArchivedStates then s2.tail else .ok s2) = .ok s3 ∧
      (s3.append grow [some x]).Shows (s3.append grow [some x]).live ∧ ((s3.append grow [some x]).Clean ∨ maxArchivedStates ≤ (s3.append grow [some x]).len) := by
  have hlen := h.length
  obtain ⟨s1, s2, f1, f2, f3⟩ := h.nilCut grow (i := i) (by omega)
  have h2len : s2.len + 1 = s.len := by
    rw [f3.length, List.length_eraseIdx, if_pos (by omega)]
    omega
  have ha := f3.append grow x
  refine ⟨s1, s2, s2, f1, f2, if_neg (by omega), ha.self, ?_⟩
  rcases hc with hc | hc
  · left
    obtain ⟨pre, l, post, hl, h1, h2⟩ := hc
    have hll : s.live = l := hl.shows.live
    have hil : i < l.length := by rw [← hll, ← hlen]; exact hi
    -- the array after `s[i] = nil`
    have f1' := f1
    unfold PtrSlice.setNil at f1'
    rw [if_pos hi] at f1'
    cases f1'
    have hli : l = l.take i ++ l[i] :: l.drop (i + 1) := by rw [List.getElem_cons_drop, List.take_append_drop]
    have hti : (l.take i).length = i := by rw [List.length_take]; omega
    have harr : s.array.set (s.off + i) none = pre ++ ((l.take i).map some ++ none :: ((l.drop (i + 1)).map some ++ post)) := by
      have h3 : s.array = pre ++ ((l.take i).map some ++ some l[i] :: ((l.drop (i + 1)).map some ++ post)) := by
        rw [hl.array]
        congr 1
        rw [← List.cons_append, ← List.map_cons, ← List.append_assoc, ← List.map_append, ← hli]
      rw [h3, hl.off, List.set_append_right _ _ (by omega)]
      congr 1
      have : pre.length + i - pre.length = ((l.take i).map some).length := by rw [List.length_map, hti]; omega
      rw [this, List.set_append_right _ _ (Nat.le_refl _)]
      simp
    obtain ⟨s', g1, g2⟩ := PtrSlice.cut_lays (s := { s with array := s.array.set (s.off + i) none }) none grow harr hl.off (by rw [hl.len, hti, List.length_drop]; omega)
    rw [hti, f2] at g1
    cases g1
    exact ⟨_, _, _, g2.append_in grow x, h1, h2⟩
  · right
    rw [ha.length, List.length_append, List.length_eraseIdx, if_pos (by omega)]
    simp
    omega

/-! ## States -/

/-- No chain hides a key. -/
def SCell.KeysClean (c : SCell) : Prop := ∀ d ∈ c.chains.live, d.keys.Clean

theorem SCell.KeysClean.hiddenKeys {c : SCell} (h : c.KeysClean) : c.hiddenKeys = [] := by
  unfold SCell.hiddenKeys
  rw [List.flatMap_eq_nil_iff]
  exact fun d hd => (h d hd).hidden

theorem SCell.fresh_keysClean (grow : Nat → Nat) (s : SState) : (SCell.fresh grow s).KeysClean := by
  intro d hd
  simp only [SCell.fresh, PtrSlice.ofList_live, List.mem_map] at hd
  obtain ⟨c, _, rfl⟩ := hd
  exact PtrSlice.ofList_clean _ _

theorem flatMap_set_length {α β : Type} (f : α → List β) (x : α) : ∀ (l : List α) (i : Nat), (∀ y ∈ l, f y = []) → ((l.set i x).flatMap f).length ≤ (f x).length
  | [], _, _ => by simp
  | y :: l, 0, h => by
    have : l.flatMap f = [] := List.flatMap_eq_nil_iff.mpr fun z hz => h z (List.mem_cons_of_mem _ hz)
    simp [this]
  | y :: l, i + 1, h => by
    have := flatMap_set_length f x l i fun z hz => h z (List.mem_cons_of_mem _ hz)
    rw [List.set_cons_succ, List.flatMap_cons, h y List.mem_cons_self]
    simpa using this

theorem filter_index_le_one {l : List PBMessageKey} (h : l.Pairwise fun a b => a.index < b.index) (n : UInt32) : (l.filter fun k => k.index = n).length ≤ 1 := by
  induction l with
  | nil => simp
  | cons k l ih =>
    rw [List.pairwise_cons] at h
    by_cases hk : k.index = n
    · rw [List.filter_cons_of_pos (by simpa using hk)]
      have : (l.filter fun k => k.index = n) = [] := by
        rw [List.filter_eq_nil_iff]
        intro x hx
        have := h.1 x hx
        rw [hk] at this
        simp only [decide_eq_true_eq]
        intro he
        rw [he] at this
        exact absurd this (by simp)
      simp [this]
    · rw [List.filter_cons_of_neg (by simpa using hk)]
      exact ih h.2

/-- `MessageKeys` hides at most one key, and none if it finds none. -/
theorem SCell.takeMessageKeys_hidden (grow : Nat → Nat) {c c' : SCell} (h : c.Ok) (hc : c.KeysClean) (hw : c.value.WF) {sender : PubKey} {n : UInt32} {o : Option PBMessageKey}
    (e : c.takeMessageKeys grow sender n = .ok (o, c')) : c'.hiddenKeys.length ≤ 1 ∧
      ((∀ d ∈ c.value.receiverChains, d.senderRatchetKey = sender.bytes → ∀ k ∈ d.messageKeys, k.index ≠ n) → c'.KeysClean) := by
  have ht := SCell.takeMessageKeys_ok grow h sender n
  cases hr : c.receiverChain sender with
  | none =>
    rw [hr] at ht
    simp only at ht
    rw [ht] at e
    cases e
    exact ⟨by rw [hc.hiddenKeys]; simp, fun _ => hc⟩
  | some q =>
    obtain ⟨idx, d⟩ := q
    rw [hr] at ht
    obtain ⟨filtered, chains, e1, e2, e3, e4, _⟩ := ht
    rw [e1] at e
    cases e
    obtain ⟨hd1, hd2⟩ := h.chainAt hr
    have hmem : d ∈ c.chains.live := List.mem_of_getElem? hd1
    have hdv : d.value ∈ c.value.receiverChains := List.mem_map_of_mem hmem
    obtain ⟨pre, l, post, hl, h1, h2⟩ := hc d hmem
    have hll : d.keys.live = l := hl.shows.live
    obtain ⟨mid, g1, g2⟩ := e4 pre l post hl
    have hone : (l.filter fun k => k.index = n).length ≤ 1 := by
      have := filter_index_le_one (hw.chainWF _ hdv).sorted n
      rw [show d.value.messageKeys = l from hll] at this
      exact this
    refine ⟨?_, fun hno => ?_⟩
    · show (chains.live.flatMap fun d => d.keys.hidden).length ≤ 1
      rw [e3]
      refine Nat.le_trans (flatMap_set_length _ _ _ _ fun y hy => (hc y hy).hidden) ?_
      simp only
      rw [g1.hidden, h1.filterMap, List.filterMap_append, h2.filterMap]
      simp only [List.nil_append, List.append_nil]
      exact Nat.le_trans (List.length_filterMap_le _ _) (by omega)
    · have hz : (l.filter fun k => k.index = n) = [] := by
        rw [List.filter_eq_nil_iff]
        intro k hk
        have := hno d.value hdv hd2 k (by rw [show d.value.messageKeys = l from hll]; exact hk)
        simpa using this
      rw [hz] at g2
      have hmid : mid = [] := List.eq_nil_of_length_eq_zero (by simpa using g2)
      subst hmid
      intro x hx
      have hx : x ∈ chains.live := hx
      rw [e3] at hx
      rcases List.mem_or_eq_of_mem_set hx with hx | hx
      · exact hc x hx
      · rw [hx]
        exact ⟨_, _, _, g1, h1, h2⟩

/-! ## Code that works on one state -/

/-- Only this state and the other stores have changed. -/
structure OnlyAt (p : Nat) (h h' : ZWorld) : Prop where
  store : h'.store = h.store
  records : h'.records = h.records
  nextRecord : h'.nextRecord = h.nextRecord
  nextState : h'.nextState = h.nextState
  states : ∀ q, q ≠ p → h'.states q = h.states q

theorem OnlyAt.refl (p : Nat) (h : ZWorld) : OnlyAt p h h := ⟨rfl, rfl, rfl, rfl, fun _ _ => rfl⟩

theorem OnlyAt.trans {p : Nat} {h h' h'' : ZWorld} (a : OnlyAt p h h') (b : OnlyAt p h' h'') : OnlyAt p h h'' :=
  ⟨b.store.trans a.store, b.records.trans a.records, b.nextRecord.trans a.nextRecord, b.nextState.trans a.nextState, fun q hq => (b.states q hq).trans (a.states q hq)⟩

/-- `x` changes only the state `p`, and when nothing was hidden in it then nothing is. -/
def Tidy {α} (p : Nat) (x : M ZWorld α) : Prop := ∀ h : ZWorld, h.Ok → (x h).2.Ok ∧ OnlyAt p h (x h).2 ∧ ((h.states p).KeysClean → ((x h).2.states p).KeysClean)

namespace Tidy

theorem same {α} {p : Nat} {x : M ZWorld α} (h : ∀ h, (x h).2 = h) : Tidy p x := fun w hk => by
  rw [h w]
  exact ⟨hk, .refl p w, fun hc => hc⟩

theorem pure {α} {p : Nat} (v : α) : Tidy p (Pure.pure v) := same fun _ => rfl
theorem throw {α} {p : Nat} (e : Err) : Tidy p (M.throw e : M ZWorld α) := same fun _ => rfl
theorem panic {α} {p : Nat} : Tidy p (M.panic : M ZWorld α) := same fun _ => rfl
theorem lift {α} {p : Nat} (r : Res α) : Tidy p (M.lift r) := same fun _ => rfl
theorem readState {p q : Nat} : Tidy p (zReadState q) := same fun _ => rfl
theorem getState {α} {p q : Nat} (f : SState → Res α) : Tidy p (zGetState q f) := same fun _ => rfl
theorem rest {α} {p : Nat} (x : M World α) : Tidy p (zRest x) := fun _ hk => ⟨⟨hk.states, hk.records⟩, ⟨rfl, rfl, rfl, rfl, fun _ _ => rfl⟩, fun hc => hc⟩

theorem bind {α β} {p : Nat} {x : M ZWorld α} {f : α → M ZWorld β} (hx : Tidy p x) (hf : ∀ v, Tidy p (f v)) : Tidy p (x >>= f) := by
  intro h hk
  obtain ⟨e1, e2, e3⟩ := hx h hk
  rw [M.bind_run]
  rcases hr : x h with ⟨r, h'⟩
  rw [hr] at e1 e2 e3
  cases r with
  | ok v =>
    obtain ⟨f1, f2, f3⟩ := hf v h' e1
    exact ⟨f1, e2.trans f2, fun hc => f3 (e3 hc)⟩
  | err e => exact ⟨e1, e2, e3⟩
  | panic => exact ⟨e1, e2, e3⟩

theorem write {p : Nat} {c : SCell} {h : ZWorld} (hk : h.Ok) (hc : c.Ok) : (zWriteCell p c h).2.Ok ∧ OnlyAt p h (zWriteCell p c h).2 ∧ (zWriteCell p c h).2.states p = c :=
  ⟨(Ref.writeCell hk p hc).1, ⟨rfl, rfl, rfl, rfl, fun q hq => upd_ne _ _ hq⟩, upd_same ..⟩

theorem changeFields (p : Nat) (f : SState → SState) : Tidy p (zChangeFields p f) := by
  intro h hk
  have hc : ({ (h.states p) with fields := f (h.states p).fields } : SCell).Ok := ⟨(hk.states p).chains, (hk.states p).keys⟩
  obtain ⟨e1, e2, e3⟩ := write (p := p) hk hc
  have e0 : (zChangeFields p f h).2 = (zWriteCell p { (h.states p) with fields := f (h.states p).fields } h).2 := rfl
  rw [e0]
  refine ⟨e1, e2, fun hcl => ?_⟩
  rw [e3]
  exact hcl

theorem changeChains (p : Nat) (f : (Nat → Nat) → SCell → Res SCell) (hf : ∀ grow c c', c.Ok → f grow c = .ok c' → c'.Ok ∧ (c.KeysClean → c'.KeysClean)) : Tidy p (zChangeChains p f) := by
  intro h hk
  have e0 : zChangeChains p f h = (M.lift (f h.grow (h.states p)) >>= fun c' => zWriteCell p c') h := rfl
  rw [e0, M.bind_run, M.lift_run]
  cases hc : f h.grow (h.states p) with
  | ok c' =>
    obtain ⟨g1, g2⟩ := hf _ _ _ (hk.states p) hc
    obtain ⟨e1, e2, e3⟩ := write (p := p) hk g1
    refine ⟨e1, e2, fun hcl => ?_⟩
    show ((zWriteCell p c' h).2.states p).KeysClean
    rw [e3]
    exact g2 hcl
  | err e => exact ⟨hk, .refl p h, fun hc => hc⟩
  | panic => exact ⟨hk, .refl p h, fun hc => hc⟩

theorem chainKey (C : Crypto) (p : Nat) (k : PubKey) : Tidy p (zChainKey C p k) := by
  refine .bind (getState _) fun o => ?_
  cases o with
  | some ck => exact .pure _
  | none =>
    refine .bind (getState _) fun rootKey => .bind (getState _) fun ours => .bind (.lift _) fun q => ?_
    obtain ⟨rr, rc⟩ := q
    refine .bind (.rest _) fun pair => .bind (.lift _) fun q => ?_
    obtain ⟨sr, sc⟩ := q
    refine .bind (getState _) fun cur => .bind (changeFields p _) fun _ => .bind (changeChains p _ fun grow c c' hc he => ?_) fun _ =>
      .bind (changeFields p _) fun _ => .bind (changeFields p _) fun _ => .pure _
    obtain ⟨c2, e1, e2, e3, e4⟩ := SCell.addReceiverChain_ok grow hc k rc
    rw [e1] at he
    cases he
    refine ⟨e2, fun hcl d hd => ?_⟩
    rcases e4 d hd with hd | hd
    · exact hcl d hd
    · rw [hd]
      exact PtrSlice.empty_clean

theorem skipLoop (C : Crypto) (p : Nat) (k : PubKey) (n : UInt32) : ∀ (fuel : Nat) (ck : ChainKey), Tidy p (zSkipLoop C p k n fuel ck)
  | 0, _ => .pure _
  | fuel + 1, ck => by
    unfold zSkipLoop
    split
    · refine .bind (changeChains p _ fun grow c c' hc he => ?_) fun _ => skipLoop C p k n fuel _
      have := SCell.setMessageKeys_ok grow hc k (ck.messageKeys C)
      rw [he] at this
      obtain ⟨e1, _, e3⟩ := this
      refine ⟨e1, fun hcl d hd => ?_⟩
      obtain ⟨d0, hd0, hi⟩ := e3 d hd
      exact hi (hcl d0 hd0)
    · exact .pure _

theorem setChainKey (p : Nat) (k : PubKey) (ck : ChainKey) : Tidy p (zChangeChains p fun _ c => c.setReceiverChainKey k ck) := by
  refine changeChains p _ fun grow c c' hc he => ?_
  have := SCell.setReceiverChainKey_ok hc k ck
  rw [he] at this
  obtain ⟨e1, _, e3⟩ := this
  refine ⟨e1, fun hcl d hd => ?_⟩
  obtain ⟨d0, hd0, hi⟩ := e3 d hd
  rw [hi]
  exact hcl d0 hd0

end Tidy

theorem takeMessageKeys_only (p : Nat) (k : PubKey) (n : UInt32) (h : ZWorld) : OnlyAt p h (zTakeMessageKeys p k n h).2 := by
  have e0 : zTakeMessageKeys p k n h = (M.lift ((h.states p).takeMessageKeys h.grow k n) >>= fun q => zWriteCell p q.2 >>= fun _ =>
      match q.1 with
      | none => Pure.pure none
      | some k => M.lift (newMessageKeys k.cipherKey k.macKey k.iv n) >>= fun mk => Pure.pure (some mk)) h := rfl
  rw [e0, M.bind_run, M.lift_run]
  cases (h.states p).takeMessageKeys h.grow k n with
  | ok q =>
    have hw : OnlyAt p h (zWriteCell p q.2 h).2 := ⟨rfl, rfl, rfl, rfl, fun q hq => upd_ne _ _ hq⟩
    simp only
    rw [M.bind_ok_run (show zWriteCell p q.2 h = (.ok (), (zWriteCell p q.2 h).2) from rfl)]
    cases q.1 with
    | none => exact hw
    | some k =>
      simp only
      rw [M.bind_run, M.lift_run]
      cases newMessageKeys k.cipherKey k.macKey k.iv n <;> exact hw
  | err e => exact .refl p h
  | panic => exact .refl p h

theorem takeMessageKeys_state (p : Nat) (k : PubKey) (n : UInt32) (h : ZWorld) (hk : h.Ok) :
    ∃ o c', (h.states p).takeMessageKeys h.grow k n = .ok (o, c') ∧ (zTakeMessageKeys p k n h).2.states p = c' := by
  have e0 : zTakeMessageKeys p k n h = (M.lift ((h.states p).takeMessageKeys h.grow k n) >>= fun q => zWriteCell p q.2 >>= fun _ =>
      match q.1 with
      | none => Pure.pure none
      | some k => M.lift (newMessageKeys k.cipherKey k.macKey k.iv n) >>= fun mk => Pure.pure (some mk)) h := rfl
  have ht := SCell.takeMessageKeys_ok h.grow (hk.states p) k n
  have : ∃ q, (h.states p).takeMessageKeys h.grow k n = .ok q := by
    cases hr : (h.states p).receiverChain k with
    | none => rw [hr] at ht; exact ⟨_, ht⟩
    | some q =>
      rw [hr] at ht
      obtain ⟨_, _, e1, _⟩ := ht
      exact ⟨_, e1⟩
  obtain ⟨q, hq⟩ := this
  refine ⟨q.1, q.2, hq, ?_⟩
  rw [e0, hq, M.bind_run, M.lift_run]
  simp only
  rw [M.bind_ok_run (show zWriteCell p q.2 h = (.ok (), (zWriteCell p q.2 h).2) from rfl)]
  have hw : (zWriteCell p q.2 h).2.states p = q.2 := upd_same ..
  cases q.1 with
  | none => exact hw
  | some k =>
    simp only
    rw [M.bind_run, M.lift_run]
    cases newMessageKeys k.cipherKey k.macKey k.iv n <;> exact hw

/-- From a state that hides nothing. -/
theorem messageKeys_hidden (C : Crypto) (p : Nat) (k : PubKey) (ck : ChainKey) (n : UInt32) (h : ZWorld) (hk : h.Ok) : OnlyAt p h (zMessageKeys C p k ck n h).2 ∧
    ((h.states p).KeysClean → (h.states p).value.WF → ((zMessageKeys C p k ck n h).2.states p).hiddenKeys.length ≤ 1 ∧
      ((∀ d ∈ (h.states p).value.receiverChains, d.senderRatchetKey = k.bytes → ∀ x ∈ d.messageKeys, x.index ≠ n) → ((zMessageKeys C p k ck n h).2.states p).KeysClean)) := by
  unfold zMessageKeys
  split
  · have hlast : ∀ (q : Res (Option MessageKeys) × ZWorld), zTakeMessageKeys p k n h = q → ((zTakeMessageKeys p k n >>= fun o => match o with
        | some k => Pure.pure k
        | none => M.throw .duplicateMessage : M ZWorld MessageKeys) h).2 = q.2 := by
      intro q hq
      rw [M.bind_run, hq]
      rcases q with ⟨r, h'⟩
      cases r with
      | ok o => cases o <;> rfl
      | err e => rfl
      | panic => rfl
    have e1 := hlast _ rfl
    obtain ⟨o, c', e2, e3⟩ := takeMessageKeys_state p k n h hk
    have e4 := takeMessageKeys_only p k n h
    refine ⟨?_, fun hc hw => ?_⟩
    · exact e1 ▸ e4
    · have := SCell.takeMessageKeys_hidden h.grow (hk.states p) hc hw e2
      rw [← e3] at this
      exact e1 ▸ this
  · have key : Tidy p (zSkipLoop C p k n (n.toNat - ck.index.toNat) ck >>= fun ck => zChangeChains p (fun _ c => c.setReceiverChainKey k ck) >>= fun _ => Pure.pure (ck.messageKeys C)) :=
      .bind (.skipLoop C p k n _ ck) fun _ => .bind (.setChainKey p k _) fun _ => .pure _
    have all : ∀ x : M ZWorld MessageKeys, Tidy p x → OnlyAt p h (x h).2 ∧ ((h.states p).KeysClean → (h.states p).value.WF → ((x h).2.states p).hiddenKeys.length ≤ 1 ∧
        ((∀ d ∈ (h.states p).value.receiverChains, d.senderRatchetKey = k.bytes → ∀ x ∈ d.messageKeys, x.index ≠ n) → ((x h).2.states p).KeysClean)) := by
      intro x hx
      obtain ⟨_, e2, e3⟩ := hx h hk
      exact ⟨e2, fun hc _ => ⟨by rw [(e3 hc).hiddenKeys]; simp, fun _ => e3 hc⟩⟩
    simp only
    split
    · refine all _ (.bind (.getState _) fun b => ?_)
      cases b
      · exact .bind (.throw _) fun _ => key
      · exact key
    · exact all _ key

theorem SState.addReceiverChain_mem {s : SState} {k : PubKey} {ck : ChainKey} {c : PBChain} (h : c ∈ (s.addReceiverChain k ck).receiverChains) : c ∈ s.receiverChains ∨ c.messageKeys = [] := by
  unfold SState.addReceiverChain at h
  simp only at h
  have h : c ∈ s.receiverChains ++ [({ senderRatchetKey := k.bytes, chainKey := some { index := ck.index, key := ck.key } } : PBChain)] := by
    split at h
    · exact List.mem_of_mem_drop h
    · exact h
  rcases List.mem_append.mp h with h | h
  · exact .inl h
  · right
    rw [List.mem_singleton.mp h]

/-- `decryptMessageSession` on a state that hides nothing. -/
theorem decryptMessageSession_hidden (C : Crypto) (p : Nat) (m : Signal) (h : ZWorld) (hk : h.Ok) : (zDecryptMessageSession C p m h).2.Ok ∧ OnlyAt p h (zDecryptMessageSession C p m h).2 ∧
    ((h.states p).KeysClean → (h.states p).value.WF → ∀ v, (zDecryptMessageSession C p m h).1 = .ok v →
      ((zDecryptMessageSession C p m h).2.states p).value.WF ∧ ((zDecryptMessageSession C p m h).2.states p).hiddenKeys.length ≤ 1 ∧
      (¬(h.states p).value.KeepsKeyFor m → ((zDecryptMessageSession C p m h).2.states p).KeysClean)) := by
  obtain ⟨r1, r2⟩ := Ref.decryptMessageSession C p m h hk
  refine ⟨r2, ?_, fun hc hw v hv => ?_⟩
  · -- only this state
    unfold zDecryptMessageSession
    rw [M.bind_ok_run (show zReadState p h = (.ok (h.states p).value, h) from rfl)]
    cases (h.states p).value.senderChain with
    | none => exact .refl p h
    | some sc =>
      simp only
      split
      · exact .refl p h
      · rw [M.bind_run]
        obtain ⟨c1, c2, _⟩ := Tidy.chainKey C p m.senderRatchetKey h hk
        rcases hr : zChainKey C p m.senderRatchetKey h with ⟨r, h1⟩
        rw [hr] at c1 c2
        cases r with
        | err e => exact c2
        | panic => exact c2
        | ok ck =>
          simp only
          rw [M.bind_run]
          obtain ⟨d1, _⟩ := messageKeys_hidden C p m.senderRatchetKey ck m.counter h1 c1
          have d2 := (Ref.messageKeys C p m.senderRatchetKey ck m.counter h1 c1).2
          rcases hr2 : zMessageKeys C p m.senderRatchetKey ck m.counter h1 with ⟨r, h2⟩
          rw [hr2] at d1 d2
          cases r with
          | err e => exact c2.trans d1
          | panic => exact c2.trans d1
          | ok mk =>
            refine (c2.trans d1).trans ?_
            have : Tidy p (zGetState p (·.remoteIdentityKey) >>= fun o => match o with
                | none => M.throw .noRemoteIdentity
                | some theirIdentityKey => do
                  let localIdentityKey ← zGetState p (·.localIdentityKey)
                  let valid ← M.lift (m.verifyMAC C mk.macKey theirIdentityKey localIdentityKey)
                  if valid then
                    let plaintext ← M.lift (cbcDecrypt C mk.cipherKey mk.iv m.ciphertext)
                    zChangeFields p (·.clearUnacknowledgedPreKeyMessage)
                    return plaintext
                  else M.throw .badMAC : M ZWorld Bytes) := by
              refine .bind (.getState _) fun o => ?_
              cases o with
              | none => exact .throw _
              | some k =>
                refine .bind (.getState _) fun lk => .bind (.lift _) fun v => ?_
                cases v
                · exact .throw _
                · exact .bind (.lift _) fun _ => .bind (.changeFields p _) fun _ => .pure _
            exact (this h2 d2).2.1
  · -- what it leaves
    obtain ⟨s', s1, s2⟩ := decryptMessageSession_hsim C p m h.abs
    have hval : ∀ s'', (decryptMessageSession C (h.states p).value m h.rest.rand).1 = .ok (v, s'') → ((zDecryptMessageSession C p m h).2.states p).value = s'' := by
      intro s'' hs
      have h3 : (zDecryptMessageSession C p m h).2.abs.states p = s' := by
        have := congrArg Prod.snd (r1.symm.trans s1)
        simp only at this
        rw [this]
        exact upd_same ..
      exact h3.trans (s2 v s'' hs)
    rcases hz : decryptMessageSession C (h.states p).value m h.rest.rand with ⟨z, rd⟩
    have hfst : (Prod.fst <$> z : Res Bytes) = .ok v := by
      have := congrArg Prod.fst (r1.symm.trans s1)
      simp only at this
      rw [hv] at this
      have h4 : (decryptMessageSession C (h.abs.states p) m h.abs.rest.rand).1 = z := by
        show (decryptMessageSession C (h.states p).value m h.rest.rand).1 = z
        rw [hz]
      rw [h4] at this
      exact this.symm
    cases z with
    | err e => cases hfst
    | panic => cases hfst
    | ok q =>
      obtain ⟨v', s''⟩ := q
      have : v' = v := by
        have : (Res.ok v' : Res Bytes) = .ok v := hfst
        exact Res.ok.inj this
      subst this
      have hv2 := hval s'' (by rw [hz])
      refine ⟨by rw [hv2]; exact hw.decrypt hz, ?_⟩
      -- the steps
      have hrun : zDecryptMessageSession C p m h = (.ok v', (zDecryptMessageSession C p m h).2) := by rw [← hv]
      revert hrun
      generalize (zDecryptMessageSession C p m h).2 = h'
      intro hrun
      unfold zDecryptMessageSession at hrun
      rw [M.bind_ok_run (show zReadState p h = (.ok (h.states p).value, h) from rfl)] at hrun
      cases hsc : (h.states p).value.senderChain with
      | none => rw [hsc] at hrun; cases hrun
      | some sc =>
        rw [hsc] at hrun
        simp only at hrun
        split at hrun
        · cases hrun
        · rw [M.bind_eq_ok] at hrun
          obtain ⟨ck, h1, g1, hrun⟩ := hrun
          rw [M.bind_eq_ok] at hrun
          obtain ⟨mk, h2, g2, hrun⟩ := hrun
          rw [M.bind_eq_ok] at hrun
          obtain ⟨o, h3, g3, hrun⟩ := hrun
          have hh3 : h3 = h2 := by
            have : (zGetState p (·.remoteIdentityKey) h2).2 = h2 := rfl
            rw [g3] at this
            exact this
          subst hh3
          cases o with
          | none => cases hrun
          | some k =>
            simp only at hrun
            rw [M.bind_eq_ok] at hrun
            obtain ⟨lk, h4, g4, hrun⟩ := hrun
            have hh4 : h4 = h3 := by
              have : (zGetState p (·.localIdentityKey) h3).2 = h3 := rfl
              rw [g4] at this
              exact this
            subst hh4
            rw [M.bind_eq_ok] at hrun
            obtain ⟨valid, h5, g5, hrun⟩ := hrun
            rw [M.lift_run] at g5
            have hh5 : h5 = h4 := (Prod.mk.inj g5).2.symm
            subst hh5
            cases valid with
            | false => cases hrun
            | true =>
              simp only [if_true] at hrun
              rw [M.bind_eq_ok] at hrun
              obtain ⟨pt, h6, g6, hrun⟩ := hrun
              rw [M.lift_run] at g6
              have hh6 : h6 = h5 := (Prod.mk.inj g6).2.symm
              subst hh6
              have hchains : (h'.states p).chains = (h6.states p).chains := by
                have h7 := congrArg (fun q => (q.2.states p).chains) hrun
                simp only at h7
                rw [← h7]
                show (upd h6.states p _ p).chains = _
                rw [upd_same]
              have hsame : (h'.states p).hiddenKeys = (h6.states p).hiddenKeys ∧ ((h6.states p).KeysClean → (h'.states p).KeysClean) := by
                unfold SCell.hiddenKeys SCell.KeysClean
                rw [hchains]
                exact ⟨rfl, fun h => h⟩
              obtain ⟨c1, _, c3⟩ := Tidy.chainKey C p m.senderRatchetKey h hk
              rw [g1] at c1 c3
              -- the value after `chainKey`
              obtain ⟨t', t1, t2⟩ := chainKey_hsim C p m.senderRatchetKey h.abs
              obtain ⟨u1, _⟩ := Ref.chainKey C p m.senderRatchetKey h hk
              rw [g1] at u1
              have u2 := u1.symm.trans t1
              rcases hcz : chainKeyFor C (h.states p).value m.senderRatchetKey h.rest.rand with ⟨cz, rd2⟩
              have hcz' : chainKeyFor C (h.abs.states p) m.senderRatchetKey h.abs.rest.rand = (cz, rd2) := hcz
              rw [hcz'] at u2 t2
              have u3 := congrArg Prod.fst u2
              have u4 := congrArg (fun q => q.2.states p) u2
              simp only at u3 u4
              cases cz with
              | err e => cases u3
              | panic => cases u3
              | ok q =>
                obtain ⟨ck', s1'⟩ := q
                have hck : ck = ck' := by
                  have : (Res.ok ck : Res ChainKey) = .ok ck' := u3
                  exact Res.ok.inj this
                subst hck
                have hv1 : (h1.states p).value = s1' := by
                  have h8 : h1.abs.states p = t' := by
                    rw [u4]
                    exact upd_same ..
                  exact h8.trans (t2 ck s1' rfl)
                have hw1 : (h1.states p).value.WF := by
                  rw [hv1]
                  exact (hw.chainKeyFor hcz).1
                have fin := (messageKeys_hidden C p m.senderRatchetKey ck m.counter h1 c1).2 (c3 hc) hw1
                rw [g2] at fin
                rw [hsame.1]
                refine ⟨fin.1, fun hno => hsame.2 (fin.2 fun d hd he k hk2 hi => hno ?_)⟩
                rw [hv1] at hd
                rcases chainKeyFor_ok hcz with ⟨_, rfl, _⟩ | ⟨_, _, _, _, _, _, _, _, _, _, _, _, _, _, rfl⟩
                · exact ⟨d, hd, he, k, hk2, hi⟩
                · rcases SState.addReceiverChain_mem (s := { (h.states p).value with rootKey := _ }) hd with hd | hd
                  · exact ⟨d, hd, he, k, hk2, hi⟩
                  · rw [hd] at hk2
                    cases hk2

end Verif
