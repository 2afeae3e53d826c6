import Verif.Proofs.SessionSlices
import Verif.Spec.SessionHeap
import Verif.Proofs.HeapHistory

/-!
The session code on slices does, step by step, what the session code on pointers does with lists.
-/

namespace Verif

/-- The same memory with lists in place of slices. -/
def ZWorld.abs (h : ZWorld) : HWorld :=
  { rest := h.rest, store := h.store, records := fun r => { current := (h.records r).current, previous := (h.records r).previous.live },
    states := fun p => (h.states p).value, nextRecord := h.nextRecord, nextState := h.nextState }

/-- All slices show lists. -/
structure ZWorld.Ok (h : ZWorld) : Prop where
  states : ∀ p, (h.states p).Ok
  records : ∀ r, (h.records r).previous.Shows (h.records r).previous.live

theorem upd_map {α β γ : Type} [DecidableEq α] (f : α → β) (g : β → γ) (a : α) (b : β) : (fun x => g (upd f a b x)) = upd (fun x => g (f x)) a (g b) := by
  funext x
  unfold upd
  split <;> rfl

/-- `x` on slices does what `y` does on lists. -/
def Ref {α} (x : M ZWorld α) (y : M HWorld α) : Prop := ∀ h : ZWorld, h.Ok → y h.abs = ((x h).1, (x h).2.abs) ∧ (x h).2.Ok

namespace Ref

theorem pure {α} (v : α) : Ref (Pure.pure v) (Pure.pure v) := fun _ hk => ⟨rfl, hk⟩
theorem throw {α} (e : Err) : Ref (M.throw e : M ZWorld α) (M.throw e) := fun _ hk => ⟨rfl, hk⟩
theorem panic {α} : Ref (M.panic : M ZWorld α) M.panic := fun _ hk => ⟨rfl, hk⟩
theorem lift {α} (r : Res α) : Ref (M.lift r) (M.lift r) := fun _ hk => ⟨rfl, hk⟩

theorem bind {α β} {x : M ZWorld α} {y : M HWorld α} {f : α → M ZWorld β} {g : α → M HWorld β} (hx : Ref x y) (hf : ∀ v, Ref (f v) (g v)) : Ref (x >>= f) (y >>= g) := by
  intro h hk
  obtain ⟨e1, e2⟩ := hx h hk
  rw [M.bind_run, M.bind_run, e1]
  rcases hxe : x h with ⟨r, h'⟩
  rw [hxe] at e2
  cases r with
  | ok v => exact hf v h' e2
  | err e => exact ⟨rfl, e2⟩
  | panic => exact ⟨rfl, e2⟩

theorem attempt {α} {x : M ZWorld α} {y : M HWorld α} (hx : Ref x y) : Ref (M.attempt x) (M.attempt y) := by
  intro h hk
  obtain ⟨e1, e2⟩ := hx h hk
  unfold M.attempt
  rw [e1]
  rcases hxe : x h with ⟨r, h'⟩
  rw [hxe] at e2
  cases r <;> exact ⟨rfl, e2⟩

theorem get {α} {f : ZWorld → M ZWorld α} {g : HWorld → M HWorld α} (hf : ∀ h, h.Ok → Ref (f h) (g h.abs)) : Ref (M.get >>= f) (M.get >>= g) :=
  fun h hk => hf h hk h hk

/-- A read of the memory that only the slices need. -/
theorem getLeft {α} {f : ZWorld → M ZWorld α} {y : M HWorld α} (hf : ∀ h, h.Ok → Ref (f h) y) : Ref (M.get >>= f) y :=
  fun h hk => hf h hk h hk

theorem rest {α} (x : M World α) : Ref (zRest x) (hRest x) := fun _ hk => ⟨rfl, hk.states, hk.records⟩

theorem storeCall {α} {x : M ZWorld α} {y : M HWorld α} (hx : Ref x y) : Ref (zStoreCall x) (hStoreCall y) := by
  intro h hk
  have key : ∀ fs, h.abs.rest.faults = fs → h.rest.faults = fs := fun _ e => e
  have hx' : ∀ fs, y { h.abs with rest := { h.abs.rest with faults := fs } } = ((x { h with rest := { h.rest with faults := fs } }).1, (x { h with rest := { h.rest with faults := fs } }).2.abs) ∧
      (x { h with rest := { h.rest with faults := fs } }).2.Ok := fun fs => hx { h with rest := { h.rest with faults := fs } } ⟨hk.states, hk.records⟩
  unfold zStoreCall hStoreCall
  rw [show h.abs.rest.faults = h.rest.faults from rfl]
  match h.rest.faults with
  | [] => exact hx h hk
  | .none :: fs => exact hx' fs
  | .before :: fs => exact ⟨rfl, hk.states, hk.records⟩
  | .after :: fs =>
    obtain ⟨e1, e2⟩ := hx' fs
    simp only [e1]
    exact ⟨trivial, e2⟩

theorem allocState (s : SState) : Ref (zAllocState s) (Verif.allocState s) := by
  intro h hk
  refine ⟨?_, ?_, hk.records⟩
  · simp only [Verif.allocState, zAllocState, ZWorld.abs]
    rw [upd_map, SCell.fresh_value]
  · intro p
    simp only [zAllocState]
    by_cases hp : p = h.nextState
    · rw [hp, upd_same]; exact SCell.fresh_ok _ _
    · rw [upd_ne _ _ hp]; exact hk.states p

theorem allocRecord (c : ZRecordCell) (d : RecordCell) (h1 : c.current = d.current) (h2 : c.previous.Shows d.previous) : Ref (zAllocRecord c) (Verif.allocRecord d) := by
  intro h hk
  obtain ⟨dc, dp⟩ := d
  simp only at h1 h2
  subst h1
  refine ⟨?_, hk.states, ?_⟩
  · simp only [Verif.allocRecord, zAllocRecord, ZWorld.abs]
    rw [upd_map (g := fun c : ZRecordCell => ({ current := c.current, previous := c.previous.live } : RecordCell)), h2.live]
  · intro p
    simp only [zAllocRecord]
    by_cases hp : p = h.nextRecord
    · rw [hp, upd_same]; exact h2.self
    · rw [upd_ne _ _ hp]; exact hk.records p

theorem readState (p : Nat) : Ref (zReadState p) (Verif.readState p) := fun _ hk => ⟨rfl, hk⟩

theorem getState {α} (p : Nat) (f : SState → Res α) : Ref (zGetState p f) (Verif.getState p f) := .bind (readState p) fun _ => .lift _

theorem getRecord {α} (r : Nat) (f : Record → Res α) : Ref (zGetRecord r f) (Verif.getRecord r f) := by
  intro h hk
  exact ⟨rfl, hk⟩

theorem readRecord {α} (r : Nat) {f : ZRecordCell → M ZWorld α} {g : RecordCell → M HWorld α}
    (hf : ∀ c d, c.current = d.current → c.previous.Shows d.previous → Ref (f c) (g d)) : Ref (zReadRecord r >>= f) (Verif.readRecord r >>= g) :=
  fun h hk => hf (h.records r) (h.abs.records r) rfl (hk.records r) h hk

theorem writeRecord (r : Nat) (c : ZRecordCell) (d : RecordCell) (h1 : c.current = d.current) (h2 : c.previous.Shows d.previous) : Ref (zWriteRecord r c) (Verif.writeRecord r d) := by
  intro h hk
  obtain ⟨dc, dp⟩ := d
  simp only at h1 h2
  subst h1
  refine ⟨?_, hk.states, ?_⟩
  · simp only [Verif.writeRecord, zWriteRecord, ZWorld.abs]
    rw [upd_map (g := fun c : ZRecordCell => ({ current := c.current, previous := c.previous.live } : RecordCell)), h2.live]
  · intro p
    simp only [zWriteRecord]
    by_cases hp : p = r
    · rw [hp, upd_same]; exact h2.self
    · rw [upd_ne _ _ hp]; exact hk.records p

theorem writeCell {h : ZWorld} (hk : h.Ok) (p : Nat) {c : SCell} (hc : c.Ok) : (zWriteCell p c h).2.Ok ∧ (zWriteCell p c h).2.abs = { h.abs with states := upd h.abs.states p c.value } := by
  refine ⟨⟨fun q => ?_, hk.records⟩, ?_⟩
  · simp only [zWriteCell]
    by_cases hp : q = p
    · rw [hp, upd_same]; exact hc
    · rw [upd_ne _ _ hp]; exact hk.states q
  · simp only [zWriteCell, ZWorld.abs]
    rw [upd_map]

theorem changeFields (p : Nat) (f : SState → SState) (hf : ∀ s x, f { s with receiverChains := x } = { f s with receiverChains := x }) : Ref (zChangeFields p f) (Verif.changeState p f) := by
  intro h hk
  have hc : ({ (h.states p) with fields := f (h.states p).fields } : SCell).Ok := ⟨(hk.states p).chains, (hk.states p).keys⟩
  obtain ⟨e1, e2⟩ := writeCell hk p hc
  refine ⟨?_, e1⟩
  show ((.ok () : Res Unit), ({ h.abs with states := upd h.abs.states p (f (h.abs.states p)) } : HWorld)) = (.ok (), (zWriteCell p _ h).2.abs)
  rw [e2, show f (h.abs.states p) = ({ (h.states p) with fields := f (h.states p).fields } : SCell).value from hf _ _]

theorem changeChains (p : Nat) (f : (Nat → Nat) → SCell → Res SCell) (g : SState → Res SState)
    (hfg : ∀ grow c, c.Ok → match f grow c with | .ok c' => c'.Ok ∧ g c.value = .ok c'.value | .err e => g c.value = .err e | .panic => False) :
    Ref (zChangeChains p f) (Verif.changeState? p g) := by
  intro h hk
  have := hfg h.grow (h.states p) (hk.states p)
  show (Verif.readState p >>= fun s => M.lift (g s) >>= fun s' => Verif.writeState p s') h.abs = _ ∧ _
  rw [M.bind_ok_run (show Verif.readState p h.abs = (.ok (h.states p).value, h.abs) from rfl), M.bind_run, M.lift_run]
  have e0 : zChangeChains p f h = (M.lift (f h.grow (h.states p)) >>= fun c' => zWriteCell p c') h := rfl
  rw [e0, M.bind_run, M.lift_run]
  cases hf : f h.grow (h.states p) with
  | ok c' =>
    rw [hf] at this
    obtain ⟨h1, h2⟩ := this
    obtain ⟨e1, e2⟩ := writeCell hk p h1
    rw [h2]
    refine ⟨?_, e1⟩
    show ((.ok () : Res Unit), ({ h.abs with states := upd h.abs.states p c'.value } : HWorld)) = (.ok (), (zWriteCell p c' h).2.abs)
    rw [e2]
  | err e =>
    rw [hf] at this
    rw [this]
    exact ⟨rfl, hk⟩
  | panic =>
    rw [hf] at this
    exact this.elim

/-- A setter of the chains that does not fail. -/
theorem changeChains' (p : Nat) (f : (Nat → Nat) → SCell → Res SCell) (g : SState → SState) (hfg : ∀ grow c, c.Ok → ∃ c', f grow c = .ok c' ∧ c'.Ok ∧ c'.value = g c.value) :
    Ref (zChangeChains p f) (Verif.changeState p g) := by
  have h1 : Ref (zChangeChains p f) (Verif.changeState? p fun s => .ok (g s)) := by
    refine changeChains p f _ fun grow c hc => ?_
    obtain ⟨c', e1, e2, e3⟩ := hfg grow c hc
    rw [e1]
    exact ⟨e2, by rw [e3]⟩
  exact h1

theorem clone (p : Nat) : Ref (zClone p) (hClone p) := .bind (readState p) fun s => allocState s

theorem copyRecord (r : Nat) : Ref (zCopyRecord r) (Verif.copyRecord r) := by
  refine .getLeft fun h hk => .readRecord r fun c d e1 e2 => ?_
  have hs := (PtrSlice.ofList_lays h.grow c.previous.live).shows
  rw [← e1]
  rw [e2.live] at hs ⊢
  cases hc : c.current with
  | none => exact allocRecord _ _ (by rw [← e1, hc]) hs
  | some p => exact .bind (clone p) fun q => allocRecord _ _ rfl hs

theorem loadSession (E : HEnv) (a : Address) : Ref (zLoadSession E a) (hLoadSession E a) := by
  refine .storeCall (.get fun h hk => ?_)
  rw [show h.abs.store a = h.store a from rfl]
  cases h.store a with
  | none => exact .pure _
  | some r =>
    simp only
    split
    · exact .pure _
    · exact .bind (copyRecord r) fun _ => .pure _

theorem storeSession (E : HEnv) (a : Address) (r : Nat) : Ref (zStoreSession E a r) (hStoreSession E a r) := by
  have key : ∀ p, Ref (M.modify fun h : ZWorld => { h with store := upd h.store a (some p) }) (M.modify fun h : HWorld => { h with store := upd h.store a (some p) }) :=
    fun p h hk => ⟨rfl, hk.states, hk.records⟩
  refine .storeCall ?_
  simp only
  split
  · exact .bind (copyRecord r) key
  · exact .bind (.pure _) key

theorem setSessionState (r p : Nat) : Ref (zSetSessionState r p) (hSetSessionState r p) :=
  .readRecord r fun _ _ _ e2 => writeRecord r _ _ rfl e2

theorem archiveCurrentState (r : Nat) : Ref (zArchiveCurrentState r) (hArchiveCurrentState r) := by
  refine .getLeft fun h hk => .readRecord r fun c d e1 e2 => ?_
  rw [← e1]
  cases hc : c.current with
  | none => exact .pure _
  | some p =>
    refine .bind (readState p) fun s => ?_
    rw [e2.length]
    have key : ∃ s', (if d.previous.length ≥ maxArchivedStates then c.previous.tail else .ok c.previous) = .ok s' ∧ s'.Shows (if d.previous.length ≥ maxArchivedStates then d.previous.drop 1 else d.previous) := by
      by_cases hn : d.previous.length ≥ maxArchivedStates
      · rw [if_pos hn, if_pos hn]
        have hm : maxArchivedStates = 40 := rfl
        obtain ⟨s', f1, f2, f3⟩ := PtrSlice.tail_ok (s := c.previous) (by rw [e2.length]; omega) e2.fits
        exact ⟨s', f1, f3, by rw [f2, e2.items, List.map_drop]⟩
      · rw [if_neg hn, if_neg hn]
        exact ⟨_, rfl, e2⟩
    obtain ⟨s', f1, f2⟩ := key
    rw [f1]
    exact writeRecord r { current := some p, previous := s'.append h.grow [some s.marshal] } { current := some p, previous := (if d.previous.length ≥ maxArchivedStates then d.previous.drop 1 else d.previous) ++ [s.marshal] } rfl (f2.append h.grow _)

theorem promoteState (r p : Nat) : Ref (zPromoteState r p) (hPromoteState r p) := .bind (archiveCurrentState r) fun _ => setSessionState r p

theorem promoteOldState (r idx p : Nat) : Ref (zPromoteOldState r idx p) (hPromoteOldState r idx p) := by
  refine .getLeft fun h hk => .readRecord r fun c d e1 e2 => ?_
  rw [e2.length]
  split
  · exact .pure _
  · next hi =>
    obtain ⟨s1, s2, f1, f2, f3⟩ := e2.nilCut h.grow (i := idx) (by omega)
    rw [f1]
    show Ref (M.lift (s1.cut h.grow idx) >>= _) _
    rw [f2]
    rw [← List.eraseIdx_eq_take_drop_succ]
    show Ref (zWriteRecord r { c with previous := s2 } >>= fun _ => zPromoteState r p) _
    exact .bind (writeRecord r { c with previous := s2 } { d with previous := d.previous.eraseIdx idx } e1 f3) fun _ => promoteState r p

theorem allocStates : ∀ ss : List SState, Ref (zAllocStates ss) (Verif.allocStates ss)
  | [] => .pure _
  | s :: ss => .bind (allocState s) fun _ => .bind (allocStates ss) fun _ => .pure _

theorem takeMessageKeys (p : Nat) (sender : PubKey) (n : UInt32) : Ref (zTakeMessageKeys p sender n) (hTakeMessageKeys p sender n) := by
  intro h hk
  have ht := SCell.takeMessageKeys_ok h.grow (hk.states p) sender n
  have e0 : zTakeMessageKeys p sender n h = (M.lift ((h.states p).takeMessageKeys h.grow sender n) >>= fun q => zWriteCell p q.2 >>= fun _ =>
      match q.1 with
      | none => Pure.pure none
      | some k => M.lift (newMessageKeys k.cipherKey k.macKey k.iv n) >>= fun mk => Pure.pure (some mk)) h := rfl
  have hrc := (hk.states p).receiverChain sender
  rw [e0]
  have e1 : hTakeMessageKeys p sender n h.abs = ((match (h.states p).value.receiverChain sender with
      | none => Pure.pure none
      | some (idx, chain) => do
        writeState p { (h.states p).value with receiverChains := (h.states p).value.receiverChains.set idx { chain with messageKeys := chain.messageKeys.filter fun k => k.index ≠ n } }
        match (chain.messageKeys.filter fun k => k.index = n).getLast? with
        | none => return none
        | some k =>
          let mk ← M.lift (newMessageKeys k.cipherKey k.macKey k.iv n)
          return some mk) : M HWorld (Option MessageKeys)) h.abs := rfl
  rw [e1, hrc]
  cases hr : (h.states p).receiverChain sender with
  | none =>
    rw [hr] at ht
    simp only at ht
    rw [ht, M.bind_run, M.lift_run]
    simp only [Option.map_none]
    obtain ⟨f1, f2⟩ := writeCell hk p (hk.states p)
    have : upd h.states p (h.states p) = h.states := by
      funext q
      unfold upd
      split
      · next hq => rw [hq]
      · rfl
    have hw : zWriteCell p (h.states p) h = (.ok (), h) := by
      unfold zWriteCell
      rw [this]
    rw [M.bind_ok_run hw]
    exact ⟨rfl, hk⟩
  | some q =>
    obtain ⟨idx, d⟩ := q
    rw [hr] at ht
    obtain ⟨filtered, chains, g1, g2, _, _, g5⟩ := ht
    rw [g1, M.bind_run, M.lift_run]
    simp only [Option.map_some]
    obtain ⟨f1, f2⟩ := writeCell hk p g2
    have hw : zWriteCell p { (h.states p) with chains := chains } h = (.ok (), (zWriteCell p { (h.states p) with chains := chains } h).2) := rfl
    have hw2 : writeState p { (h.states p).value with receiverChains := (h.states p).value.receiverChains.set idx { d.value with messageKeys := d.value.messageKeys.filter fun k => k.index ≠ n } } h.abs =
        (.ok (), (zWriteCell p { (h.states p) with chains := chains } h).2.abs) := by
      rw [f2, g5]
      rfl
    rw [M.bind_ok_run hw, M.bind_ok_run hw2]
    revert f1
    generalize (zWriteCell p { (h.states p) with chains := chains } h).2 = h'
    intro f1
    rw [show d.value.messageKeys = d.keys.live from rfl]
    cases (d.keys.live.filter fun k => k.index = n).getLast? with
    | none => exact ⟨rfl, f1⟩
    | some k => exact Ref.bind (.lift (newMessageKeys k.cipherKey k.macKey k.iv n)) (fun _ => .pure _) h' f1

theorem chainKey (C : Crypto) (p : Nat) (k : PubKey) : Ref (zChainKey C p k) (hChainKey C p k) := by
  refine .bind (getState p _) fun o => ?_
  cases o with
  | some ck => exact .pure _
  | none =>
    refine .bind (getState p _) fun rootKey => .bind (getState p _) fun ours => .bind (.lift _) fun q => ?_
    obtain ⟨rr, rc⟩ := q
    refine .bind (.rest _) fun pair => .bind (.lift _) fun q => ?_
    obtain ⟨sr, sc⟩ := q
    refine .bind (getState p _) fun cur => .bind (changeFields p _ fun _ _ => rfl) fun _ => .bind (changeChains' p _ _ fun grow c hc => ?_) fun _ =>
      .bind (changeFields p _ fun _ _ => rfl) fun _ => .bind (changeFields p _ fun _ _ => rfl) fun _ => .pure _
    obtain ⟨c', e1, e2, e3, _⟩ := SCell.addReceiverChain_ok grow hc k rc
    exact ⟨c', e1, e2, e3⟩

theorem skipLoop (C : Crypto) (p : Nat) (k : PubKey) (n : UInt32) : ∀ (fuel : Nat) (ck : ChainKey), Ref (zSkipLoop C p k n fuel ck) (hSkipLoop C p k n fuel ck)
  | 0, _ => .pure _
  | fuel + 1, ck => by
    unfold zSkipLoop hSkipLoop
    split
    · refine .bind (changeChains p _ _ fun grow c hc => ?_) fun _ => skipLoop C p k n fuel _
      have := SCell.setMessageKeys_ok grow hc k (ck.messageKeys C)
      revert this
      cases c.setMessageKeys grow k (ck.messageKeys C) with
      | ok c' => exact fun h => ⟨h.1, h.2.1⟩
      | err e => exact fun h => h
      | panic => exact fun h => h
    · exact .pure _

theorem messageKeys (C : Crypto) (p : Nat) (k : PubKey) (ck : ChainKey) (n : UInt32) : Ref (zMessageKeys C p k ck n) (hMessageKeys C p k ck n) := by
  unfold zMessageKeys hMessageKeys
  split
  · refine .bind (takeMessageKeys p k n) fun o => ?_
    cases o with
    | none => exact .throw _
    | some mk => exact .pure _
  · have key : Ref (zSkipLoop C p k n (n.toNat - ck.index.toNat) ck >>= fun ck => zChangeChains p (fun _ c => c.setReceiverChainKey k ck) >>= fun _ => Pure.pure (ck.messageKeys C))
        (hSkipLoop C p k n (n.toNat - ck.index.toNat) ck >>= fun ck => changeState? p (fun s => s.setReceiverChainKey k ck) >>= fun _ => Pure.pure (ck.messageKeys C)) := by
      refine .bind (skipLoop C p k n _ ck) fun ck' => .bind (changeChains p _ _ fun grow c hc => ?_) fun _ => .pure _
      have := SCell.setReceiverChainKey_ok hc k ck'
      revert this
      cases c.setReceiverChainKey k ck' with
      | ok c' => exact fun h => ⟨h.1, h.2.1⟩
      | err e => exact fun h => h
      | panic => exact fun h => h
    simp only
    split
    · refine .bind (getState p _) fun b => ?_
      cases b
      · exact .bind (.throw _) fun _ => key
      · exact key
    · exact key

theorem decryptMessageSession (C : Crypto) (p : Nat) (m : Signal) : Ref (zDecryptMessageSession C p m) (hDecryptMessageSession C p m) := by
  refine .bind (readState p) fun s => ?_
  cases s.senderChain with
  | none => exact .throw _
  | some _ =>
    simp only
    split
    · exact .throw _
    · refine .bind (chainKey C p _) fun ck => .bind (messageKeys C p _ ck _) fun mk => .bind (getState p _) fun o => ?_
      cases o with
      | none => exact .throw _
      | some k =>
        refine .bind (getState p _) fun lk => .bind (.lift _) fun v => ?_
        cases v
        · exact .throw _
        · exact .bind (.lift _) fun pt => .bind (changeFields p _ fun _ _ => rfl) fun _ => .pure _

theorem tryPrevious (C : Crypto) (m : Signal) : ∀ (ps : List Nat) (i : Nat) (f : Option (Nat × Nat × Bytes)), Ref (zTryPrevious C m ps i f) (hTryPrevious C m ps i f)
  | [], _, _ => .pure _
  | p :: ps, i, f => by
    refine .bind (.attempt (decryptMessageSession C p m)) fun o => ?_
    cases o with
    | ok pt => exact tryPrevious C m ps (i + 1) _
    | error e =>
      cases e <;> first
        | exact .throw _
        | exact tryPrevious C m ps (i + 1) f

theorem decryptPrevious (C : Crypto) (r : Nat) (m : Signal) : Ref (zDecryptPrevious C r m) (hDecryptPrevious C r m) := by
  refine .bind (getRecord r _) fun ss => .bind (allocStates ss) fun ps => .bind (tryPrevious C m ps 0 none) fun o => ?_
  cases o with
  | none => exact .throw _
  | some q => exact .bind (promoteOldState r q.1 q.2.1) fun _ => .pure _

theorem decryptRecord (C : Crypto) (r : Nat) (m : Signal) : Ref (zDecryptRecord C r m) (hDecryptRecord C r m) := by
  refine .readRecord r fun c d e1 _ => ?_
  rw [← e1]
  cases c.current with
  | none => exact decryptPrevious C r m
  | some p =>
    refine .bind (clone p) fun q => .bind (.attempt (decryptMessageSession C q m)) fun o => ?_
    cases o with
    | ok pt => exact .bind (setSessionState r q) fun _ => .pure _
    | error e =>
      cases e <;> first
        | exact .throw _
        | exact decryptPrevious C r m

theorem encryptMessage (E : HEnv) (a : Address) (pt : Bytes) : Ref (zEncryptMessage E a pt) (hEncryptMessage E a pt) := by
  refine .bind (loadSession E a) fun o => ?_
  cases o with
  | none => exact .throw _
  | some r =>
    refine .readRecord r fun c d e1 _ => ?_
    rw [← e1]
    cases c.current with
    | none => exact .throw _
    | some p =>
      refine .bind (getState p _) fun q => ?_
      obtain ⟨msg, next, k⟩ := q
      refine .bind (changeFields p _ fun s x => ?_) fun _ => .bind (.rest _) fun t => ?_
      · unfold SState.setSenderChainKey
        cases s.senderChain <;> rfl
      · cases t
        · exact .throw _
        · exact .bind (.rest _) fun _ => .bind (storeSession E a r) fun _ => .pure _

theorem processPreKeyV3 (E : HEnv) (r : Nat) (m : PreKeyMsg) : Ref (zProcessPreKeyV3 E r m) (hProcessPreKeyV3 E r m) := by
  refine .bind (getRecord r _) fun found => ?_
  cases found
  · refine .bind (.rest _) fun sk => ?_
    cases m.preKeyID with
    | none =>
      exact .bind (.pure _) fun ok => .get fun h hk => .bind (.lift _) fun s => .bind (allocState s) fun p =>
        .bind (changeFields p _ fun _ _ => rfl) fun _ => .bind (changeFields p _ fun _ _ => rfl) fun _ => .bind (changeFields p _ fun _ _ => rfl) fun _ =>
        .bind (promoteState r p) fun _ => .pure _
    | some id =>
      exact .bind (.rest _) fun ok => .get fun h hk => .bind (.lift _) fun s => .bind (allocState s) fun p =>
        .bind (changeFields p _ fun _ _ => rfl) fun _ => .bind (changeFields p _ fun _ _ => rfl) fun _ => .bind (changeFields p _ fun _ _ => rfl) fun _ =>
        .bind (promoteState r p) fun _ => .pure _
  · exact .pure _

theorem processPreKey (E : HEnv) (a : Address) (r : Nat) (m : PreKeyMsg) : Ref (zProcessPreKey E a r m) (hProcessPreKey E a r m) := by
  refine .bind (.rest _) fun t => ?_
  cases t
  · exact .throw _
  · exact .bind (processPreKeyV3 E r m) fun _ => .bind (.rest _) fun _ => .pure _

theorem loadOrNew (E : HEnv) (a : Address) : Ref (zLoadOrNew E a) (hLoadOrNew E a) := by
  refine .bind (loadSession E a) fun o => ?_
  cases o with
  | none => exact allocRecord _ _ rfl (PtrSlice.make_lays _).shows
  | some r => exact .pure _

theorem decryptPreKey (E : HEnv) (a : Address) (m : PreKeyMsg) : Ref (zDecryptPreKey E a m) (hDecryptPreKey E a m) := by
  refine .bind (loadOrNew E a) fun r => .bind (processPreKey E a r m) fun id => .bind (decryptRecord E.C r m.message) fun pt => .bind (storeSession E a r) fun _ => ?_
  cases id with
  | none => exact .pure _
  | some id => exact .bind (.rest _) fun _ => .pure _

theorem decryptSignal (E : HEnv) (a : Address) (m : Signal) : Ref (zDecryptSignal E a m) (hDecryptSignal E a m) := by
  refine .bind (loadSession E a) fun o => ?_
  cases o with
  | none => exact .throw _
  | some r =>
    refine .bind (.attempt (decryptRecord E.C r m)) fun out => .readRecord r fun c d e1 _ => ?_
    rw [← e1]
    cases c.current with
    | none => exact .throw _
    | some p =>
      refine .bind (readState p) fun s => ?_
      cases s.remoteIdentityKey with
      | ok o =>
        cases o with
        | none => exact .throw _
        | some k =>
          refine .bind (.rest _) fun t => ?_
          cases t
          · exact .throw _
          · exact .bind (.rest _) fun _ => .bind (storeSession E a r) fun _ => .pure _
      | err e => exact .throw _
      | panic => exact .panic

theorem decryptMessage (E : HEnv) (a : Address) (c : Ciphertext) : Ref (zDecryptMessage E a c) (hDecryptMessage E a c) := by
  cases c with
  | preKey m => exact .bind (decryptPreKey E a m) fun _ => .pure _
  | signal m => exact decryptSignal E a m
  | _ => exact .throw _

theorem processPreKeyBundle (E : HEnv) (a : Address) (b : Bundle) : Ref (zProcessPreKeyBundle E a b) (hProcessPreKeyBundle E a b) := by
  refine .bind (.rest _) fun t => ?_
  cases t
  · exact .throw _
  · refine .bind (.lift _) fun ok => ?_
    cases ok
    · exact .throw _
    · exact .bind (loadOrNew E a) fun r => .bind (.rest _) fun base => .get fun h hk => .bind (.rest _) fun s => .bind (allocState s) fun p =>
        .bind (changeFields p _ fun _ _ => rfl) fun _ => .bind (changeFields p _ fun _ _ => rfl) fun _ => .bind (changeFields p _ fun _ _ => rfl) fun _ =>
        .bind (changeFields p _ fun _ _ => rfl) fun _ => .bind (.rest _) fun _ => .bind (promoteState r p) fun _ => storeSession E a r

end Ref

/-! ## Histories -/

theorem ZWorld.start_abs (grow : Nat → Nat) (w : World) : (ZWorld.start grow w).abs = HWorld.start w := rfl

theorem ZWorld.start_ok (grow : Nat → Nat) (w : World) : (ZWorld.start grow w).Ok :=
  ⟨fun _ => ⟨PtrSlice.empty_clean, fun d hd => by cases hd⟩, fun _ => PtrSlice.empty_clean.shows⟩

theorem call_ref (E : HEnv) (c : Call) {h : ZWorld} (hk : h.Ok) : c.heapRun E h.abs = ((c.sliceRun E h).1, (c.sliceRun E h).2.abs) ∧ (c.sliceRun E h).2.Ok := by
  obtain ⟨op, rand, faults⟩ := c
  have hk1 : ({ h with rest := { h.rest with rand := rand, faults := faults } } : ZWorld).Ok := ⟨hk.states, hk.records⟩
  cases op with
  | encrypt a pt =>
    obtain ⟨e1, e2⟩ := Ref.encryptMessage E a pt _ hk1
    refine ⟨?_, e2⟩
    show ((Out.of (.ciphertext a) (hEncryptMessage E a pt _).1, (hEncryptMessage E a pt _).2) : Out × HWorld) = _
    exact congrArg (fun q : Res Ciphertext × HWorld => (Out.of (.ciphertext a) q.1, q.2)) e1
  | decrypt a m =>
    obtain ⟨e1, e2⟩ := Ref.decryptMessage E a m _ hk1
    refine ⟨?_, e2⟩
    exact congrArg (fun q : Res (Option Bytes) × HWorld => (Out.of (.plaintext a) q.1, q.2)) e1
  | bundle a b =>
    obtain ⟨e1, e2⟩ := Ref.processPreKeyBundle E a b _ hk1
    refine ⟨?_, e2⟩
    exact congrArg (fun q : Res Unit × HWorld => (Out.of (fun _ => .done) q.1, q.2)) e1
  | addPreKey id k => exact ⟨rfl, hk.states, hk.records⟩
  | addSignedPreKey id k => exact ⟨rfl, hk.states, hk.records⟩

theorem sliceRun_ref (E : HEnv) : ∀ (cs : List Call) {h : ZWorld}, h.Ok → heapRun E (cs.map .call) h.abs = ((sliceRun E cs h).1, (sliceRun E cs h).2.abs) ∧ (sliceRun E cs h).2.Ok
  | [], _, hk => ⟨rfl, hk⟩
  | c :: cs, h, hk => by
    obtain ⟨e1, e2⟩ := call_ref E c hk
    obtain ⟨f1, f2⟩ := sliceRun_ref E cs e2
    refine ⟨?_, f2⟩
    show (((c.heapRun E h.abs).1 :: (heapRun E (cs.map .call) (c.heapRun E h.abs).2).1, (heapRun E (cs.map .call) (c.heapRun E h.abs).2).2) : List Out × HWorld) = _
    rw [e1]
    simp only
    rw [f1]
    rfl

theorem calls_map_call : ∀ cs : List Call, calls (cs.map .call) = cs
  | [] => rfl
  | c :: cs => by
    show c :: calls (cs.map .call) = _
    rw [calls_map_call cs]

theorem sliceRun_sim (E : HEnv) (grow : Nat → Nat) (w : World) (hw : w.NoSessions) (cs : List Call) :
    (sliceRun E cs (.start grow w)).1 = (runCalls E.toEnv cs w).1 ∧ (sliceRun E cs (.start grow w)).2.values = (runCalls E.toEnv cs w).2 ∧ (sliceRun E cs (.start grow w)).2.Ok := by
  obtain ⟨e1, e2⟩ := sliceRun_ref E cs (ZWorld.start_ok grow w)
  obtain ⟨f1, f2, _⟩ := heapRun_hsim E (cs.map .call) (HWorld.start_sound w)
  rw [ZWorld.start_abs] at e1
  rw [HWorld.start_values hw, calls_map_call] at f1 f2
  rw [e1] at f1 f2
  exact ⟨f1, f2, e2⟩

end Verif
