import Verif.Proofs.SessionHidden

/-!
What stays hidden over histories.
-/

namespace Verif

/-- The state has been allocated and no record points to it. -/
def ZWorld.Free (h : ZWorld) (p : Nat) : Prop := p < h.nextState ∧ ∀ r, (h.records r).current ≠ some p

/-- What holds between any two steps; `w` is the record that the call works on. -/
structure ZInv (E : HEnv) (w : Option Nat) (h : ZWorld) : Prop where
  ok : h.Ok
  wf : ∀ r, (h.view r).WF
  linked : ∀ r p, (h.records r).current = some p → p < h.nextState ∧ (h.states p).hiddenKeys.length ≤ 1
  prev : ∀ r, (h.records r).previous.Clean ∨ maxArchivedStates ≤ (h.records r).previous.len
  empty : ∀ r, (h.records r).current = none → (h.records r).previous.live = []
  stored : ∀ a r, h.store a = some r → r < h.nextRecord
  serial : E.Serialises → ∀ a r, h.store a = some r → (h.records r).previous.Clean ∧ ∀ p, (h.records r).current = some p → (h.states p).KeysClean
  work : ∀ r, w = some r → r < h.nextRecord ∧ (E.Serialises → ∀ a, h.store a ≠ some r)

theorem ZInv.forget {E : HEnv} {w : Option Nat} {h : ZWorld} (hi : ZInv E w h) : ZInv E none h := ⟨hi.ok, hi.wf, hi.linked, hi.prev, hi.empty, hi.stored, hi.serial, fun _ hr => by cases hr⟩

theorem ZInv.rest {E : HEnv} {w : Option Nat} {h : ZWorld} (hi : ZInv E w h) (x : World) : ZInv E w { h with rest := x } :=
  ⟨⟨hi.ok.states, hi.ok.records⟩, hi.wf, hi.linked, hi.prev, hi.empty, hi.stored, hi.serial, hi.work⟩

/-- From `h`, `x` keeps `ZInv`, and `Q` holds of its result. -/
def ZKeeps {α} (E : HEnv) (w : Option Nat) (h : ZWorld) (x : M ZWorld α) (Q : α → ZWorld → Prop) : Prop := ZInv E w (x h).2 ∧ ∀ v, (x h).1 = .ok v → Q v (x h).2

namespace ZKeeps

variable {E : HEnv} {w : Option Nat} {h : ZWorld}

theorem bind {α β} {x : M ZWorld α} {f : α → M ZWorld β} {Q : α → ZWorld → Prop} {R : β → ZWorld → Prop} (hx : ZKeeps E w h x Q) (hf : ∀ v h', ZInv E w h' → Q v h' → ZKeeps E w h' (f v) R) :
    ZKeeps E w h (x >>= f) R := by
  obtain ⟨h1, h2⟩ := hx
  unfold ZKeeps
  rw [M.bind_run]
  rcases hr : x h with ⟨r, h'⟩
  rw [hr] at h1 h2
  cases r with
  | ok v => exact hf v h' h1 (h2 v rfl)
  | err e => exact ⟨h1, fun v hv => by cases hv⟩
  | panic => exact ⟨h1, fun v hv => by cases hv⟩

theorem pure {α} {v : α} {Q : α → ZWorld → Prop} (hi : ZInv E w h) (hq : Q v h) : ZKeeps E w h (Pure.pure v) Q := ⟨hi, fun u hu => by cases hu; exact hq⟩
theorem throw {α} {e : Err} {Q : α → ZWorld → Prop} (hi : ZInv E w h) : ZKeeps E w h (M.throw e) Q := ⟨hi, fun u hu => by cases hu⟩
theorem panic {α} {Q : α → ZWorld → Prop} (hi : ZInv E w h) : ZKeeps E w h M.panic Q := ⟨hi, fun u hu => by cases hu⟩
theorem lift {α} {r : Res α} (hi : ZInv E w h) : ZKeeps E w h (M.lift r) (fun v h' => r = .ok v ∧ h' = h) := ⟨hi, fun _ hu => ⟨hu, rfl⟩⟩
theorem get (hi : ZInv E w h) : ZKeeps E w h M.get (fun v h' => v = h ∧ h' = h) := ⟨hi, fun _ hu => by cases hu; exact ⟨rfl, rfl⟩⟩
theorem readState {p : Nat} (hi : ZInv E w h) : ZKeeps E w h (zReadState p) (fun v h' => v = (h.states p).value ∧ h' = h) := ⟨hi, fun _ hu => by cases hu; exact ⟨rfl, rfl⟩⟩
theorem readRecord {r : Nat} (hi : ZInv E w h) : ZKeeps E w h (zReadRecord r) (fun v h' => v = h.records r ∧ h' = h) := ⟨hi, fun _ hu => by cases hu; exact ⟨rfl, rfl⟩⟩
theorem getState {α} {p : Nat} {f : SState → Res α} (hi : ZInv E w h) : ZKeeps E w h (zGetState p f) (fun v h' => f (h.states p).value = .ok v ∧ h' = h) := ⟨hi, fun _ hu => ⟨hu, rfl⟩⟩
theorem getRecord {α} {r : Nat} {f : Record → Res α} (hi : ZInv E w h) : ZKeeps E w h (zGetRecord r f) (fun v h' => f (h.view r) = .ok v ∧ h' = h) := ⟨hi, fun _ hu => ⟨hu, rfl⟩⟩
theorem rest {α} {x : M World α} (hi : ZInv E w h) : ZKeeps E w h (zRest x) (fun v h' => ∃ y, x h.rest = (.ok v, y) ∧ h' = { h with rest := y }) :=
  ⟨hi.rest _, fun v hv => ⟨_, Prod.ext hv rfl, rfl⟩⟩

theorem mono {α} {x : M ZWorld α} {Q R : α → ZWorld → Prop} (hx : ZKeeps E w h x Q) (hi : ∀ v h', Q v h' → R v h') : ZKeeps E w h x R := ⟨hx.1, fun v hv => hi _ _ (hx.2 v hv)⟩

theorem inv {α} {x : M ZWorld α} {Q : α → ZWorld → Prop} (hx : ZKeeps E w h x Q) : ZKeeps E w h x (fun v h' => Q v h' ∧ ZInv E w h') := ⟨hx.1, fun v hv => ⟨hx.2 v hv, hx.1⟩⟩

/-- The rest of the call need not keep what is known about the record that it works on. -/
theorem last {α β} {x : M ZWorld α} {f : α → M ZWorld β} {Q : α → ZWorld → Prop} {R : β → ZWorld → Prop} (hx : ZKeeps E w h x Q) (hf : ∀ v h', ZInv E w h' → Q v h' → ZKeeps E none h' (f v) R) :
    ZKeeps E none h (x >>= f) R := by
  obtain ⟨h1, h2⟩ := hx
  unfold ZKeeps
  rw [M.bind_run]
  rcases hr : x h with ⟨r, h'⟩
  rw [hr] at h1 h2
  cases r with
  | ok v => exact hf v h' h1 (h2 v rfl)
  | err e => exact ⟨h1.forget, fun v hv => by cases hv⟩
  | panic => exact ⟨h1.forget, fun v hv => by cases hv⟩

theorem attempt {α} {x : M ZWorld α} {Q : α → ZWorld → Prop} (hx : ZKeeps E w h x Q) : ZKeeps E w h (M.attempt x) (fun o h' => ∀ v, o = .ok v → Q v h') := by
  obtain ⟨h1, h2⟩ := hx
  unfold ZKeeps
  rw [M.attempt_run]
  rcases hr : x h with ⟨r, h'⟩
  rw [hr] at h1 h2
  refine ⟨h1, fun o ho v hv => ?_⟩
  subst hv
  cases r with
  | ok u =>
    simp only [Res.ok.injEq, Except.ok.injEq] at ho
    subst ho
    exact h2 _ rfl
  | err e => simp at ho
  | panic => cases ho

theorem storeCall {α} {x : M ZWorld α} {Q : α → ZWorld → Prop} (hi : ZInv E w h) (hx : ∀ y, ZKeeps E w { h with rest := y } x Q) : ZKeeps E w h (zStoreCall x) Q := by
  unfold ZKeeps zStoreCall
  split
  · exact hx h.rest
  · next fs _ => exact hx { h.rest with faults := fs }
  · exact ⟨hi.rest _, fun _ hv => by cases hv⟩
  · next fs _ => exact ⟨(hx { h.rest with faults := fs }).1, fun _ hv => by cases hv⟩

end ZKeeps

/-! ## Steps -/

variable {E : HEnv} {w : Option Nat} {h : ZWorld}

/-- Nothing that was there has changed. -/
structure Old (h h' : ZWorld) : Prop where
  store : h'.store = h.store
  records : ∀ r < h.nextRecord, h'.records r = h.records r
  nextRecord : h.nextRecord ≤ h'.nextRecord
  states : ∀ p < h.nextState, h'.states p = h.states p
  nextState : h.nextState ≤ h'.nextState

theorem ZInv.only {h' : ZWorld} {p : Nat} (hi : ZInv E w h) (hf : h.Free p) (ho : OnlyAt p h h') (hk : h'.Ok) : ZInv E w h' := by
  have hs : ∀ r q, (h.records r).current = some q → h'.states q = h.states q := fun r q hq => ho.states q fun he => hf.2 r (he ▸ hq)
  refine ⟨hk, fun r => ?_, fun r q hq => ?_, fun r => ?_, fun r hr => ?_, fun a r hr => ?_, fun hE a r hr => ?_, fun r hr => ?_⟩
  · have : h'.view r = h.view r := by
      unfold ZWorld.view
      rw [ho.records]
      cases hc : (h.records r).current with
      | none => rfl
      | some q => simp only [Option.map_some]; rw [hs r q hc]
    rw [this]
    exact hi.wf r
  · rw [ho.records] at hq
    rw [hs r q hq, ho.nextState]
    exact hi.linked r q hq
  · rw [ho.records]; exact hi.prev r
  · rw [ho.records] at hr ⊢; exact hi.empty r hr
  · rw [ho.store] at hr; rw [ho.nextRecord]; exact hi.stored a r hr
  · rw [ho.store] at hr
    rw [ho.records]
    refine ⟨(hi.serial hE a r hr).1, fun q hq => ?_⟩
    rw [hs r q hq]
    exact (hi.serial hE a r hr).2 q hq
  · rw [ho.nextRecord, ho.store]; exact hi.work r hr

theorem OnlyAt.free {h h' : ZWorld} {p q : Nat} (ho : OnlyAt p h h') (hf : h.Free q) : h'.Free q := by
  unfold ZWorld.Free
  rw [ho.nextState, ho.records]
  exact hf

theorem ZInv.allocState (hi : ZInv E w h) (s : SState) : ZKeeps E w h (zAllocState s) (fun p h' => p = h.nextState ∧
    h' = { h with states := upd h.states h.nextState (.fresh h.grow s), nextState := h.nextState + 1 } ∧ h'.Free p) := by
  have hs : ∀ r q, (h.records r).current = some q → upd h.states h.nextState (.fresh h.grow s) q = h.states q := fun r q hq => upd_ne _ _ (by have := (hi.linked r q hq).1; omega)
  refine ⟨?_, fun v hv => ?_⟩
  · refine ⟨(Ref.allocState s h hi.ok).2, fun r => ?_, fun r q hq => ?_, hi.prev, hi.empty, hi.stored, fun hE a r hr => ?_, hi.work⟩
    · have : (zAllocState s h).2.view r = h.view r := by
        unfold ZWorld.view zAllocState
        cases hc : (h.records r).current with
        | none => rfl
        | some q => simp only [Option.map_some]; rw [hs r q hc]
      rw [this]
      exact hi.wf r
    · have hq : (h.records r).current = some q := hq
      show q < h.nextState + 1 ∧ (upd h.states h.nextState (.fresh h.grow s) q).hiddenKeys.length ≤ 1
      rw [hs r q hq]
      exact ⟨by have := (hi.linked r q hq).1; omega, (hi.linked r q hq).2⟩
    · refine ⟨(hi.serial hE a r hr).1, fun q hq => ?_⟩
      show (upd h.states h.nextState (.fresh h.grow s) q).KeysClean
      rw [hs r q hq]
      exact (hi.serial hE a r hr).2 q hq
  · cases hv
    refine ⟨rfl, rfl, Nat.lt_succ_self _, fun r hr => ?_⟩
    have := (hi.linked r _ hr).1
    omega

/-- The record gets this state and these archived states. -/
theorem ZInv.link {r p : Nat} {s : PtrSlice Bytes} (hi : ZInv E w h) (hw : w = some r) (hp : h.Free p) (hh : (h.states p).hiddenKeys.length ≤ 1) (hs : s.Shows s.live)
    (hc : s.Clean ∨ maxArchivedStates ≤ s.len) (hv : ({ h with records := upd h.records r ⟨some p, s⟩ } : ZWorld).view r |>.WF) :
    ZInv E w { h with records := upd h.records r ⟨some p, s⟩ } := by
  obtain ⟨w1, w2⟩ := hi.work r hw
  have hcases : ∀ i, (i = r ∧ upd h.records r ⟨some p, s⟩ i = ⟨some p, s⟩) ∨ (i ≠ r ∧ upd h.records r ⟨some p, s⟩ i = h.records i) := by
    intro i
    by_cases hir : i = r
    · subst hir; exact .inl ⟨rfl, upd_same ..⟩
    · exact .inr ⟨hir, upd_ne _ _ hir⟩
  refine ⟨⟨hi.ok.states, fun i => ?_⟩, fun i => ?_, fun i q hq => ?_, fun i => ?_, fun i hq => ?_, hi.stored, fun hE a i hq => ?_, hi.work⟩
  · rcases hcases i with ⟨_, e⟩ | ⟨_, e⟩
    · simp only [e]; exact hs
    · simp only [e]; exact hi.ok.records i
  · by_cases hir : i = r
    · subst hir; exact hv
    · have : ({ h with records := upd h.records r ⟨some p, s⟩ } : ZWorld).view i = h.view i := by
        unfold ZWorld.view
        simp only [upd_ne _ _ hir]
      rw [this]
      exact hi.wf i
  · rcases hcases i with ⟨_, e⟩ | ⟨_, e⟩
    · simp only [e, Option.some.injEq] at hq
      subst hq
      exact ⟨hp.1, hh⟩
    · simp only [e] at hq; exact hi.linked i q hq
  · rcases hcases i with ⟨_, e⟩ | ⟨_, e⟩
    · simp only [e]; exact hc
    · simp only [e]; exact hi.prev i
  · rcases hcases i with ⟨_, e⟩ | ⟨_, e⟩
    · simp only [e] at hq; cases hq
    · simp only [e] at hq ⊢; exact hi.empty i hq
  · have hq : h.store a = some i := hq
    have hne : i ≠ r := fun he => w2 hE a (he ▸ hq)
    simp only [upd_ne _ _ hne]
    exact hi.serial hE a i hq

theorem ZWorld.view_abs (h : ZWorld) (r : Nat) : h.abs.view r = h.view r := rfl

theorem zSetSessionState_run (r p : Nat) (h : ZWorld) : zSetSessionState r p h = (.ok (), { h with records := upd h.records r ⟨some p, (h.records r).previous⟩ }) := rfl

theorem zPromoteState_run (hi : ZInv E w h) (r p : Nat) : ∃ s, zPromoteState r p h = (.ok (), { h with records := upd h.records r ⟨some p, s⟩ }) ∧ s.Shows s.live ∧ (s.Clean ∨ maxArchivedStates ≤ s.len) := by
  cases hc : (h.records r).current with
  | none =>
    have e1 : zArchiveCurrentState r h = (.ok (), h) := by
      unfold zArchiveCurrentState
      rw [M.bind_ok_run (show M.get h = (.ok h, h) from rfl), M.bind_ok_run (show zReadRecord r h = (.ok (h.records r), h) from rfl), hc]
      rfl
    refine ⟨(h.records r).previous, ?_, hi.ok.records r, hi.prev r⟩
    unfold zPromoteState
    rw [M.bind_ok_run e1, zSetSessionState_run]
  | some q =>
    obtain ⟨s1, f1, f2, f3⟩ := PtrSlice.archive_slice (hi.ok.records r) (hi.prev r) h.grow (h.states q).value.marshal
    have e1 : zArchiveCurrentState r h = (.ok (), { h with records := upd h.records r ⟨some q, s1.append h.grow [some (h.states q).value.marshal]⟩ }) := by
      unfold zArchiveCurrentState
      rw [M.bind_ok_run (show M.get h = (.ok h, h) from rfl), M.bind_ok_run (show zReadRecord r h = (.ok (h.records r), h) from rfl), hc]
      simp only
      rw [M.bind_ok_run (show zReadState q h = (.ok (h.states q).value, h) from rfl), M.bind_ok_run (show M.lift _ h = (.ok s1, h) from by rw [M.lift_run, f1])]
      show (Res.ok (), _) = _
      simp only [hc]
    refine ⟨_, ?_, f2, f3⟩
    unfold zPromoteState
    rw [M.bind_ok_run e1, zSetSessionState_run]
    simp only [upd_same, upd_twice]

theorem zPromoteOldState_run (hi : ZInv E w h) {r idx q : Nat} (p : Nat) (hidx : idx < (h.records r).previous.len) (hc : (h.records r).current = some q) :
    ∃ s, zPromoteOldState r idx p h = (.ok (), { h with records := upd h.records r ⟨some p, s⟩ }) ∧ s.Shows s.live ∧ (s.Clean ∨ maxArchivedStates ≤ s.len) := by
  obtain ⟨s1, s2, s3, f1, f2, f3, f4, f5⟩ := PtrSlice.old_slice (hi.ok.records r) (hi.prev r) (hi.wf r).count h.grow hidx (h.states q).value.marshal
  refine ⟨_, ?_, f4, f5⟩
  unfold zPromoteOldState
  rw [M.bind_ok_run (show M.get h = (.ok h, h) from rfl), M.bind_ok_run (show zReadRecord r h = (.ok (h.records r), h) from rfl), if_neg (by omega),
    M.bind_ok_run (show M.lift _ h = (.ok s1, h) from by rw [M.lift_run, f1]), M.bind_ok_run (show M.lift _ h = (.ok s2, h) from by rw [M.lift_run, f2])]
  rw [M.bind_ok_run (show zWriteRecord r _ h = (.ok (), { h with records := upd h.records r { h.records r with previous := s2 } }) from rfl)]
  have e1 : zArchiveCurrentState r { h with records := upd h.records r { h.records r with previous := s2 } } =
      (.ok (), { h with records := upd h.records r ⟨some q, s3.append h.grow [some (h.states q).value.marshal]⟩ }) := by
    unfold zArchiveCurrentState
    rw [M.bind_ok_run (show M.get _ = (.ok _, _) from rfl), M.bind_ok_run (show zReadRecord r _ = (.ok _, _) from rfl)]
    simp only [upd_same, hc]
    rw [M.bind_ok_run (show zReadState q { h with records := upd h.records r ⟨some q, s2⟩ } = (.ok (h.states q).value, { h with records := upd h.records r ⟨some q, s2⟩ }) from rfl),
      M.bind_run, M.lift_run, f3]
    show (Res.ok (), _) = _
    simp only [upd_twice]
  unfold zPromoteState
  rw [M.bind_ok_run e1, zSetSessionState_run]
  simp only [upd_same, upd_twice]

/-- After this the record points to this state. -/
def Linked (r p : Nat) (h : ZWorld) : Unit → ZWorld → Prop := fun _ h' => (h'.records r).current = some p ∧ h'.states = h.states

theorem ZInv.setSessionState {r p : Nat} (hi : ZInv E w h) (hw : w = some r) (hp : h.Free p) (hh : (h.states p).hiddenKeys.length ≤ 1) (hv : (h.states p).value.WF) :
    ZKeeps E w h (zSetSessionState r p) (Linked r p h) := by
  rw [ZKeeps, zSetSessionState_run]
  refine ⟨hi.link hw hp hh (hi.ok.records r) (hi.prev r) ?_, fun _ _ => ⟨by simp, rfl⟩⟩
  have : ({ h with records := upd h.records r ⟨some p, (h.records r).previous⟩ } : ZWorld).view r = (h.view r).setSessionState (h.states p).value := by
    simp [ZWorld.view, Record.setSessionState]
  rw [this]
  exact (hi.wf r).setSessionState hv

theorem ZInv.promoteState {r p : Nat} (hi : ZInv E w h) (hw : w = some r) (hp : h.Free p) (hh : (h.states p).hiddenKeys.length ≤ 1) (hv : (h.states p).value.WF) :
    ZKeeps E w h (zPromoteState r p) (fun u h' => Linked r p h u h' ∧ h'.view r = (h.view r).promoteState (h.states p).value) := by
  obtain ⟨s, e1, e2, e3⟩ := zPromoteState_run hi r p
  have hr := (Ref.promoteState r p h hi.ok).1
  obtain ⟨h', f1, _, _, _, f5⟩ := promoteState_run r p h.abs
  rw [f1, e1] at hr
  have hv2 : ({ h with records := upd h.records r ⟨some p, s⟩ } : ZWorld).view r = (h.view r).promoteState (h.states p).value := by
    have hh' : h' = ({ h with records := upd h.records r ⟨some p, s⟩ } : ZWorld).abs := congrArg Prod.snd hr
    rw [hh'] at f5
    exact f5
  rw [ZKeeps, e1]
  refine ⟨hi.link hw hp hh e2 e3 ?_, fun _ _ => ⟨⟨by simp, rfl⟩, hv2⟩⟩
  rw [hv2]
  exact (hi.wf r).promoteState hv

theorem ZInv.promoteOldState {r idx p : Nat} (hi : ZInv E w h) (hw : w = some r) (hidx : idx < (h.records r).previous.len) (hp : h.Free p) (hh : (h.states p).hiddenKeys.length ≤ 1) (hv : (h.states p).value.WF) :
    ZKeeps E w h (zPromoteOldState r idx p) (Linked r p h) := by
  have hlen : (h.records r).previous.live ≠ [] := by
    intro he
    have := (hi.ok.records r).length
    rw [he] at this
    simp at this
    omega
  cases hc : (h.records r).current with
  | none => exact absurd (hi.empty r hc) hlen
  | some q =>
    obtain ⟨s, e1, e2, e3⟩ := zPromoteOldState_run hi p hidx hc
    have hr := (Ref.promoteOldState r idx p h hi.ok).1
    obtain ⟨h', f1, _, _, _, f5⟩ := promoteOldState_run r idx p h.abs
    rw [f1, e1] at hr
    have hv2 : ({ h with records := upd h.records r ⟨some p, s⟩ } : ZWorld).view r = (h.view r).promoteOldState idx (h.states p).value := by
      have hh' : h' = ({ h with records := upd h.records r ⟨some p, s⟩ } : ZWorld).abs := congrArg Prod.snd hr
      rw [hh'] at f5
      exact f5
    rw [ZKeeps, e1]
    refine ⟨hi.link hw hp hh e2 e3 ?_, fun _ _ => ⟨by simp, rfl⟩⟩
    rw [hv2]
    exact (hi.wf r).promoteOldState idx hv

theorem ZInv.allocRecord (hi : ZInv E w h) {c : ZRecordCell} (hc : c.previous.Clean) (he : c.current = none → c.previous.live = [])
    (hl : ∀ p, c.current = some p → p < h.nextState ∧ (h.states p).hiddenKeys.length ≤ 1)
    (hv : ({ current := c.current.map fun p => (h.states p).value, previous := c.previous.live } : Record).WF) :
    ZKeeps E w h (zAllocRecord c) (fun r h' => r = h.nextRecord ∧ h' = { h with records := upd h.records h.nextRecord c, nextRecord := h.nextRecord + 1 }) := by
  refine ⟨?_, fun v hv => by cases hv; exact ⟨rfl, rfl⟩⟩
  show ZInv E w { h with records := upd h.records h.nextRecord c, nextRecord := h.nextRecord + 1 }
  have hcases : ∀ i, (i = h.nextRecord ∧ upd h.records h.nextRecord c i = c) ∨ (i ≠ h.nextRecord ∧ upd h.records h.nextRecord c i = h.records i) := by
    intro i
    by_cases hir : i = h.nextRecord
    · subst hir; exact .inl ⟨rfl, upd_same ..⟩
    · exact .inr ⟨hir, upd_ne _ _ hir⟩
  refine ⟨⟨hi.ok.states, fun i => ?_⟩, fun i => ?_, fun i q hq => ?_, fun i => ?_, fun i hq => ?_, fun a i hq => ?_, fun hE a i hq => ?_, fun i hq => ?_⟩
  · rcases hcases i with ⟨_, e⟩ | ⟨_, e⟩
    · simp only [e]; exact hc.shows
    · simp only [e]; exact hi.ok.records i
  · rcases hcases i with ⟨_, e⟩ | ⟨_, e⟩
    · simp only [ZWorld.view, e]; exact hv
    · have := hi.wf i
      simp only [ZWorld.view, e] at this ⊢
      exact this
  · rcases hcases i with ⟨_, e⟩ | ⟨_, e⟩
    · simp only [e] at hq; exact hl q hq
    · simp only [e] at hq; exact hi.linked i q hq
  · rcases hcases i with ⟨_, e⟩ | ⟨_, e⟩
    · simp only [e]; exact .inl hc
    · simp only [e]; exact hi.prev i
  · rcases hcases i with ⟨_, e⟩ | ⟨_, e⟩
    · simp only [e] at hq ⊢; exact he hq
    · simp only [e] at hq ⊢; exact hi.empty i hq
  · have := hi.stored a i hq
    show i < h.nextRecord + 1
    omega
  · have hq : h.store a = some i := hq
    have hne : i ≠ h.nextRecord := by have := hi.stored a i hq; omega
    simp only [upd_ne _ _ hne]
    exact hi.serial hE a i hq
  · have := hi.work i hq
    exact ⟨by show i < h.nextRecord + 1; omega, this.2⟩

/-- A copy has new arrays; nothing else changes. -/
theorem ZInv.copyRecord (hi : ZInv E w h) (r : Nat) : ZKeeps E w h (zCopyRecord r) (fun r' h' => h.nextRecord ≤ r' ∧ r' < h'.nextRecord ∧ Old h h' ∧ (h'.records r').previous.Clean ∧
    (∀ p, (h'.records r').current = some p → (h'.states p).KeysClean) ∧ ((h.records r).current = none ↔ (h'.records r').current = none) ∧ h'.view r' = h.view r) := by
  have hlive := hi.wf r
  unfold zCopyRecord
  refine .bind (.get hi) fun v h1 hi1 hq => ?_
  obtain ⟨rfl, rfl⟩ := hq
  refine .bind (.readRecord hi1) fun c h2 hi2 hq => ?_
  obtain ⟨rfl, rfl⟩ := hq
  cases hc : (h2.records r).current with
  | none =>
    simp only [ZWorld.view, hc] at hlive
    refine (hi2.allocRecord (PtrSlice.ofList_clean _ _) (fun _ => ?_) (fun p hp => by cases hp) ?_).mono fun r' h' hq => ?_
    · rw [PtrSlice.ofList_live]; exact hi2.empty r hc
    · rw [PtrSlice.ofList_live]; exact hlive
    · obtain ⟨rfl, rfl⟩ := hq
      refine ⟨Nat.le_refl _, Nat.lt_succ_self _, ⟨rfl, fun i hir => upd_ne _ _ (by omega), Nat.le_succ _, fun _ _ => rfl, Nat.le_refl _⟩, ?_, fun p hp => ?_, ?_, ?_⟩
      · simp only [upd_same]; exact PtrSlice.ofList_clean _ _
      · simp only [upd_same] at hp; cases hp
      · simp only [upd_same]
      · simp only [ZWorld.view, upd_same, PtrSlice.ofList_live, hc]
  | some p =>
    have hp := hi2.linked r p hc
    simp only
    unfold zClone
    simp only [ZWorld.view, hc, Option.map_some] at hlive
    refine .bind (.bind (.readState hi2) fun s h3 hi3 hq => ?_) (Q := fun q h' => q = h2.nextState ∧ h' = { h2 with states := upd h2.states h2.nextState (.fresh h2.grow (h2.states p).value), nextState := h2.nextState + 1 }) fun q h4 hi4 hq => ?_
    · obtain ⟨rfl, rfl⟩ := hq
      exact (hi3.allocState _).mono fun _ _ hq => ⟨hq.1, hq.2.1⟩
    · obtain ⟨rfl, rfl⟩ := hq
      refine (hi4.allocRecord (PtrSlice.ofList_clean _ _) (fun hn => by cases hn) (fun p' hp' => ?_) ?_).mono fun r' h' hq => ?_
      · cases hp'
        refine ⟨Nat.lt_succ_self _, ?_⟩
        simp only [upd_same]
        rw [(SCell.fresh_keysClean _ _).hiddenKeys]
        simp
      · simp only [Option.map_some, upd_same, PtrSlice.ofList_live, SCell.fresh_value]
        exact hlive
      · obtain ⟨rfl, rfl⟩ := hq
        refine ⟨Nat.le_refl _, Nat.lt_succ_self _, ⟨rfl, fun i hir => upd_ne _ _ (by show i ≠ h2.nextRecord; omega), Nat.le_succ _, fun i hir => upd_ne _ _ (by omega), Nat.le_succ _⟩, ?_, fun q hq => ?_, ?_, ?_⟩
        · simp only [upd_same]; exact PtrSlice.ofList_clean _ _
        · simp only [upd_same, Option.some.injEq] at hq
          subst hq
          simp only [upd_same]
          exact SCell.fresh_keysClean _ _
        · simp only [upd_same]
          exact iff_of_false (by simp [hc]) (by simp)
        · simp only [ZWorld.view, upd_same, PtrSlice.ofList_live, hc, Option.map_some, SCell.fresh_value]

theorem ZInv.startWork {r : Nat} (hi : ZInv E none h) (h1 : r < h.nextRecord) (h2 : E.Serialises → ∀ a, h.store a ≠ some r) : ZInv E (some r) h :=
  ⟨hi.ok, hi.wf, hi.linked, hi.prev, hi.empty, hi.stored, hi.serial, fun i hir => by cases hir; exact ⟨h1, h2⟩⟩

theorem ZInv.loadSession (hi : ZInv E none h) (a : Address) : ZKeeps E none h (zLoadSession E a) (fun o h' => ∀ r, o = some r → ZInv E (some r) h' ∧ ∃ r0, h.store a = some r0 ∧ h'.view r = h.view r0) := by
  unfold zLoadSession
  refine .storeCall hi fun y => .bind (.get (hi.rest y)) fun v h1 hi1 hq => ?_
  obtain ⟨rfl, rfl⟩ := hq
  simp only
  cases hs : h.store a with
  | none => exact .pure hi1 fun r hr => by cases hr
  | some r =>
    simp only
    split
    · next ha =>
      refine .pure hi1 fun r' hr => ?_
      cases hr
      exact ⟨hi1.startWork (hi.stored a r hs) (fun hE => by rw [hE.1] at ha; cases ha), r, rfl, rfl⟩
    · refine .bind (hi1.copyRecord r) fun r' h2 hi2 hq => .pure hi2 fun r'' hr => ?_
      cases hr
      obtain ⟨g1, g2, g3, _, _, _, g6⟩ := hq
      refine ⟨hi2.startWork g2 fun hE b hb => ?_, r, rfl, g6⟩
      rw [g3.store] at hb
      have h3 : r' < h.nextRecord := hi.stored b r' hb
      have g1 : h.nextRecord ≤ r' := g1
      omega

/-- The session stored for `a` hides no key. -/
def StoredTidy (a : Address) (nk : Prop) (h : ZWorld) : Prop := ∃ r p, h.store a = some r ∧ (h.records r).current = some p ∧ (nk → (h.states p).KeysClean)

theorem ZInv.storeSession {r : Nat} {nk : Prop} (hi : ZInv E (some r) h) (a : Address) (hc : ∃ p, (h.records r).current = some p ∧ (nk → (h.states p).KeysClean)) :
    ZKeeps E none h (zStoreSession E a r) (fun _ h' => StoredTidy a nk h') := by
  have hset : ∀ {h1 : ZWorld} {i : Nat}, ZInv E none h1 → i < h1.nextRecord → (E.Serialises → (h1.records i).previous.Clean ∧ ∀ p, (h1.records i).current = some p → (h1.states p).KeysClean) →
      (∃ p, (h1.records i).current = some p ∧ (nk → (h1.states p).KeysClean)) →
      ZKeeps E none h1 (M.modify fun h => { h with store := upd h.store a (some i) }) (fun _ h' => StoredTidy a nk h') := by
    intro h1 i hi1 hlt hser hcur
    refine ⟨⟨⟨hi1.ok.states, hi1.ok.records⟩, hi1.wf, hi1.linked, hi1.prev, hi1.empty, fun b j hj => ?_, fun hE b j hj => ?_, fun j hj => by cases hj⟩, fun _ _ => ?_⟩
    · have hj : upd h1.store a (some i) b = some j := hj
      by_cases hb : b = a
      · subst hb
        rw [upd_same] at hj
        cases hj
        exact hlt
      · rw [upd_ne _ _ hb] at hj
        exact hi1.stored b j hj
    · have hj : upd h1.store a (some i) b = some j := hj
      by_cases hb : b = a
      · subst hb
        rw [upd_same] at hj
        cases hj
        exact hser hE
      · rw [upd_ne _ _ hb] at hj
        exact hi1.serial hE b j hj
    · obtain ⟨p, hp1, hp2⟩ := hcur
      exact ⟨i, p, upd_same .., hp1, hp2⟩
  unfold zStoreSession
  refine .storeCall hi.forget fun y => ?_
  cases hcp : E.copies with
  | true =>
    simp only [if_true]
    refine .bind ((hi.forget.rest y).copyRecord r) fun r' h2 hi2 hq => ?_
    obtain ⟨g1, g2, g3, g4, g5, g6, _⟩ := hq
    obtain ⟨p, hp, _⟩ := hc
    refine hset hi2 g2 (fun _ => ⟨g4, g5⟩) ?_
    cases hcc : (h2.records r').current with
    | none =>
      have := g6.mpr hcc
      have hp' : (h.records r).current = none := this
      rw [hp] at hp'
      cases hp'
    | some p' => exact ⟨p', rfl, fun _ => g5 p' hcc⟩
  | false =>
    simp only [Bool.false_eq_true, if_false]
    exact hset (hi.forget.rest y) (hi.work _ rfl).1 (fun hE => by rw [hE.2] at hcp; cases hcp) hc

end Verif
