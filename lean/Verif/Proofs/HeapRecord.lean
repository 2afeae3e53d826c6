import Verif.Proofs.HeapState

/-!
Code on one `*Record`: `decryptMessage` and the promotion of a state through pointers do what the functions on values compute.
-/

namespace Verif

/-- Only the random reader and new states. -/
structure HWorld.Fresh (h h' : HWorld) : Prop where
  rest : ∃ rd, h'.rest = { h.rest with rand := rd }
  store : h'.store = h.store
  records : h'.records = h.records
  nextRecord : h'.nextRecord = h.nextRecord
  nextState : h.nextState ≤ h'.nextState
  states : ∀ p < h.nextState, h'.states p = h.states p

theorem HWorld.Fresh.refl (h : HWorld) : h.Fresh h := ⟨⟨h.rest.rand, rfl⟩, rfl, rfl, rfl, Nat.le_refl _, fun _ _ => rfl⟩

theorem HWorld.Fresh.trans {h h' h'' : HWorld} (a : h.Fresh h') (b : h'.Fresh h'') : h.Fresh h'' where
  rest := by
    obtain ⟨r1, e1⟩ := a.rest
    obtain ⟨r2, e2⟩ := b.rest
    exact ⟨r2, by rw [e2, e1]⟩
  store := b.store.trans a.store
  records := b.records.trans a.records
  nextRecord := b.nextRecord.trans a.nextRecord
  nextState := Nat.le_trans a.nextState b.nextState
  states p hp := (b.states p (Nat.lt_of_lt_of_le hp a.nextState)).trans (a.states p hp)

/-- The record `r` may have changed, and the state it had. -/
structure HWorld.Grow (r : Nat) (h h' : HWorld) : Prop where
  store : h'.store = h.store
  records : ∀ i, i ≠ r → h'.records i = h.records i
  nextRecord : h'.nextRecord = h.nextRecord
  nextState : h.nextState ≤ h'.nextState
  states : ∀ p < h.nextState, (h.records r).current ≠ some p → h'.states p = h.states p
  current : (h'.records r).current = (h.records r).current ∨ ∃ q, (h'.records r).current = some q ∧ q < h'.nextState ∧
    (h.nextState ≤ q ∨ ∀ i < h.nextRecord, i ≠ r → (h.records i).current ≠ some q)

theorem HWorld.Fresh.grow {h h' : HWorld} (a : h.Fresh h') (r : Nat) : h.Grow r h' where
  store := a.store
  records i _ := by rw [a.records]
  nextRecord := a.nextRecord
  nextState := a.nextState
  states p hp _ := a.states p hp
  current := .inl (by rw [a.records])

/-- The state of a record exists. -/
def HWorld.Valid (h : HWorld) (r : Nat) : Prop := ∀ q, (h.records r).current = some q → q < h.nextState

theorem HWorld.Fresh.valid {h h' : HWorld} (a : h.Fresh h') {r : Nat} (hr : h.Valid r) : h'.Valid r := by
  intro q hq
  rw [a.records] at hq
  exact Nat.lt_of_lt_of_le (hr q hq) a.nextState

theorem HWorld.Fresh.view {h h' : HWorld} (a : h.Fresh h') {r : Nat} (hr : h.Valid r) : h'.view r = h.view r := by
  unfold HWorld.view
  rw [a.records]
  cases hc : (h.records r).current with
  | none => rfl
  | some q => simp [a.states q (hr q hc)]

theorem HWorld.Grow.valid {h h' : HWorld} {r : Nat} (a : h.Grow r h') (hr : h.Valid r) : h'.Valid r := by
  intro q hq
  rcases a.current with e | ⟨q', e, h2, _⟩
  · exact Nat.lt_of_lt_of_le (hr q (e ▸ hq)) a.nextState
  · rw [e] at hq; cases hq; exact h2

/-! ## Running on a private state -/

theorem M.attempt_run {σ α} (x : M σ α) (s : σ) : M.attempt x s = (match (x s).1 with | .ok a => .ok (.ok a) | .err e => .ok (.error e) | .panic => .panic, (x s).2) := by
  unfold M.attempt
  rcases x s with ⟨r, t⟩
  cases r <;> rfl

/-- A run on a state `p` that was made after `h0`. -/
theorem SimAt.fresh {α} {p : Nat} {h0 h : HWorld} {x : M HWorld α} {z : M Bytes (α × SState)} (hs : SimAt p h x z) (hf : h0.Fresh h) (hp : h0.nextState ≤ p) :
    ∃ h', x h = (Prod.fst <$> (z h.rest.rand).1, h') ∧ h'.rest = { h.rest with rand := (z h.rest.rand).2 } ∧ h0.Fresh h' ∧ h'.nextState = h.nextState ∧
      (∀ q, q ≠ p → h'.states q = h.states q) ∧ ∀ a s, (z h.rest.rand).1 = .ok (a, s) → h'.states p = s := by
  obtain ⟨s', e1, e2⟩ := hs
  refine ⟨_, e1, rfl, ?_, rfl, fun q hq => upd_ne _ _ hq, fun a s he => ?_⟩
  · exact ⟨by obtain ⟨rd, e⟩ := hf.rest; exact ⟨(z h.rest.rand).2, by simp [HWorld.setState, e]⟩, hf.store, hf.records, hf.nextRecord, hf.nextState,
      fun q hq => (upd_ne _ _ (by omega)).trans (hf.states q hq)⟩
  · rw [HWorld.setState_states]
    exact e2 a s he

theorem allocStates_run (h0 : HWorld) : ∀ (ss : List SState) (h : HWorld), h0.Fresh h → ∃ ps h', allocStates ss h = (.ok ps, h') ∧ h'.rest = h.rest ∧ h0.Fresh h' ∧ ps.map h'.states = ss ∧ ps.Nodup ∧
    (∀ p ∈ ps, h.nextState ≤ p ∧ p < h'.nextState) ∧ h.nextState ≤ h'.nextState ∧ ∀ q < h.nextState, h'.states q = h.states q := by
  intro ss
  induction ss with
  | nil => exact fun h hf => ⟨[], h, rfl, rfl, hf, rfl, List.nodup_nil, fun p hp => by simp at hp, Nat.le_refl _, fun _ _ => rfl⟩
  | cons s ss ih =>
    intro h hf
    have hf1 : h0.Fresh { h with states := upd h.states h.nextState s, nextState := h.nextState + 1 } :=
      ⟨hf.rest, hf.store, hf.records, hf.nextRecord, Nat.le_succ_of_le hf.nextState, fun q hq => (upd_ne _ _ (by have := hf.nextState; omega)).trans (hf.states q hq)⟩
    obtain ⟨ps, h', e1, e2, e3, e4, e5, e6, e7, e8⟩ := ih _ hf1
    refine ⟨h.nextState :: ps, h', ?_, e2, e3, ?_, ?_, ?_, ?_, ?_⟩
    · unfold allocStates
      rw [M.bind_ok_run (show allocState s h = (.ok h.nextState, _) from rfl), M.bind_ok_run e1]
      rfl
    · rw [List.map_cons, e4, e8 _ (by simp)]
      simp
    · refine List.nodup_cons.2 ⟨fun hm => ?_, e5⟩
      have := (e6 _ hm).1
      simp only at this
      omega
    · intro p hp
      simp only at e7 e6
      rcases List.mem_cons.1 hp with rfl | hp
      · omega
      · have := e6 p hp
        omega
    · simp only at e7
      omega
    · intro q hq
      rw [e8 q (by simp; omega)]
      exact upd_ne _ _ (by omega)

/-- What the loop has found so far: the same, with a pointer to the state. -/
def Found (h0 h : HWorld) (ps : List Nat) : Option (Nat × Nat × Bytes) → Option (Nat × SState × Bytes) → Prop
  | none, none => True
  | some (i, p, pt), some (i', s, pt') => i = i' ∧ pt = pt' ∧ h.states p = s ∧ p ∉ ps ∧ h0.nextState ≤ p ∧ p < h.nextState
  | _, _ => False

theorem tryPrevious_hsim (C : Crypto) (m : Signal) (h0 : HWorld) : ∀ (ps : List Nat) (i : Nat) (f : Option (Nat × Nat × Bytes)) (f' : Option (Nat × SState × Bytes)) (h : HWorld),
    h0.Fresh h → ps.Nodup → (∀ p ∈ ps, h0.nextState ≤ p ∧ p < h.nextState) → Found h0 h ps f f' →
    ∃ o h', hTryPrevious C m ps i f h = (o, h') ∧ h'.rest = { h.rest with rand := (tryPrevious C m (ps.map h.states) i f' h.rest.rand).2 } ∧ h0.Fresh h' ∧
      match o, (tryPrevious C m (ps.map h.states) i f' h.rest.rand).1 with
      | .ok g, .ok g' => Found h0 h' [] g g'
      | .err e, .err e' => e = e'
      | .panic, .panic => True
      | _, _ => False := by
  intro ps
  induction ps with
  | nil => exact fun i f f' h hf _ _ hfd => ⟨.ok f, h, rfl, rfl, hf, hfd⟩
  | cons p ps ih =>
    intro i f f' h hf hnd hps hfd
    obtain ⟨hpm, hnd⟩ := List.nodup_cons.1 hnd
    obtain ⟨h1, e1, e2, e3, e4, e5, e6⟩ := (decryptMessageSession_hsim C p m h).fresh hf (hps p (by simp)).1
    have hmap : ps.map h1.states = ps.map h.states := List.map_congr_left fun q hq => e5 q (fun he => hpm (he ▸ hq))
    have hps' : ∀ q ∈ ps, h0.nextState ≤ q ∧ q < h1.nextState := fun q hq => by rw [e4]; exact hps q (by simp [hq])
    have hfd' : Found h0 h1 ps f f' := by
      unfold Found at hfd ⊢
      split at hfd
      · trivial
      · obtain ⟨g1, g2, g3, g4, g5, g6⟩ := hfd
        simp only [List.mem_cons, not_or] at g4
        exact ⟨g1, g2, (e5 _ g4.1).trans g3, g4.2, g5, e4 ▸ g6⟩
      · exact hfd
    simp only [hTryPrevious, tryPrevious, List.map_cons]
    rw [M.bind_run, M.attempt_run, e1, M.bind_run, M.attempt_run]
    rcases hz : decryptMessageSession C (h.states p) m h.rest.rand with ⟨z, rd⟩
    rw [hz] at e2 e6
    have hrd : h1.rest.rand = rd := by rw [e2]
    have hrr : ∀ rd', { h1.rest with rand := rd' } = { h.rest with rand := rd' } := fun rd' => by rw [e2]
    cases z with
    | ok z =>
      obtain ⟨pt, s⟩ := z
      have := ih (i + 1) (some (i, p, pt)) (some (i, s, pt)) h1 e3 hnd hps' ⟨rfl, rfl, e6 pt s rfl, hpm, (hps p (by simp)).1, e4 ▸ (hps p (by simp)).2⟩
      rw [hmap, hrd, hrr] at this
      exact this
    | err e =>
      by_cases he : e = .duplicateMessage
      · subst he
        exact ⟨_, _, rfl, e2, e3, rfl⟩
      · have := ih (i + 1) f f' h1 e3 hnd hps' hfd'
        rw [hmap, hrd, hrr] at this
        cases e <;> first | exact absurd rfl he | exact this
    | panic => exact ⟨_, _, rfl, e2, e3, trivial⟩

/-! ## Changing the record -/

theorem setSessionState_run (r p : Nat) (h : HWorld) : hSetSessionState r p h = (.ok (), { h with records := upd h.records r { h.records r with current := some p } }) := rfl

theorem archive_run (r : Nat) (h : HWorld) : ∃ h', hArchiveCurrentState r h = (.ok (), h') ∧ h' = { h with records := h'.records } ∧ (∀ i, i ≠ r → h'.records i = h.records i) ∧
    (h'.records r).current = (h.records r).current ∧ h'.view r = (h.view r).archiveCurrentState := by
  unfold hArchiveCurrentState Record.archiveCurrentState
  rw [M.bind_ok_run (show readRecord r h = (.ok (h.records r), h) from rfl)]
  cases hc : (h.records r).current with
  | none => exact ⟨h, rfl, rfl, fun _ _ => rfl, hc, by simp [HWorld.view, hc]⟩
  | some p =>
    refine ⟨{ h with records := upd h.records r { current := some p, previous := (if (h.records r).previous.length ≥ maxArchivedStates then (h.records r).previous.drop 1 else (h.records r).previous) ++ [(h.states p).marshal] } }, rfl, rfl, fun i hi => upd_ne _ _ hi, ?_, ?_⟩
    · simp [hc]
    · simp [HWorld.view, hc]

theorem promoteState_run (r p : Nat) (h : HWorld) : ∃ h', hPromoteState r p h = (.ok (), h') ∧ h' = { h with records := h'.records } ∧ (∀ i, i ≠ r → h'.records i = h.records i) ∧
    (h'.records r).current = some p ∧ h'.view r = (h.view r).promoteState (h.states p) := by
  obtain ⟨h1, e1, e2, e3, e4, e5⟩ := archive_run r h
  unfold hPromoteState
  rw [M.bind_ok_run e1, setSessionState_run]
  refine ⟨_, rfl, ?_, fun i hi => (upd_ne _ _ hi).trans (e3 i hi), by simp, ?_⟩
  · rw [e2]
  · have hs : h1.states = h.states := by rw [e2]
    simp only [HWorld.view, upd_same, Record.promoteState] at e5 ⊢
    rw [← e5, ← hs]
    rfl

theorem promoteOldState_run (r idx p : Nat) (h : HWorld) : ∃ h', hPromoteOldState r idx p h = (.ok (), h') ∧ h' = { h with records := h'.records } ∧ (∀ i, i ≠ r → h'.records i = h.records i) ∧
    ((h'.records r).current = (h.records r).current ∨ (h'.records r).current = some p) ∧ h'.view r = (h.view r).promoteOldState idx (h.states p) := by
  unfold hPromoteOldState Record.promoteOldState
  rw [M.bind_ok_run (show readRecord r h = (.ok (h.records r), h) from rfl)]
  have hp : (h.view r).previous = (h.records r).previous := rfl
  rw [hp]
  split
  · exact ⟨h, rfl, rfl, fun _ _ => rfl, .inl rfl, rfl⟩
  · rw [M.bind_ok_run (show writeRecord r _ h = (.ok (), { h with records := upd h.records r _ }) from rfl)]
    obtain ⟨h', e1, e2, e3, e4, e5⟩ := promoteState_run r p { h with records := upd h.records r { h.records r with previous := (h.records r).previous.take idx ++ (h.records r).previous.drop (idx + 1) } }
    refine ⟨h', e1, ?_, fun i hi => (e3 i hi).trans (upd_ne _ _ hi), .inr e4, ?_⟩
    · rw [e2]
    · rw [e5]
      simp only [HWorld.view, upd_same]

theorem HWorld.Grow.of_records {r : Nat} {h h' : HWorld} (he : h' = { h with records := h'.records }) (ho : ∀ i, i ≠ r → h'.records i = h.records i) {n : Nat}
    (hc : (h'.records r).current = (h.records r).current ∨ ∃ q, (h'.records r).current = some q ∧ n ≤ q ∧ q < h.nextState) {h0 : HWorld} (hn : h0.nextState = n) (hf : h0.Fresh h) : h0.Grow r h' where
  store := by rw [he]; exact hf.store
  records i hi := by rw [ho i hi, hf.records]
  nextRecord := by rw [he]; exact hf.nextRecord
  nextState := by rw [he]; exact hf.nextState
  states p hp _ := by rw [he]; exact hf.states p hp
  current := by
    rcases hc with e | ⟨q, e, h1, h2⟩
    · exact .inl (by rw [e, hf.records])
    · exact .inr ⟨q, e, by rw [he]; exact h2, .inl (hn ▸ h1)⟩

/-- The outcome of running on a record. -/
def RecordSim (r : Nat) (h0 h : HWorld) (x : M HWorld Bytes) (z : M Bytes (Bytes × Record)) : Prop :=
  ∃ h', x h = (Prod.fst <$> (z h.rest.rand).1, h') ∧ h'.rest = { h.rest with rand := (z h.rest.rand).2 } ∧ h0.Grow r h' ∧
    (∀ pt rec, (z h.rest.rand).1 = .ok (pt, rec) → h'.view r = rec) ∧ ((∀ y, (z h.rest.rand).1 ≠ .ok y) → h0.Fresh h')

theorem RecordSim.err {r : Nat} {h0 h h' : HWorld} {x : M HWorld Bytes} {z : M Bytes (Bytes × Record)} {e : Err} {rd : Bytes} (hx : x h = (.err e, h')) (hz : z h.rest.rand = (.err e, rd))
    (hr : h'.rest = { h.rest with rand := rd }) (hf : h0.Fresh h') : RecordSim r h0 h x z := by
  unfold RecordSim
  rw [hz]
  exact ⟨h', hx, hr, hf.grow r, fun _ _ he => by simp at he, fun _ => hf⟩

theorem RecordSim.panic {r : Nat} {h0 h h' : HWorld} {x : M HWorld Bytes} {z : M Bytes (Bytes × Record)} {rd : Bytes} (hx : x h = (.panic, h')) (hz : z h.rest.rand = (.panic, rd))
    (hr : h'.rest = { h.rest with rand := rd }) (hf : h0.Fresh h') : RecordSim r h0 h x z := by
  unfold RecordSim
  rw [hz]
  exact ⟨h', hx, hr, hf.grow r, fun _ _ he => by simp at he, fun _ => hf⟩

theorem RecordSim.ok {r : Nat} {h0 h h' : HWorld} {x : M HWorld Bytes} {z : M Bytes (Bytes × Record)} {pt : Bytes} {rec : Record} {rd : Bytes} (hx : x h = (.ok pt, h'))
    (hz : z h.rest.rand = (.ok (pt, rec), rd)) (hr : h'.rest = { h.rest with rand := rd }) (hg : h0.Grow r h') (hv : h'.view r = rec) : RecordSim r h0 h x z := by
  unfold RecordSim
  rw [hz]
  exact ⟨h', hx, hr, hg, fun _ _ he => hv.trans (Prod.mk.inj (Res.ok.inj he)).2, fun hn => absurd rfl (hn _)⟩

theorem RecordSim.of_eq {r : Nat} {h0 h h1 : HWorld} {x x1 : M HWorld Bytes} {z z1 : M Bytes (Bytes × Record)} (hs : RecordSim r h0 h1 x1 z1) (hx : x h = x1 h1) (hz : z h.rest.rand = z1 h1.rest.rand)
    (hr : ∀ rd, { h1.rest with rand := rd } = { h.rest with rand := rd }) : RecordSim r h0 h x z := by
  unfold RecordSim at *
  rw [hx, hz, ← hr]
  exact hs

theorem decryptPrevious_hsim (C : Crypto) (r : Nat) (m : Signal) {h0 h : HWorld} (hf : h0.Fresh h) (hv : h0.Valid r) :
    RecordSim r h0 h (hDecryptPrevious C r m) (decryptPrevious C (h0.view r) m) := by
  have hvw : h.view r = h0.view r := hf.view hv
  have hget : getRecord r (·.previousStates) h = ((h0.view r).previousStates, h) := by rw [← hvw]; rfl
  cases hps : (h0.view r).previousStates with
  | ok ss =>
    rw [hps] at hget
    obtain ⟨ps, h1, e1, e2, e3, e4, e5, e6, e7, e8⟩ := allocStates_run h0 ss h hf
    obtain ⟨o, h2, f1, f2, f3, f4⟩ := tryPrevious_hsim C m h0 ps 0 none none h1 e3 e5 (fun p hp => ⟨Nat.le_trans hf.nextState (e6 p hp).1, (e6 p hp).2⟩) trivial
    rw [e4, e2] at f2 f4
    rcases hz : tryPrevious C m ss 0 none h.rest.rand with ⟨z, rd⟩
    rw [hz] at f2 f4
    have hx : hDecryptPrevious C r m h = hDecryptPrevious C r m h := rfl
    conv at hx =>
      rhs
      unfold hDecryptPrevious
      rw [M.bind_ok_run hget, M.bind_ok_run e1, M.bind_run, f1]
    have hy : decryptPrevious C (h0.view r) m h.rest.rand = decryptPrevious C (h0.view r) m h.rest.rand := rfl
    conv at hy =>
      rhs
      unfold decryptPrevious
      rw [hps, M.bind_ok_run (show (M.lift (.ok ss) : M Bytes _) h.rest.rand = (.ok ss, h.rest.rand) from rfl), M.bind_run, hz]
    cases o with
    | ok g =>
      cases z with
      | ok g' =>
        simp only at f4
        cases g with
        | none =>
          cases g' with
          | none => exact .err hx hy f2 f3
          | some x => exact f4.elim
        | some x =>
          obtain ⟨idx, p, pt⟩ := x
          cases g' with
          | none => exact f4.elim
          | some y =>
            obtain ⟨idx', s, pt'⟩ := y
            obtain ⟨rfl, rfl, hs, _, hp1, hp2⟩ := f4
            obtain ⟨h3, g1, g2, g3, g4, g5⟩ := promoteOldState_run r idx p h2
            simp only at hx
            rw [M.bind_ok_run g1] at hx
            refine .ok hx hy ?_ (.of_records g2 g3 ?_ rfl f3) ?_
            · rw [g2]; exact f2
            · exact g4.imp id fun e => ⟨p, e, hp1, hp2⟩
            · rw [g5, hs, f3.view hv]
      | err e => exact f4.elim
      | panic => exact f4.elim
    | err e =>
      cases z with
      | ok z => exact f4.elim
      | err e' =>
        simp only at f4
        subst f4
        exact .err hx hy f2 f3
      | panic => exact f4.elim
    | panic =>
      cases z with
      | ok z => exact f4.elim
      | err e' => exact f4.elim
      | panic => exact .panic hx hy f2 f3
  | err e =>
    rw [hps] at hget
    exact .err (by unfold hDecryptPrevious; rw [M.bind_run, hget]) (by unfold decryptPrevious; rw [hps]; rfl) rfl hf
  | panic =>
    rw [hps] at hget
    exact .panic (by unfold hDecryptPrevious; rw [M.bind_run, hget]) (by unfold decryptPrevious; rw [hps]; rfl) rfl hf

theorem decryptRecord_hsim (C : Crypto) (r : Nat) (m : Signal) {h0 : HWorld} (hv : h0.Valid r) :
    RecordSim r h0 h0 (hDecryptRecord C r m) (decryptRecord C (h0.view r) m) := by
  have hf := HWorld.Fresh.refl h0
  have hx : hDecryptRecord C r m h0 = _ := M.bind_ok_run (show readRecord r h0 = (.ok (h0.records r), h0) from rfl)
  cases hc : (h0.records r).current with
  | none =>
    simp only [hc] at hx
    refine .of_eq (decryptPrevious_hsim C r m hf hv) hx ?_ (fun _ => rfl)
    unfold decryptRecord
    have : (h0.view r).current = none := by simp [HWorld.view, hc]
    simp only [this]
  | some p =>
    simp only [hc] at hx
    have hcv : (h0.view r).current = some (h0.states p) := by simp [HWorld.view, hc]
    rw [M.bind_ok_run (show hClone p h0 = (.ok h0.nextState, { h0 with states := upd h0.states h0.nextState (h0.states p), nextState := h0.nextState + 1 }) from rfl)] at hx
    have hf1 : h0.Fresh { h0 with states := upd h0.states h0.nextState (h0.states p), nextState := h0.nextState + 1 } :=
      ⟨hf.rest, rfl, rfl, rfl, Nat.le_succ _, fun q hq => upd_ne _ _ (by omega)⟩
    obtain ⟨h2, e1, e2, e3, e4, e5, e6⟩ := (decryptMessageSession_hsim C h0.nextState m { h0 with states := upd h0.states h0.nextState (h0.states p), nextState := h0.nextState + 1 }).fresh hf1 (Nat.le_refl _)
    simp only [upd_same] at e1 e2 e6
    rw [M.bind_run, M.attempt_run, e1] at hx
    have hy : decryptRecord C (h0.view r) m h0.rest.rand = decryptRecord C (h0.view r) m h0.rest.rand := rfl
    conv at hy =>
      rhs
      unfold decryptRecord
      simp only [hcv]
      rw [M.bind_run, M.attempt_run]
    rcases hz : decryptMessageSession C (h0.states p) m h0.rest.rand with ⟨z, rd⟩
    rw [hz] at e2 e6 hx hy
    cases z with
    | ok z =>
      obtain ⟨pt, s⟩ := z
      replace hx : hDecryptRecord C r m h0 = (hSetSessionState r h0.nextState >>= fun _ => Pure.pure pt : M HWorld Bytes) h2 := hx
      rw [M.bind_ok_run (setSessionState_run r h0.nextState h2)] at hx
      refine .ok hx hy e2 (.of_records rfl (fun i hi => upd_ne _ _ hi) (.inr ⟨h0.nextState, by simp, Nat.le_refl _, by rw [e4]; exact Nat.lt_succ_self _⟩) rfl e3) ?_
      simp [HWorld.view, e6 pt s rfl, Record.setSessionState, e3.records]
    | err e =>
      by_cases he : e = .duplicateMessage
      · subst he
        exact .err hx hy e2 e3
      · have hrd : h2.rest.rand = rd := by rw [e2]
        refine .of_eq (decryptPrevious_hsim C r m e3 hv) ?_ ?_ fun rd' => by rw [e2]
        · rw [hx]
          cases e <;> first | exact absurd rfl he | rfl
        · rw [hy, hrd]
          cases e <;> first | exact absurd rfl he | rfl
    | panic => exact .panic hx hy e2 e3

end Verif
