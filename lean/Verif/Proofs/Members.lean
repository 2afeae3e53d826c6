import Verif.Spec.Members
import Verif.Props.GroupDelivery
import Verif.Props.Delivery

/-!
# A group of several members, seen by one of them
-/

namespace Verif

variable {ι : Type}

/-- The sender and one member. -/
def GMembers.pair (P : GMembers ι) (r : ι) : GPair := ⟨P.C, P.senderAliased, P.memberAliased r, P.address, P.dist⟩

def GMSys.view (s : GMSys ι) (r : ι) : GSys := ⟨s.sender, s.member r, s.sent, s.accepted r⟩

def GMEvent.view [DecidableEq ι] (r : ι) : GMEvent ι → Option GEvent
  | .send pt rand faults => some (.send pt rand faults)
  | .deliver r' i => if r' = r then some (.deliver i) else none
  | .foreign r' m faults => if r' = r then some (.foreign m faults) else none

theorem GMembers.receive_pair (P : GMembers ι) (r : ι) (b : Bytes) (w : GWorld) : P.receive r b w = (P.pair r).receive b w := rfl

theorem GMembers.step_view [DecidableEq ι] (P : GMembers ι) (r : ι) (s : GMSys ι) (e : GMEvent ι) :
    (P.step s e).view r = match e.view r with
      | some e' => (P.pair r).step (s.view r) e'
      | none => s.view r := by
  cases e with
  | send pt rand faults =>
    simp only [GMEvent.view, GMembers.step, GPair.step, GMSys.view, GMembers.pair]
    split <;> simp_all
  | deliver r' i =>
    by_cases h : r' = r
    · subst h
      simp only [GMEvent.view, if_true, GMembers.step, GPair.step, GMSys.view]
      cases hs : s.sent[i]? with
      | none => simp
      | some x =>
        obtain ⟨m, pt⟩ := x
        simp only [GMembers.receive_pair]
        generalize (P.pair r').receive m.serialized (s.member r') = x
        obtain ⟨o, w⟩ := x
        cases o <;> simp
    · simp only [GMEvent.view, h, if_false, GMembers.step, GMSys.view]
      have h' : r ≠ r' := fun e => h e.symm
      split
      · rfl
      · split <;> simp [upd_ne _ _ h']
  | foreign r' m faults =>
    by_cases h : r' = r
    · subst h
      simp [GMEvent.view, GMembers.step, GPair.step, GMSys.view, GMembers.pair]
    · have h' : r ≠ r' := fun e => h e.symm
      simp [GMEvent.view, GMembers.step, GMSys.view, h, upd_ne _ _ h']

theorem GMembers.run_view [DecidableEq ι] (P : GMembers ι) (r : ι) (es : List (GMEvent ι)) :
    ∀ s : GMSys ι, (P.run s es).view r = (P.pair r).run (s.view r) (es.filterMap (GMEvent.view r)) := by
  induction es with
  | nil => intro s; rfl
  | cons e es ih =>
    intro s
    show (P.run (P.step s e) es).view r = _
    rw [ih, P.step_view r s e, List.filterMap_cons]
    cases e.view r with
    | none => rfl
    | some e' => rfl

theorem take_filterMap {α β : Type} (f : α → Option β) (l : List α) : ∀ n, ∃ k, (l.filterMap f).take n = (l.take k).filterMap f := by
  induction l with
  | nil => intro n; exact ⟨0, by simp⟩
  | cons a l ih =>
    intro n
    cases hf : f a with
    | none =>
      obtain ⟨k, hk⟩ := ih n
      exact ⟨k + 1, by simp [List.filterMap_cons, hf, hk]⟩
    | some b =>
      cases n with
      | zero => exact ⟨0, by simp⟩
      | succ n =>
        obtain ⟨k, hk⟩ := ih n
        exact ⟨k + 1, by simp [List.filterMap_cons, hf, hk]⟩

theorem sends_view [DecidableEq ι] (r : ι) (es : List (GMEvent ι)) : sends (es.filterMap (GMEvent.view r)) = GMEvent.sends es := by
  induction es with
  | nil => rfl
  | cons e es ih =>
    unfold sends GMEvent.sends at *
    cases e with
    | send pt rand faults => simp [List.filterMap_cons, GMEvent.view, ih]
    | deliver r' i => by_cases h : r' = r <;> simp [List.filterMap_cons, GMEvent.view, h, ih]
    | foreign r' m faults => by_cases h : r' = r <;> simp [List.filterMap_cons, GMEvent.view, h, ih]

theorem ok_view [DecidableEq ι] {P : GMembers ι} {cid : UInt32} {pk : PubKey} {es : List (GMEvent ι)} (h : ∀ e ∈ es, e.Ok P cid pk) (r : ι) :
    ∀ e ∈ es.filterMap (GMEvent.view r), e.Ok (P.pair r) cid pk := by
  intro e he
  obtain ⟨e', he', hv⟩ := List.mem_filterMap.mp he
  have := h e' he'
  cases e' with
  | send pt rand faults => simp only [GMEvent.view, Option.some.injEq] at hv; subst hv; exact this
  | deliver r' i =>
    simp only [GMEvent.view] at hv
    split at hv <;> simp only [Option.some.injEq, reduceCtorEq] at hv
    subst hv; trivial
  | foreign r' m faults =>
    simp only [GMEvent.view] at hv
    split at hv <;> simp only [Option.some.injEq, reduceCtorEq] at hv
    subst hv; exact this

/-- A processed distribution message: without store failures it always succeeds. -/
theorem processDistribution_ok (al : Bool) (a : Address) (d : DistributionMsg) (w : GWorld) (hw : w.faults = []) : (processDistribution al a d w).1 = .ok () := by
  unfold processDistribution gLoad
  rw [M.bind_ok_run (gStoreCall_none _ hw)]
  simp only
  rw [GRecord.addState_eq _ _ d.signingKey (newGroupState_publicKey ..)]
  rw [M.bind_ok_run (M.lift_run _ _)]
  rw [M.bind_ok_run (gTouch_run ..)]
  unfold gStore
  rw [gStoreCall_none _ (by exact hw)]

/-- What the sender hands out is what a member parses. -/
theorem distribution_arrives {C : Crypto} {al : Bool} {a : Address} {dist : DistId} {ws : GWorld} (hs : GReachable ⟨C, al⟩ ws)
    (hown : ∀ s rest, ws.records (a, dist) = some (s :: rest) → s.signingPrivate ≠ [])
    {d : DistributionMsg} (hd : (newSenderKeyDistribution C a dist ws).1 = .ok d) : newDistributionFromBytes d.serialized = .ok d := by
  have h1 := hs.own
  have ho := newSenderKeyDistribution_outcome C a dist ws
  generalize newSenderKeyDistribution C a dist ws = x at ho hd
  obtain ⟨r, w'⟩ := x
  simp only at ho hd
  subst hd
  cases ho with
  | early r fs rd srd hr => simp at hr
  | existing fs s rest k h hk =>
    obtain ⟨_, h2⟩ := h1 _ _ h
    obtain ⟨kp, _, _, _, h4, h5⟩ := h2 s (by simp) (hown _ _ h)
    have hv : s.version.toUInt8 = 3 := by simp only [GState.version, h4]; decide
    have := distribution_round_trip dist s.chainId s.chainKey.iteration s.chainKey.seed h5 k
    rw [← hv] at this
    exact this
  | created fs rd srd s k h _ hk =>
    obtain ⟨cid, seed, kp, _, hl, hkp, _, he⟩ := h.shape
    simp only [List.cons.injEq, and_true] at he
    subst he
    exact distribution_round_trip dist cid 0 seed hl k

theorem GReachable.noFaults {E : GEnv} {w : GWorld} (h : GReachable E w) : GReachable E { w with faults := [] } := by
  obtain ⟨w0, cs, rand, sysRand, faults, h0, rfl⟩ := h
  exact ⟨w0, cs, rand, sysRand, [], h0, rfl⟩

end Verif
