import Verif.Proofs.GroupApart
import Verif.Props.GroupHeap

/-!
# Group calls touch only the objects of their own sender key: C124
-/

namespace Verif

open Ex

/-- What the group store holds is in use, and no object is reached from two entries. -/
structure GHWorld.Separate (h : GHWorld) : Prop where
  stored : ∀ k r, h.store k = some r → r < h.nextRecord
  held : ∀ k p, h.HoldsState k p → p < h.nextState
  records : ∀ k j r, h.store k = some r → h.store j = some r → k = j
  states : ∀ k j p, h.HoldsState k p → h.HoldsState j p → k = j

/-- The objects of a sender key in a call that starts now. -/
def GHWorld.own (h : GHWorld) (k : Address × DistId) : GKeyOwn := ⟨fun r => h.store k = some r ∨ h.nextRecord ≤ r, fun p => h.HoldsState k p ∨ h.nextState ≤ p⟩

theorem GHWorld.Separate.rel {h h' : GHWorld} (hs : h.Separate) {k : Address × DistId} (hf : h.SameFor k h') : (h.own k).Rel k h h' where
  rand := hf.rand
  sysRand := hf.sysRand
  faults := hf.faults
  entry := hf.entry
  recs r hr := hr.elim (hf.record r) (hf.newRecords r)
  sts p hp := hp.elim (hf.state p) (hf.newStates p)
  nr := hf.nextRecord
  ns := hf.nextState
  stored r hr := ⟨.inl hr, hs.stored k r hr⟩
  current r hr hlt p hp := hr.elim (fun he => ⟨.inl ⟨r, he, hp⟩, hs.held k p ⟨r, he, hp⟩⟩) fun hge => absurd hlt (Nat.not_lt.2 hge)
  newR _ hr := .inr hr
  newS _ hp := .inr hp

theorem GHWorld.SameFor.refl (k : Address × DistId) (h : GHWorld) : h.SameFor k h :=
  ⟨rfl, rfl, rfl, rfl, fun _ _ => rfl, fun _ _ => rfl, rfl, rfl, fun _ _ => rfl, fun _ _ => rfl⟩

theorem GHWorld.Separate.next {h l : GHWorld} (hs : h.Separate) {k : Address × DistId} (hr : (h.own k).Rel k l l) (hk : (h.own k).Kept k h l) : l.Separate := by
  have hold : ∀ j, j ≠ k → ∀ r, h.store j = some r → ¬ (h.own k).rc r := fun j hj r hjr => by
    rintro (he | hge)
    · exact hj (hs.records j k r hjr he)
    · exact absurd (hs.stored j r hjr) (Nat.not_lt.2 hge)
  have olds : ∀ j, j ≠ k → ∀ p, l.HoldsState j p → h.HoldsState j p := by
    rintro j hj p ⟨r, h1, h2⟩
    rw [hk.store j hj] at h1
    rw [hk.recs r (hold j hj r h1)] at h2
    exact ⟨r, h1, h2⟩
  have news : ∀ p, l.HoldsState k p → (h.own k).st p ∧ p < l.nextState := by
    rintro p ⟨r, h1, h2⟩
    exact hr.current r (hr.stored r h1).1 (hr.stored r h1).2 p h2
  have holdS : ∀ j, j ≠ k → ∀ p, h.HoldsState j p → ¬ (h.own k).st p := fun j hj p hjp => by
    rintro (he | hge)
    · exact hj (hs.states j k p hjp he)
    · exact absurd (hs.held j p hjp) (Nat.not_lt.2 hge)
  refine ⟨fun b r h1 => ?_, fun b p h1 => ?_, fun b d r h1 h2 => ?_, fun b d p h1 h2 => ?_⟩
  · by_cases hb : b = k
    · subst hb; exact (hr.stored r h1).2
    · rw [hk.store b hb] at h1
      exact Nat.lt_of_lt_of_le (hs.stored b r h1) hk.nr
  · by_cases hb : b = k
    · subst hb; exact (news p h1).2
    · exact Nat.lt_of_lt_of_le (hs.held b p (olds b hb p h1)) hk.ns
  · by_cases hb : b = k <;> by_cases hd : d = k
    · rw [hb, hd]
    · subst hb
      rw [hk.store d hd] at h2
      exact absurd (hr.stored r h1).1 (hold d hd r h2)
    · subst hd
      rw [hk.store b hb] at h1
      exact absurd (hr.stored r h2).1 (hold b hb r h1)
    · rw [hk.store b hb] at h1
      rw [hk.store d hd] at h2
      exact hs.records b d r h1 h2
  · by_cases hb : b = k <;> by_cases hd : d = k
    · rw [hb, hd]
    · subst hb
      exact absurd (news p h1).1 (holdS d hd p (olds d hd p h2))
    · subst hd
      exact absurd (news p h2).1 (holdS b hb p (olds b hb p h1))
    · exact hs.states b d p (olds b hb p h1) (olds d hd p h2)

theorem GHWorld.Separate.setFaults {h : GHWorld} (hs : h.Separate) (fs : List Fault) : GHWorld.Separate { h with faults := fs } :=
  ⟨hs.stored, hs.held, hs.records, hs.states⟩

theorem GHWorld.Separate.appLoad {h : GHWorld} (hs : h.Separate) (E : GHEnv) (k : Address × DistId) : (gAppLoad E k h).2.Separate := by
  have hs1 := hs.setFaults []
  obtain ⟨-, hr, hk, -, -⟩ := GKeyOwn.Pair.load (n := 0) (m := 0) E _ _ (hs1.rel (.refl k _)) (Nat.zero_le _) (Nat.zero_le _)
  have := (hs1.next hr hk).setFaults h.faults
  unfold gAppLoad
  revert this
  rcases hgLoad E k { h with faults := [] } with ⟨o, l⟩
  cases o <;> exact id

theorem GHWorld.Separate.events {E : GHEnv} : ∀ (evs : List GHeapEvent) {h : GHWorld}, h.Separate → (gHeapRun E evs h).2.Separate
  | [], _, hs => hs
  | .call c :: evs, _, hs => by
    obtain ⟨-, hr, hk, -⟩ := GKeyOwn.call E c rfl (hs.rel (.refl c.op.key _))
    exact GHWorld.Separate.events evs (hs.next hr hk)
  | .load k :: evs, _, hs => GHWorld.Separate.events evs (hs.appLoad E k)

theorem GHWorld.Separate.reached (E : GHEnv) (rand sysRand : Bytes) (faults : List Fault) (evs : List GHeapEvent) : (gReached E rand sysRand faults evs).Separate :=
  GHWorld.Separate.events evs ⟨fun _ _ h => (by cases h), fun _ _ ⟨_, h, _⟩ => (by cases h), fun _ _ _ h => (by cases h), fun _ _ _ ⟨_, h, _⟩ => (by cases h)⟩

theorem GKeyOwn.Kept.onlyWrote {h h' l : GHWorld} {k : Address × DistId} (hf : h.SameFor k h') (hk : (h.own k).Kept k h' l) : h'.OnlyWroteFor k l where
  entries := hk.store
  records r hr hne := hk.recs r fun ho => ho.elim (fun he => hne (hf.entry.trans he)) fun hge => absurd hr (Nat.not_lt.2 (hf.nextRecord ▸ hge))
  states p hp hne := hk.sts p fun ho => ho.elim
    (fun ⟨r, h1, h2⟩ => hne ⟨r, hf.entry.trans h1, by rw [hf.record r h1]; exact h2⟩) fun hge => absurd hp (Nat.not_lt.2 (hf.nextState ▸ hge))

/-- **C124**. After every history, in which the application may also have loaded records, no object is reached from two sender keys. -/
theorem C124_no_shared_object (E : GHEnv) (rand sysRand : Bytes) (faults : List Fault) (evs : List GHeapEvent) (k j : Address × DistId) (hkj : k ≠ j) :
    (∀ r, (gReached E rand sysRand faults evs).store k = some r → (gReached E rand sysRand faults evs).store j ≠ some r) ∧
    (∀ p, (gReached E rand sysRand faults evs).HoldsState k p → ¬ (gReached E rand sysRand faults evs).HoldsState j p) :=
  have hs := GHWorld.Separate.reached E rand sysRand faults evs
  ⟨fun r h1 h2 => hkj (hs.records k j r h1 h2), fun p h1 h2 => hkj (hs.states k j p h1 h2)⟩

/-- C124: a call about a sender key writes to no object but the sender key's own, and to those it makes. -/
theorem C124_writes_only_own (E : GHEnv) (rand sysRand : Bytes) (faults : List Fault) (evs : List GHeapEvent) (c : GCall) :
    (gReached E rand sysRand faults evs).OnlyWroteFor c.op.key (c.heapRun E (gReached E rand sysRand faults evs)).2 := by
  have hs := GHWorld.Separate.reached E rand sysRand faults evs
  obtain ⟨-, -, hk, -⟩ := GKeyOwn.call E c rfl (hs.rel (.refl c.op.key _))
  exact hk.onlyWrote (.refl _ _)

/-- C124: a call about a sender key reads no object but the sender key's own. If in the memory of the process any other object is replaced by anything, also in the
middle of being changed, then the call returns the same, leaves the same in the objects of its sender key, and leaves the other objects as they are. -/
theorem C124_reads_only_own (E : GHEnv) (rand sysRand : Bytes) (faults : List Fault) (evs : List GHeapEvent) (c : GCall) (h' : GHWorld)
    (hf : (gReached E rand sysRand faults evs).SameFor c.op.key h') :
    (c.heapRun E h').1 = (c.heapRun E (gReached E rand sysRand faults evs)).1 ∧
    (c.heapRun E (gReached E rand sysRand faults evs)).2.SameFor c.op.key (c.heapRun E h').2 ∧ h'.OnlyWroteFor c.op.key (c.heapRun E h').2 := by
  have hs := GHWorld.Separate.reached E rand sysRand faults evs
  obtain ⟨he, hr, -, hk⟩ := GKeyOwn.call E c rfl (hs.rel hf)
  refine ⟨he, ⟨hr.rand, hr.sysRand, hr.faults, hr.entry, fun r h1 => hr.recs r (hr.stored r h1).1, ?_, hr.nr, hr.ns, fun r h1 => hr.recs r (hr.newR r h1),
    fun p h1 => hr.sts p (hr.newS p h1)⟩, hk.onlyWrote hf⟩
  rintro p ⟨r, h1, h2⟩
  exact hr.sts p (hr.current r (hr.stored r h1).1 (hr.stored r h1).2 p h2).1

namespace Ex

/-- The sender keys of two senders have arrived. -/
def gTwo : List GHeapEvent := [.call ⟨.process alice d1, [], [], []⟩, .call ⟨.process bob d1, [], [], []⟩]

/-- A memory in which the objects of the second sender key have been overwritten. -/
def gOverwrite (h : GHWorld) : GHWorld := { h with records := upd h.records 1 {}, states := upd h.states 1 {} }

end Ex

/-- Both sender keys are there, with objects of their own, and a message of the first sender is read. -/
example : (let h := gReached ghInMem [] [] [] gTwo
    h.store (alice, dist) = some 0 ∧ (h.records 0).live = [0] ∧ h.store (bob, dist) = some 1 ∧ (h.records 1).live = [1] ∧ h.nextRecord = 2 ∧ h.nextState = 2) ∧
    (match ((⟨.decrypt alice g1, [], [], []⟩ : GCall).heapRun ghInMem (gReached ghInMem [] [] [] gTwo)).1 with | .plaintext _ _ p => p | _ => []) = [1, 2, 3] := by
  decide +kernel

/-- The hypothesis of `C124_reads_only_own` is met by a memory in which the other sender key has been overwritten. -/
example : (gReached ghInMem [] [] [] gTwo).SameFor (GOp.decrypt alice g1).key (gOverwrite (gReached ghInMem [] [] [] gTwo)) ∧
    ((gReached ghInMem [] [] [] gTwo).states 1).chainKey.seed ≠ [] ∧ ((gOverwrite (gReached ghInMem [] [] [] gTwo)).states 1).chainKey.seed = [] := by
  have key : ∀ (k : Address × DistId) (h : GHWorld), h.store k = some 0 → (∀ p ∈ List.range 10, p ≠ 0 → some p ∉ (h.records 0).array) → h.nextRecord = 2 → h.nextState = 2 → h.SameFor k (gOverwrite h) := by
    intro k h h1 h2 h3 h4
    refine ⟨rfl, rfl, rfl, rfl, fun r hr => ?_, ?_, rfl, rfl, fun r hr => ?_, fun p hp => ?_⟩
    · rw [h1] at hr; cases hr; exact upd_ne h.records {} (show (0 : Nat) ≠ 1 by decide)
    · rintro p ⟨r, hr, hp⟩
      rw [h1] at hr; cases hr
      refine upd_ne h.states {} fun he => ?_
      subst he
      exact h2 1 (by decide) (by decide) hp
    · rw [h3] at hr; exact upd_ne _ _ (by omega)
    · rw [h4] at hp; exact upd_ne _ _ (by omega)
  exact ⟨key _ _ (by decide +kernel) (by decide +kernel) (by decide +kernel) (by decide +kernel), by decide +kernel, by decide +kernel⟩

end Verif
