import Verif.Proofs.Apart
import Verif.Props.SessionHeap

/-!
# Calls touch only the objects of their own peer: C123
-/

namespace Verif

open Ex

/-- What the session store holds is in use, and no object is reached from two entries. -/
structure ZWorld.Separate (h : ZWorld) : Prop where
  stored : ∀ a r, h.store a = some r → r < h.nextRecord
  held : ∀ a p, h.HoldsState a p → p < h.nextState
  records : ∀ a b r, h.store a = some r → h.store b = some r → a = b
  states : ∀ a b p, h.HoldsState a p → h.HoldsState b p → a = b

/-- The objects of a peer in a call that starts now. -/
def ZWorld.own (h : ZWorld) (a : Address) : Own := ⟨fun r => h.store a = some r ∨ h.nextRecord ≤ r, fun p => h.HoldsState a p ∨ h.nextState ≤ p⟩

theorem ZWorld.Separate.rel {h h' : ZWorld} (hs : h.Separate) {a : Address} (hf : h.SameFor a h') : (h.own a).Rel a h h' where
  rest := hf.rest
  entry := hf.entry
  recs r hr := hr.elim (hf.record r) (hf.newRecords r)
  sts p hp := hp.elim (hf.state p) (hf.newStates p)
  nr := hf.nextRecord
  ns := hf.nextState
  grow := hf.grow
  stored r hr := ⟨.inl hr, hs.stored a r hr⟩
  current r hr hlt p hp := hr.elim (fun he => ⟨.inl ⟨r, he, hp⟩, hs.held a p ⟨r, he, hp⟩⟩) fun hge => absurd hlt (Nat.not_lt.2 hge)
  newR _ hr := .inr hr
  newS _ hp := .inr hp

theorem ZWorld.SameFor.refl (a : Address) (h : ZWorld) : h.SameFor a h :=
  ⟨rfl, rfl, fun _ _ => rfl, fun _ _ => rfl, rfl, rfl, fun _ _ => rfl, fun _ _ => rfl, rfl⟩

theorem ZWorld.Separate.call {h : ZWorld} (hs : h.Separate) (E : HEnv) (c : Call) : (c.sliceRun E h).2.Separate := by
  cases ha : c.op.address with
  | none =>
    obtain ⟨op, rand, faults⟩ := c
    cases op with
    | addPreKey id k => exact ⟨hs.stored, hs.held, hs.records, hs.states⟩
    | addSignedPreKey id k => exact ⟨hs.stored, hs.held, hs.records, hs.states⟩
    | _ => cases ha
  | some a =>
    obtain ⟨-, hr, hk, -⟩ := Own.call E c ha (hs.rel (.refl a h))
    generalize (c.sliceRun E h).2 = k at hr hk ⊢
    have hold : ∀ b, b ≠ a → ∀ r, h.store b = some r → ¬ (h.own a).rc r := fun b hb r hbr => by
      rintro (he | hge)
      · exact hb (hs.records b a r hbr he)
      · exact absurd (hs.stored b r hbr) (Nat.not_lt.2 hge)
    have olds : ∀ b, b ≠ a → ∀ p, k.HoldsState b p → h.HoldsState b p := by
      rintro b hb p ⟨r, h1, h2⟩
      rw [hk.store b hb] at h1
      rw [hk.recs r (hold b hb r h1)] at h2
      exact ⟨r, h1, h2⟩
    have news : ∀ p, k.HoldsState a p → (h.own a).st p ∧ p < k.nextState := by
      rintro p ⟨r, h1, h2⟩
      exact hr.current r (hr.stored r h1).1 (hr.stored r h1).2 p h2
    have holdS : ∀ b, b ≠ a → ∀ p, h.HoldsState b p → ¬ (h.own a).st p := fun b hb p hbp => by
      rintro (he | hge)
      · exact hb (hs.states b a p hbp he)
      · exact absurd (hs.held b p hbp) (Nat.not_lt.2 hge)
    refine ⟨fun b r h1 => ?_, fun b p h1 => ?_, fun b d r h1 h2 => ?_, fun b d p h1 h2 => ?_⟩
    · by_cases hb : b = a
      · subst hb; exact (hr.stored r h1).2
      · rw [hk.store b hb] at h1
        exact Nat.lt_of_lt_of_le (hs.stored b r h1) hk.nr
    · by_cases hb : b = a
      · subst hb; exact (news p h1).2
      · exact Nat.lt_of_lt_of_le (hs.held b p (olds b hb p h1)) hk.ns
    · by_cases hb : b = a <;> by_cases hd : d = a
      · rw [hb, hd]
      · subst hb
        rw [hk.store d hd] at h2
        exact absurd (hr.stored r h1).1 (hold d hd r h2)
      · subst hd
        rw [hk.store b hb] at h1
        exact absurd (hr.stored r h2).1 (hold b hb r h1)
      · rw [hk.store b hb] at h1
        rw [hk.store d hd] at h2
        exact hs.records b d r h1 h2
    · by_cases hb : b = a <;> by_cases hd : d = a
      · rw [hb, hd]
      · subst hb
        exact absurd (news p h1).1 (holdS d hd p (olds d hd p h2))
      · subst hd
        exact absurd (news p h2).1 (holdS b hb p (olds b hb p h1))
      · exact hs.states b d p (olds b hb p h1) (olds d hd p h2)

theorem ZWorld.Separate.reached (E : HEnv) (grow : Nat → Nat) (w : World) (cs : List Call) : (zReached E grow w cs).Separate := by
  suffices h : ∀ (cs : List Call) (h : ZWorld), h.Separate → (sliceRun E cs h).2.Separate from
    h cs _ ⟨fun _ _ h => (by cases h), fun _ _ ⟨_, h, _⟩ => (by cases h), fun _ _ _ h => (by cases h), fun _ _ _ ⟨_, h, _⟩ => (by cases h)⟩
  intro cs
  induction cs with
  | nil => exact fun h hs => hs
  | cons c cs ih => exact fun h hs => ih _ (hs.call E c)

theorem Own.Kept.onlyWrote {h h' k : ZWorld} {a : Address} (hf : h.SameFor a h') (hk : (h.own a).Kept a h' k) : h'.OnlyWroteFor a k where
  entries := hk.store
  records r hr hne := hk.recs r fun ho => ho.elim (fun he => hne (hf.entry.trans he)) fun hge => absurd hr (Nat.not_lt.2 (hf.nextRecord ▸ hge))
  states p hp hne := hk.sts p fun ho => ho.elim
    (fun ⟨r, h1, h2⟩ => hne ⟨r, hf.entry.trans h1, by rw [hf.record r h1]; exact h2⟩) fun hge => absurd hp (Nat.not_lt.2 (hf.nextState ▸ hge))

/-- **C123**. After every history, and whatever the store, no object is reached from the sessions of two peers. -/
theorem C123_no_shared_object (E : HEnv) (grow : Nat → Nat) (w : World) (cs : List Call) (a b : Address) (hab : a ≠ b) :
    (∀ r, (zReached E grow w cs).store a = some r → (zReached E grow w cs).store b ≠ some r) ∧
    (∀ p, (zReached E grow w cs).HoldsState a p → ¬ (zReached E grow w cs).HoldsState b p) :=
  have hs := ZWorld.Separate.reached E grow w cs
  ⟨fun r h1 h2 => hab (hs.records a b r h1 h2), fun p h1 h2 => hab (hs.states a b p h1 h2)⟩

/-- C123: a call about a peer writes to no object but the peer's own, and to those it makes. -/
theorem C123_writes_only_own (E : HEnv) (grow : Nat → Nat) (w : World) (cs : List Call) (c : Call) (a : Address) (hc : c.op.address = some a) :
    (zReached E grow w cs).OnlyWroteFor a (c.sliceRun E (zReached E grow w cs)).2 := by
  have hs := ZWorld.Separate.reached E grow w cs
  obtain ⟨-, -, hk, -⟩ := Own.call E c hc (hs.rel (.refl a _))
  exact hk.onlyWrote (.refl a _)

/-- C123: a call about a peer reads no object but the peer's own. If in the memory of the process any other object is replaced by anything, also in the middle of being
changed, then the call returns the same, leaves the same in the objects of its peer, and leaves the other objects as they are. -/
theorem C123_reads_only_own (E : HEnv) (grow : Nat → Nat) (w : World) (cs : List Call) (c : Call) (a : Address) (hc : c.op.address = some a)
    (h' : ZWorld) (hf : (zReached E grow w cs).SameFor a h') :
    (c.sliceRun E h').1 = (c.sliceRun E (zReached E grow w cs)).1 ∧
    (c.sliceRun E (zReached E grow w cs)).2.SameFor a (c.sliceRun E h').2 ∧ h'.OnlyWroteFor a (c.sliceRun E h').2 := by
  have hs := ZWorld.Separate.reached E grow w cs
  obtain ⟨he, hr, -, hk⟩ := Own.call E c hc (hs.rel hf)
  refine ⟨he, ⟨hr.rest, hr.entry, fun r h1 => hr.recs r (hr.stored r h1).1, ?_, hr.nr, hr.ns, fun r h1 => hr.recs r (hr.newR r h1), fun p h1 => hr.sts p (hr.newS p h1), hr.grow⟩,
    hk.onlyWrote hf⟩
  rintro p ⟨r, h1, h2⟩
  exact hr.sts p (hr.current r (hr.stored r h1).1 (hr.stored r h1).2 p h2).1

namespace Ex

/-- Alice has sessions with two peers, on the in-memory store. -/
def zTwo : List Call := [⟨.bundle bob bundle, randomness 1, []⟩, ⟨.bundle alice bundle, randomness 2, []⟩]

/-- A memory in which the objects of the second peer have been overwritten. -/
def zOverwrite (h : ZWorld) : ZWorld := { h with records := upd h.records 1 {}, states := upd h.states 1 {} }

end Ex

/-- Both sessions are there, with objects of their own. -/
example : let h := zReached zhInMem (fun n => n) alice0 zTwo
    h.store bob = some 0 ∧ (h.records 0).current = some 0 ∧ h.store alice = some 1 ∧ (h.records 1).current = some 1 ∧ h.nextRecord = 2 ∧ h.nextState = 2 := by
  decide +kernel

/-- The hypothesis of `C123_reads_only_own` is met by a memory in which the other session has been overwritten. -/
example : (zReached zhInMem (fun n => n) alice0 zTwo).SameFor bob (zOverwrite (zReached zhInMem (fun n => n) alice0 zTwo)) ∧
    ((zReached zhInMem (fun n => n) alice0 zTwo).states 1).value.senderChain ≠ none ∧
    ((zOverwrite (zReached zhInMem (fun n => n) alice0 zTwo)).states 1).value.senderChain = none := by
  have key : ∀ h : ZWorld, h.store bob = some 0 → (h.records 0).current = some 0 → h.nextRecord = 2 → h.nextState = 2 → h.SameFor bob (zOverwrite h) := by
    intro h h1 h2 h3 h4
    refine ⟨rfl, rfl, fun r hr => ?_, ?_, rfl, rfl, fun r hr => ?_, fun p hp => ?_, rfl⟩
    · rw [h1] at hr; cases hr; exact upd_ne h.records {} (show (0 : Nat) ≠ 1 by decide)
    · rintro p ⟨r, hr, hp⟩
      rw [h1] at hr; cases hr
      rw [h2] at hp; cases hp
      exact upd_ne h.states {} (show (0 : Nat) ≠ 1 by decide)
    · rw [h3] at hr; exact upd_ne _ _ (by omega)
    · rw [h4] at hp; exact upd_ne _ _ (by omega)
  exact ⟨key _ (by decide +kernel) (by decide +kernel) (by decide +kernel) (by decide +kernel), by decide +kernel, by decide +kernel⟩

end Verif
