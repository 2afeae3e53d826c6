import Verif.Spec.SessionHeap

/-!
# Vocabulary for C123 and C124: whose objects a call touches

Nothing here is used by the model.
-/

namespace Verif

/-- The `*State` that is reached from what the session store holds for this peer. -/
def ZWorld.HoldsState (h : ZWorld) (a : Address) (p : Nat) : Prop := ∃ r, h.store a = some r ∧ (h.records r).current = some p

/-- Two memories that may differ only in what the session store holds for other peers, and in objects that are in use and are not reached from the session of
this peer. -/
structure ZWorld.SameFor (a : Address) (h h' : ZWorld) : Prop where
  rest : h'.rest = h.rest
  entry : h'.store a = h.store a
  record : ∀ r, h.store a = some r → h'.records r = h.records r
  state : ∀ p, h.HoldsState a p → h'.states p = h.states p
  nextRecord : h'.nextRecord = h.nextRecord
  nextState : h'.nextState = h.nextState
  newRecords : ∀ r, h.nextRecord ≤ r → h'.records r = h.records r
  newStates : ∀ p, h.nextState ≤ p → h'.states p = h.states p
  grow : h'.grow = h.grow

/-- From `h` to `k`, no entry of another peer has been changed, and no object that was in use and was not reached from the session of this peer. -/
structure ZWorld.OnlyWroteFor (a : Address) (h k : ZWorld) : Prop where
  entries : ∀ b, b ≠ a → k.store b = h.store b
  records : ∀ r, r < h.nextRecord → h.store a ≠ some r → k.records r = h.records r
  states : ∀ p, p < h.nextState → ¬ h.HoldsState a p → k.states p = h.states p

/-- The `*GroupState`s that the array behind what the group store holds for this sender and group points to. -/
def GHWorld.HoldsState (h : GHWorld) (k : Address × DistId) (p : Nat) : Prop := ∃ r, h.store k = some r ∧ some p ∈ (h.records r).array

/-- Two memories that may differ only in what the group store holds for others than this sender and group, and in objects that are in use and are not reached from
this sender key. -/
structure GHWorld.SameFor (k : Address × DistId) (h h' : GHWorld) : Prop where
  rand : h'.rand = h.rand
  sysRand : h'.sysRand = h.sysRand
  faults : h'.faults = h.faults
  entry : h'.store k = h.store k
  record : ∀ r, h.store k = some r → h'.records r = h.records r
  state : ∀ p, h.HoldsState k p → h'.states p = h.states p
  nextRecord : h'.nextRecord = h.nextRecord
  nextState : h'.nextState = h.nextState
  newRecords : ∀ r, h.nextRecord ≤ r → h'.records r = h.records r
  newStates : ∀ p, h.nextState ≤ p → h'.states p = h.states p

/-- From `h` to `l`, no entry of another sender or group has been changed, and no object that was in use and was not reached from this sender key. -/
structure GHWorld.OnlyWroteFor (k : Address × DistId) (h l : GHWorld) : Prop where
  entries : ∀ j, j ≠ k → l.store j = h.store j
  records : ∀ r, r < h.nextRecord → h.store k ≠ some r → l.records r = h.records r
  states : ∀ p, p < h.nextState → ¬ h.HoldsState k p → l.states p = h.states p

end Verif
