import Verif.Spec.Threads

/-!
# Vocabulary for a crash while several calls are on their way

A schedule that does not give every call all its turns ends in the middle of some of them: what is in the stores then is
what a crash leaves behind. Nothing here is used by the model.
-/

namespace Verif

/-- What happens to the first `n` store calls, as given; then one fails before it has any effect. -/
def cutFaults (n : Nat) (faults : List Fault) : List Fault := (faults ++ List.replicate n Fault.none).take n ++ [Fault.before]

/-- The same call, except that after some store calls that went as in `c`, the next one failed without an effect. -/
def Call.CutOff (c c' : Call) : Prop := c'.op = c.op ∧ c'.rand = c.rand ∧ ∃ n, c'.faults = cutFaults n c.faults

/-- The same for a call of the group API. -/
def GCall.CutOff (c c' : GCall) : Prop :=
  c'.op = c.op ∧ c'.rand = c.rand ∧ c'.sysRand = c.sysRand ∧ ∃ n, c'.faults = cutFaults n c.faults

end Verif
