import Verif.Spec.Sessions

/-!
# Vocabulary for users who have found a common session

Nothing here is used by the model.
-/

namespace Verif

/-- No session is started, and only messages are delivered that a side sent after its first `n` ones. -/
def MEvent.Since (n : Side → Nat) : MEvent → Prop
  | .start _ _ _ => False
  | .send _ _ => True
  | .deliver s i _ => n s.other ≤ i

end Verif
