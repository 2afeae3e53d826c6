import Verif.Spec.Crash

/-!
# Vocabulary for what a call does among others, in any schedule

Nothing here is used by the model.
-/

namespace Verif

/-- The stores as the call `i` meets them, just before one of its turns. -/
def Meets (E : Env) (cs : List Call) (schedule : List Nat) (w : World) (i : Nat) (u : World) : Prop :=
  ∃ s, s ++ [i] <+: schedule ∧ u = (runAtOnce E cs s w).2

/-- The stores as the call `i` leaves them, just after one of its turns. -/
def Leaves (E : Env) (cs : List Call) (schedule : List Nat) (w : World) (i : Nat) (u : World) : Prop :=
  ∃ s, s ++ [i] <+: schedule ∧ u = (runAtOnce E cs (s ++ [i]) w).2

/-- Stores put together: each record, pre-key, and so on, and the identity keys as a whole, is that of one of the stores `P`. -/
structure World.MadeOf (P : World → Prop) (v : World) : Prop where
  sessions : ∀ a, ∃ u, P u ∧ v.sessions a = u.sessions a
  preKeys : ∀ id, ∃ u, P u ∧ v.preKeys id = u.preKeys id
  signedPreKeys : ∀ id, ∃ u, P u ∧ v.signedPreKeys id = u.signedPreKeys id
  known : ∃ u, P u ∧ v.known = u.known
  identity : ∃ u, P u ∧ v.identity = u.identity
  regId : ∃ u, P u ∧ v.regId = u.regId

/-- What differs between `v` and `v'` was so in one of the stores `P`. -/
structure World.Puts (P : World → Prop) (v v' : World) : Prop where
  sessions : ∀ a, v'.sessions a = v.sessions a ∨ ∃ u, P u ∧ v'.sessions a = u.sessions a
  preKeys : ∀ id, v'.preKeys id = v.preKeys id ∨ ∃ u, P u ∧ v'.preKeys id = u.preKeys id
  signedPreKeys : ∀ id, v'.signedPreKeys id = v.signedPreKeys id ∨ ∃ u, P u ∧ v'.signedPreKeys id = u.signedPreKeys id
  known : ∀ a, v'.known a = v.known a ∨ ∃ u, P u ∧ v'.known a = u.known a

/-- The same for the group store, just before a turn. -/
def GMeets (C : Crypto) (cs : List GCall) (schedule : List Nat) (w : GWorld) (i : Nat) (u : GWorld) : Prop :=
  ∃ s, s ++ [i] <+: schedule ∧ u = (runGAtOnce C cs s w).2

/-- The same for the group store, just after a turn. -/
def GLeaves (C : Crypto) (cs : List GCall) (schedule : List Nat) (w : GWorld) (i : Nat) (u : GWorld) : Prop :=
  ∃ s, s ++ [i] <+: schedule ∧ u = (runGAtOnce C cs (s ++ [i]) w).2

end Verif
