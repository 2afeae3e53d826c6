import Verif.Model.Races
import Verif.Spec.Threads
import Verif.Spec.Reuse

/-!
# Vocabulary for data races

The library and its in-memory stores use no locks, channels or atomics, so accesses by different goroutines are never ordered: by
the Go memory model two of them to the same map, one of them a write, are a data race. Nothing here is used by the model.
-/

namespace Verif

/-- Two threads access the same map, and at least one of them writes it. -/
def DataRace (log : List (Nat × MapAccess)) (i j : Nat) : Prop :=
  i ≠ j ∧ ∃ x y, (i, x) ∈ log ∧ (j, y) ∈ log ∧ x.map = y.map ∧ (x.write = true ∨ y.write = true)

/-- The accesses of session calls that run at the same time. The answers of the store calls are arbitrary, so that it does not matter
how the records are shared. -/
def sessionAccesses {S : Type} (answer : ∀ {β}, StoreOp β → S → β × S) (E : Env) (cs : List Call) (schedule : List Nat) (w : S) :
    List (Nat × MapAccess) := accessLog answer StoreOp.accesses schedule (threads E cs) w

/-- What the call `i` has returned, if it has. -/
def sessionResult {S : Type} (answer : ∀ {β}, StoreOp β → S → β × S) (E : Env) (cs : List Call) (schedule : List Nat) (w : S) (i : Nat) :
    Option Out := ((interleave answer schedule (threads E cs) w).1 i).result.map (Out.of id)

/-- The same for group calls. -/
def groupAccesses {S : Type} (answer : ∀ {β}, GStoreOp β → S → β × S) (C : Crypto) (cs : List GCall) (schedule : List Nat) (w : S) :
    List (Nat × MapAccess) := accessLog answer GStoreOp.accesses schedule (gThreads C cs) w

/-- The same for group calls. -/
def groupResult {S : Type} (answer : ∀ {β}, GStoreOp β → S → β × S) (C : Crypto) (cs : List GCall) (schedule : List Nat) (w : S) (i : Nat) :
    Option GOut := ((interleave answer schedule (gThreads C cs) w).1 i).result.map (GOut.of id)

/-- EncryptMessage, DecryptMessage on a plain message, or ProcessPreKeyBundle. -/
def Op.Plain : Op → Prop
  | .encrypt _ _ => True
  | .decrypt _ (.signal _) => True
  | .bundle _ _ => True
  | _ => False

/-- EncryptMessage, DecryptMessage on a plain or pre-key message, or ProcessPreKeyBundle. -/
def Op.OnSession : Op → Prop
  | .encrypt _ _ => True
  | .decrypt _ (.signal _) => True
  | .decrypt _ (.preKey _) => True
  | .bundle _ _ => True
  | _ => False

/-- EncryptMessage, DecryptMessage or ProcessSenderKeyDistribution. -/
def GOp.UsesKey : GOp → Prop
  | .distribute _ _ => False
  | _ => True

/-- The call returned an error or panicked. -/
def GOut.Failed : GOut → Prop
  | .error _ => True
  | .panic => True
  | _ => False

/-- The map has the same contents in both worlds. -/
def World.SameMap (map : GoMap) (w w' : World) : Prop :=
  match map with
  | .sessions => w'.sessions = w.sessions
  | .knownKeys => w'.known = w.known
  | .preKeys => w'.preKeys = w.preKeys
  | .signedPreKeys => w'.signedPreKeys = w.signedPreKeys
  | .senderKeys => True

/-- The worlds differ at most in the contents of this map. -/
def World.SameButMap (map : GoMap) (w w' : World) : Prop :=
  (∀ other, other ≠ map → World.SameMap other w w') ∧ w'.identity = w.identity ∧ w'.regId = w.regId

/-- The calls among the events at an identity store. -/
def callsOf (es : List IdEvent) : List IdOp := es.filterMap fun
  | .call op => some op
  | .deletes _ _ => none

end Verif
