import Verif.Spec.Duo

/-!
# Vocabulary for C07: message keys are not used twice

Nothing here is used by the model.
-/

namespace Verif

/-- Ratchet key and counter of every message that EncryptMessage returned for an address. -/
def sentTo (a : Address) (outs : List Out) : List (PubKey × UInt32) :=
  outs.filterMap fun
    | .ciphertext b c => if b = a then c.position else none
    | _ => none

/-- The serialised plain messages in a list of outcomes. -/
def wires (outs : List Out) : List Bytes :=
  outs.filterMap fun
    | .ciphertext _ (.signal m) => some m.serialized
    | _ => none

/-- A public key that a call may generate from its random bytes. Key generation consumes them in blocks of 32. -/
def Generates (C : Crypto) (rand : Bytes) (p : PubKey) : Prop := ∃ n, publicKeyOf C (rand.drop (32 * n)) = some p

/-- No two calls of the history can generate the same key. -/
def FreshCalls (C : Crypto) (cs : List Call) : Prop :=
  cs.Pairwise fun c d => ∀ p, Generates C c.rand p → ¬ Generates C d.rand p

/-- An error or a panic. -/
def Out.Failed : Out → Prop
  | .error _ => True
  | .panic => True
  | _ => False

/-- The calls of a history, with their outcomes. -/
def trace (E : Env) (cs : List Call) (w : World) : List (Call × Out) := cs.zip (runCalls E cs w).1

/-- No DecryptMessage call of the history that was given a pre-key message failed. -/
def PreKeysAccepted (E : Env) (cs : List Call) (w : World) : Prop :=
  ∀ x ∈ trace E cs w, ∀ a m, x.1.op = .decrypt a (.preKey m) → ¬ x.2.Failed

end Verif
