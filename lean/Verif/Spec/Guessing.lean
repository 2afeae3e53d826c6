import Verif.Spec.Reading

/-!
# Messages that nobody has sent

HMAC with other values at some points, and the points at which DecryptMessage looks to check a message.
-/

namespace Verif

open Doc

/-- The same algorithms, except that HMAC has the value `v k x` for the keys `k` and inputs `x` in `P`. -/
noncomputable def Crypto.withMac (C : Crypto) (P : Bytes → Bytes → Prop) (v : Bytes → Bytes → Bytes) (hv : ∀ k x, (v k x).length = 32) : Crypto :=
  { C with
    hmac := fun k x => open Classical in if P k x then v k x else C.hmac k x
    hmac_len := fun k x => by
      split
      · exact hv k x
      · exact C.hmac_len k x }

/-- The authenticated bytes of a message: all but the last eight. -/
def Signal.body (m : Signal) : Bytes := m.serialized.take (m.serialized.length - 8)

/-- The MAC of a message: the last eight bytes. -/
def Signal.tag (m : Signal) : Bytes := m.serialized.drop (m.serialized.length - 8)

/-- The HMAC keys and inputs with which a session state that may read the message would check it. -/
def World.Checks (C : Crypto) (w : World) (a : Address) (c : Ciphertext) (k x : Bytes) : Prop :=
  ∃ m s sender receiver secrets, c.inner = some m ∧ w.Reader C a c s ∧ s.remoteIdentityPublic = wireKey sender ∧
    s.localIdentityPublic = wireKey receiver ∧ s.Secrets C m.senderRatchetKey m.counter secrets ∧ k = (secrets.drop 32).take 32 ∧
    x = wireKey sender ++ wireKey receiver ++ m.body

/-- These calls got nothing with this body, except wrong guesses: messages with the body whose last eight bytes are neither those that
HMAC has at a point of `P` nor those that `v` has there. -/
def OnlyWrongGuesses (C : Crypto) (P : Bytes → Bytes → Prop) (v : Bytes → Bytes → Bytes) (body : Bytes) (cs : List Call) : Prop :=
  ∀ c ∈ cs, ∀ a x m, c.op = .decrypt a x → x.inner = some m → m.body = body → ∀ k y, P k y → m.tag ≠ (C.hmac k y).take 8 ∧ m.tag ≠ (v k y).take 8

/-- No call returned a message with this body. -/
def NotSent (body : Bytes) (outs : List Out) : Prop := ∀ a c m, Out.ciphertext a c ∈ outs → c.inner = some m → m.body ≠ body

end Verif
