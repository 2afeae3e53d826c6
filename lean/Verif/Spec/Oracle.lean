import Verif.Spec.Transcript
import Verif.Spec.GroupReading
import Verif.Spec.Group

/-!
# Forged messages

Messages that do not carry the right MAC or signature, and what two of them have in common when only their bodies differ.
-/

namespace Verif

open Doc

/-- The message ends with eight bytes that are not the MAC for these secret bytes. -/
def Signal.WrongMac (C : Crypto) (secrets : Bytes) (sender receiver : PubKey) (m : Signal) : Prop :=
  ∃ body mac, m.serialized = body ++ mac ∧ mac.length = 8 ∧
    mac ≠ (C.hmac ((secrets.drop 32).take 32) (wireKey sender ++ wireKey receiver ++ body)).take 8

/-- The MAC of the message is wrong for every state that may read it. -/
def World.Forged (C : Crypto) (w : World) (a : Address) (c : Ciphertext) : Prop :=
  ∀ m s sender receiver secrets, c.inner = some m → w.Reader C a c s → s.remoteIdentityPublic = wireKey sender →
    s.localIdentityPublic = wireKey receiver → s.Secrets C m.senderRatchetKey m.counter secrets → m.WrongMac C secrets sender receiver

/-- Two Signal messages with the same version, ratchet key and counter; the body, the previous counter and the MAC may differ. -/
def Signal.SameHeader (m m' : Signal) : Prop :=
  m'.version = m.version ∧ m'.senderRatchetKey = m.senderRatchetKey ∧ m'.counter = m.counter

/-- Two messages that differ at most in body, previous counter and MAC. -/
inductive Ciphertext.SameHeader : Ciphertext → Ciphertext → Prop
  | signal (m m' : Signal) (h : m.SameHeader m') : Ciphertext.SameHeader (.signal m) (.signal m')
  | preKey (m : PreKeyMsg) (inner : Signal) (serialized : Bytes) (h : m.message.SameHeader inner) :
      Ciphertext.SameHeader (.preKey m) (.preKey { m with message := inner, serialized := serialized })

/-- The message ends with 64 bytes that are not a signature under this key. -/
def SenderKeyMsg.WrongSignature (C : Crypto) (key : PubKey) (m : SenderKeyMsg) : Prop :=
  ∃ body sig, m.serialized = body ++ sig ∧ sig.length = 64 ∧ C.verify key.key body sig = some false

/-- The signature of the group message is wrong for every stored state of its chain. -/
def GWorld.Forged (C : Crypto) (w : GWorld) (a : Address) (m : SenderKeyMsg) : Prop :=
  ∀ g s key, w.records (a, m.distID) = some g → s ∈ g → s.chainId = m.chainID → s.signingPublic = wireKey key → m.WrongSignature C key

/-- Two group messages that differ at most in iteration, body and signature. -/
def SenderKeyMsg.SameHeader (m m' : SenderKeyMsg) : Prop :=
  m'.version = m.version ∧ m'.distID = m.distID ∧ m'.chainID = m.chainID

/-- The second history is the first one with other bodies and MACs in forged messages. -/
inductive Tampered (E : Env) : World → List Call → List Call → Prop
  | nil (w : World) : Tampered E w [] []
  | same (w : World) (c : Call) (cs cs' : List Call) (hs : Tampered E (c.run E w).2 cs cs') : Tampered E w (c :: cs) (c :: cs')
  | forged (w : World) (a : Address) (x x' : Ciphertext) (rand : Bytes) (faults : List Fault) (cs cs' : List Call) (h : x.SameHeader x')
      (h1 : w.Forged E.C a x) (h2 : w.Forged E.C a x') (hs : Tampered E (Call.run E ⟨.decrypt a x, rand, faults⟩ w).2 cs cs') :
      Tampered E w (⟨.decrypt a x, rand, faults⟩ :: cs) (⟨.decrypt a x', rand, faults⟩ :: cs')

/-- The second history of group calls is the first one with other bodies and signatures in forged messages. -/
inductive GTampered (E : GEnv) : GWorld → List GCall → List GCall → Prop
  | nil (w : GWorld) : GTampered E w [] []
  | same (w : GWorld) (c : GCall) (cs cs' : List GCall) (hs : GTampered E (c.run E w).2 cs cs') : GTampered E w (c :: cs) (c :: cs')
  | forged (w : GWorld) (a : Address) (m m' : SenderKeyMsg) (rand sysRand : Bytes) (faults : List Fault) (cs cs' : List GCall)
      (h : m.SameHeader m') (h1 : w.Forged E.C a m) (h2 : w.Forged E.C a m')
      (hs : GTampered E (GCall.run E ⟨.decrypt a m, rand, sysRand, faults⟩ w).2 cs cs') :
      GTampered E w (⟨.decrypt a m, rand, sysRand, faults⟩ :: cs) (⟨.decrypt a m', rand, sysRand, faults⟩ :: cs')

end Verif
