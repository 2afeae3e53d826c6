import Verif.Spec.Transcript
import Verif.Spec.GroupReading
import Verif.Spec.Group

/-!
# Whole histories of group calls with other contents

The group part of `Verif.Spec.Transcript`: what it means that two histories of group calls differ only in the contents that are sent.
-/

namespace Verif

open Doc

/-- The message ends with a signature of all bytes before under this key. -/
def SenderKeyMsg.RightSignature (C : Crypto) (key : PubKey) (m : SenderKeyMsg) : Prop :=
  ∃ body sig, m.serialized = body ++ sig ∧ sig.length = 64 ∧ C.verify key.key body sig = some true

/-- Nobody misused the keys of the messages in the list: if a stored state for the chain of `m` has secret bytes for it, the signature
of `m` is right, and the AES key among the secret bytes is the key of a message in the list, then the initialisation vector is the one of
that message and `m` has its body. -/
def GWorld.Genuine (C : Crypto) (L : List Sent) (w : GWorld) (a : Address) (m : SenderKeyMsg) : Prop :=
  ∀ g s key secrets, w.records (a, m.distID) = some g → s ∈ g → s.chainId = m.chainID → s.signingPublic = wireKey key →
    m.RightSignature C key → s.Secrets C m.iteration secrets →
    ∀ e ∈ L, e.key = secrets.drop 16 → e.iv = secrets.take 16 ∧ e.body = m.ciphertext

/-- The group call `c'` is the call `c`, in the world `w`, with another content if it sends one. -/
inductive GCall.Swapped (E : GEnv) (L : List Sent) (w : GWorld) : GCall → GCall → Prop
  /-- if the call returns a message, then it is in the list, with both contents -/
  | send (a : Address) (d : DistId) (p q rand sysRand : Bytes) (faults : List Fault)
      (h : ∀ m s g, (GCall.run E ⟨.encrypt a d p, rand, sysRand, faults⟩ w).1 = .ciphertext a d m → w.records (a, d) = some (s :: g) →
        ⟨(groupSecrets E.C s.chainKey.seed 0).drop 16, (groupSecrets E.C s.chainKey.seed 0).take 16, m.ciphertext, p, q⟩ ∈ L) :
      GCall.Swapped E L w ⟨.encrypt a d p, rand, sysRand, faults⟩ ⟨.encrypt a d q, rand, sysRand, faults⟩
  /-- the same message is read -/
  | read (a : Address) (m : SenderKeyMsg) (rand sysRand : Bytes) (faults : List Fault) (h : w.Genuine E.C L a m) :
      GCall.Swapped E L w ⟨.decrypt a m, rand, sysRand, faults⟩ ⟨.decrypt a m, rand, sysRand, faults⟩
  /-- anything else -/
  | other (c : GCall) (h1 : ∀ a d p, c.op ≠ .encrypt a d p) (h2 : ∀ a m, c.op ≠ .decrypt a m) : GCall.Swapped E L w c c

/-- The second history of group calls is the first one with other contents. -/
inductive GRewritten (E : GEnv) (L : List Sent) : GWorld → List GCall → List GCall → Prop
  | nil (w : GWorld) : GRewritten E L w [] []
  | cons (w : GWorld) (c c' : GCall) (cs cs' : List GCall) (h : c.Swapped E L w c') (hs : GRewritten E L (c.run E w).2 cs cs') :
      GRewritten E L w (c :: cs) (c' :: cs')

/-- The two outputs of a group call are the same, or they are the two contents of the message in the list that the call read. -/
def GOut.Alike (L : List Sent) (c : GCall) (o o' : GOut) : Prop :=
  o' = o ∨ ∃ a m, ∃ e ∈ L, c.op = .decrypt a m ∧ m.ciphertext = e.body ∧ o = .plaintext a m e.old ∧ o' = .plaintext a m e.new

/-- The outputs of two histories of group calls, one by one. -/
inductive GAllAlike (L : List Sent) : List GCall → List GOut → List GOut → Prop
  | nil : GAllAlike L [] [] []
  | cons (c : GCall) (cs : List GCall) (o o' : GOut) (os os' : List GOut) (h : GOut.Alike L c o o') (hs : GAllAlike L cs os os') :
      GAllAlike L (c :: cs) (o :: os) (o' :: os')

end Verif
