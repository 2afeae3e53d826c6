import Verif.Spec.Openness
import Verif.Spec.Guessing

/-!
# Whole histories with other contents

What it means that two histories of calls differ only in the contents of the messages that are sent.
-/

namespace Verif

open Doc

/-- A message that was sent: the AES key and the initialisation vector it was made with, its ciphertext body, its content, and another
content. -/
structure Sent where
  key : Bytes
  iv : Bytes
  body : Bytes
  old : Bytes
  new : Bytes

/-- The two primitives are the same, except for AES under the keys in `K`. -/
structure Crypto.SameButAesOn (C C' : Crypto) (K : Bytes → Prop) : Prop where
  hmac : C'.hmac = C.hmac
  hkdf : C'.hkdf = C.hkdf
  sha512 : C'.sha512 = C.sha512
  pub : C'.pub = C.pub
  dh : C'.dh = C.dh
  sign : C'.sign = C.sign
  verify : C'.verify = C.verify
  enc : ∀ k b, ¬ K k → C'.aesEnc k b = C.aesEnc k b
  dec : ∀ k b, ¬ K k → C'.aesDec k b = C.aesDec k b

/-- The keys of the messages in the list. -/
def KeyOf (L : List Sent) (k : Bytes) : Prop := ∃ e ∈ L, e.key = k

/-- The list of the messages that were sent: every body is the encryption of the content that was sent, the other content fits the body,
and no two messages were made with the same key. -/
structure Sendings (C : Crypto) (L : List Sent) : Prop where
  made : ∀ e ∈ L, cbcEncrypt C e.key e.iv e.old = .ok e.body
  fits : ∀ e ∈ L, Fits e.iv e.body e.new
  once : ∀ e ∈ L, ∀ e' ∈ L, e.key = e'.key → e = e'

/-- The message ends with the right MAC for these secret bytes. -/
def Signal.RightMac (C : Crypto) (secrets : Bytes) (sender receiver : PubKey) (m : Signal) : Prop :=
  ∃ body, m.serialized = body ++ (C.hmac ((secrets.drop 32).take 32) (wireKey sender ++ wireKey receiver ++ body)).take 8

/-- Nobody forged the message `c` from `a`: if a state that may read it has secret bytes for it that give its MAC, and they begin with the
key of a message in the list, then they end with the initialisation vector of that message, and `c` has its body. -/
def World.Genuine (C : Crypto) (L : List Sent) (w : World) (a : Address) (c : Ciphertext) : Prop :=
  ∀ m s sender receiver secrets, c.inner = some m → w.Reader C a c s → s.remoteIdentityPublic = wireKey sender →
    s.localIdentityPublic = wireKey receiver → s.Secrets C m.senderRatchetKey m.counter secrets → m.RightMac C secrets sender receiver →
    ∀ e ∈ L, e.key = secrets.take 32 → e.iv = secrets.drop 64 ∧ e.body = m.ciphertext

/-- The call `c'` is the call `c`, in the world `w`, with another content if it sends one. -/
inductive Call.Swapped (E : Env) (L : List Sent) (w : World) : Call → Call → Prop
  /-- if the call returns a message, then it is in the list, with both contents -/
  | send (a : Address) (p q rand : Bytes) (faults : List Fault)
      (h : ∀ x m r s, (Call.run E ⟨.encrypt a p, rand, faults⟩ w).1 = .ciphertext a x → x.inner = some m → w.sessions a = some r →
        r.current = some s → 
          ⟨(messageSecrets E.C s.senderKey 0).take 32, (messageSecrets E.C s.senderKey 0).drop 64, m.ciphertext, p, q⟩ ∈ L) :
      Call.Swapped E L w ⟨.encrypt a p, rand, faults⟩ ⟨.encrypt a q, rand, faults⟩
  /-- the same message is read -/
  | read (a : Address) (x : Ciphertext) (rand : Bytes) (faults : List Fault) (h : w.Genuine E.C L a x) :
      Call.Swapped E L w ⟨.decrypt a x, rand, faults⟩ ⟨.decrypt a x, rand, faults⟩
  /-- anything else -/
  | other (c : Call) (h1 : ∀ a p, c.op ≠ .encrypt a p) (h2 : ∀ a x, c.op ≠ .decrypt a x) : Call.Swapped E L w c c

/-- The second history is the first one with other contents. -/
inductive Rewritten (E : Env) (L : List Sent) : World → List Call → List Call → Prop
  | nil (w : World) : Rewritten E L w [] []
  | cons (w : World) (c c' : Call) (cs cs' : List Call) (h : c.Swapped E L w c') (hs : Rewritten E L (c.run E w).2 cs cs') :
      Rewritten E L w (c :: cs) (c' :: cs')

/-- The two outputs of a call are the same, or they are the two contents of the message in the list that the call read. -/
def Out.Alike (L : List Sent) (c : Call) (o o' : Out) : Prop :=
  o' = o ∨ ∃ a x m, ∃ e ∈ L, c.op = .decrypt a x ∧ x.inner = some m ∧ m.ciphertext = e.body ∧ o = .plaintext a (some e.old) ∧
    o' = .plaintext a (some e.new)

/-- The outputs of two histories, one by one. -/
inductive AllAlike (L : List Sent) : List Call → List Out → List Out → Prop
  | nil : AllAlike L [] [] []
  | cons (c : Call) (cs : List Call) (o o' : Out) (os os' : List Out) (h : Out.Alike L c o o') (hs : AllAlike L cs os os') :
      AllAlike L (c :: cs) (o :: os) (o' :: os')

end Verif
