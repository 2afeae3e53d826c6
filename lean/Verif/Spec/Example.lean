import Verif.Spec.Session
import Verif.Model.Toy

/-!
# A concrete conversation

Alice processes Bob's bundle and sends two messages, Bob answers, Alice sends a third message. The property files use
it to show that their hypotheses can be met, and to give counterexamples.
-/

namespace Verif.Ex

open Verif

def key (n : UInt8) : PrivKey := ⟨clamp (List.replicate 32 n), by simp, clamp_idem _⟩
def pair (n : UInt8) : KeyPair := ⟨key n, (key n).pub toy⟩

def alice : Address := ⟨[65], 1⟩
def bob : Address := ⟨[66], 1⟩

/-- a store that returns copies, and the library's in-memory store -/
def copying : Env := ⟨toy, false, tofu⟩
def sharing : Env := ⟨toy, true, tofu⟩

def randomness (n : Nat) : Bytes := (List.range 96).map fun i => UInt8.ofNat (i * 7 + n)

def alice0 : World :=
  { sessions := fun _ => none, preKeys := fun _ => none, signedPreKeys := fun _ => none, known := fun _ => none,
    identity := pair 1, regId := 11, rand := randomness 1, faults := [] }

def bob0 : World :=
  { sessions := fun _ => none,
    preKeys := fun i => if i = 5 then some (PreKeyRec.new (pair 3)) else none,
    signedPreKeys := fun i => if i = 6 then some (PreKeyRec.new (pair 4)) else none,
    known := fun _ => none, identity := pair 2, regId := 22, rand := randomness 2, faults := [] }

def bundle : Bundle :=
  ⟨22, some 5, some (pair 3).pub, 6, (pair 4).pub, toy.sign (pair 2).priv.key [] (pair 4).pub.bytes, (pair 2).pub⟩

def noMessage : Ciphertext := .plaintext ⟨[]⟩

def outMsg (x : Res Ciphertext × World) : Ciphertext :=
  match x.1 with
  | .ok c => c
  | _ => noMessage

/-- Alice has processed the bundle. -/
def alice1 : World := (processPreKeyBundle copying bob bundle alice0).2
/-- Alice has sent `m1`. -/
def alice2 : World := (encryptMessage copying bob [1, 2, 3] alice1).2
def m1 : Ciphertext := outMsg (encryptMessage copying bob [1, 2, 3] alice1)
/-- Alice has sent `m2`. -/
def alice3 : World := (encryptMessage copying bob [4] alice2).2
def m2 : Ciphertext := outMsg (encryptMessage copying bob [4] alice2)
/-- Bob has received `m1`. -/
def bob1 : World := (decryptMessage copying alice m1 bob0).2
/-- Bob has sent `r1`. -/
def bob2 : World := (encryptMessage copying alice [9] bob1).2
def r1 : Ciphertext := outMsg (encryptMessage copying alice [9] bob1)
/-- Alice has received `r1`. -/
def alice4 : World := (decryptMessage copying bob r1 alice3).2
/-- Alice has sent `m3`, a plain message. -/
def alice5 : World := (encryptMessage copying bob [5, 5] alice4).2
def m3 : Ciphertext := outMsg (encryptMessage copying bob [5, 5] alice4)
/-- Bob has received `m3`. -/
def bob3 : World := (decryptMessage copying alice m3 bob2).2

/-- Alice has processed a second bundle instead of receiving `r1`, so that their first session is archived. -/
def alice6 : World := after copying [⟨.bundle bob bundle, randomness 50, []⟩] alice3
/-- Alice receives `r1` after that, which is for the archived session. -/
def alice7 : World := after copying [⟨.decrypt bob r1, randomness 80, []⟩] alice6

theorem m1_delivered : (decryptMessage copying alice m1 bob0).1 = .ok (some [1, 2, 3]) := by decide +kernel
theorem m2_delivered : (decryptMessage copying alice m2 bob2).1 = .ok (some [4]) := by decide +kernel
theorem r1_delivered : (decryptMessage copying bob r1 alice3).1 = .ok (some [9]) := by decide +kernel
theorem m3_delivered : (decryptMessage copying alice m3 bob2).1 = .ok (some [5, 5]) := by decide +kernel

/-- Change the counter of a message. -/
def withCounter (n : UInt32) : Ciphertext → Ciphertext
  | .signal m => .signal { m with counter := n }
  | c => c

/-- Change the last byte of a message, which is part of its MAC. -/
def badMAC : Ciphertext → Ciphertext
  | .signal m => .signal { m with serialized := modifyAt m.serialized (m.serialized.length - 1) (· ^^^ 1) }
  | .preKey m =>
    let inner := { m.message with serialized := modifyAt m.message.serialized (m.message.serialized.length - 1) (· ^^^ 1) }
    .preKey { m with message := inner }
  | c => c

/-- Change the base key of a pre-key message. -/
def withBaseKey (k : PubKey) : Ciphertext → Ciphertext
  | .preKey m => .preKey { m with baseKey := k }
  | c => c

/-- Change the identity key in the envelope of a pre-key message. -/
def withIdentity (k : PubKey) : Ciphertext → Ciphertext
  | .preKey m => .preKey { m with identityKey := k }
  | c => c

end Verif.Ex
