import Verif.Spec.Sessions

/-!
# Vocabulary for conversations under attack and with failing stores

The schedules of `Verif.Spec.Sessions`, with store failures at any point of any call (so also with crashes), messages that neither
of the two has sent, calls that concern other users, and changes of the pre-key stores. Nothing here is used by the model.
-/

namespace Verif

/-- One step of a schedule. -/
inductive HEvent where
  /-- a side processes a bundle of the other side; store calls may fail -/
  | start (s : Side) (b : Bundle) (rand : Bytes) (faults : List Fault)
  /-- a side encrypts a plaintext for the other; store calls may fail -/
  | send (s : Side) (plaintext : Bytes) (faults : List Fault)
  /-- a side is handed the `i`-th message that EncryptMessage has returned to the other side; store calls may fail -/
  | deliver (s : Side) (i : Nat) (rand : Bytes) (faults : List Fault)
  /-- a side is handed any message in the other's name; store calls may fail -/
  | inject (s : Side) (c : Ciphertext) (rand : Bytes) (faults : List Fault)
  /-- a side makes a call that is not about the other side; store calls may fail -/
  | call (s : Side) (c : Call)
  /-- a side changes what is in its pre-key stores -/
  | keys (s : Side) (preKeys signedPreKeys : UInt32 → Option PreKeyRec)

/-- DecryptMessage on the bytes of a message, with these random bytes and these outcomes of the store calls. -/
def Duo.receiveWith (d : Duo) (s : Side) (c : Ciphertext) (rand : Bytes) (faults : List Fault) (w : World) : Res (Option Bytes) × World :=
  match c.reparse with
  | .ok c' => decryptMessage (d.env s) (d.address s.other) c' { w with rand := rand, faults := faults }
  | .err e => (.err e, w)
  | .panic => (.panic, w)

/-- The message has been taken in: with a store that does not fail it would be read, and the stored session is the one after reading
it. When a store call fails afterwards, the caller gets an error instead of the plaintext. -/
def Duo.tookIn (d : Duo) (s : Side) (c : Ciphertext) (rand : Bytes) (faults : List Fault) (w : World) : Bool :=
  (match (d.receive s c rand w).1 with
    | .ok (some _) => true
    | _ => false) &&
  decide ((d.receiveWith s c rand faults w).2.sessions (d.address s.other) = (d.receive s c rand w).2.sessions (d.address s.other))

/-- `started` holds every attempt to start a session. A session is named by the bytes of its base key, which is made of the random bytes
of the call. -/
def Duo.hstep (d : Duo) (S : MSys) : HEvent → MSys
  | .start s b rand faults =>
    let w := (processPreKeyBundle (d.env s) (d.address s.other) b { S.world s with rand := rand, faults := faults }).2
    { S with world := upd S.world s w, started := S.started ++ [(s, b, ((publicKeyOf d.C rand).map fun k => k.bytes).getD [])] }
  | .send s pt faults =>
    let (r, w) := encryptMessage (d.env s) (d.address s.other) pt { S.world s with faults := faults }
    match r with
    | .ok c => { S with world := upd S.world s w, sent := upd S.sent s (S.sent s ++ [(c, pt, (S.world s).talksIn (d.address s.other))]) }
    | _ => { S with world := upd S.world s w }
  | .deliver s i rand faults =>
    match (S.sent s.other)[i]? with
    | none => S
    | some (c, _, name) =>
      let w := (d.receiveWith s c rand faults (S.world s)).2
      match d.tookIn s c rand faults (S.world s), c.position with
      | true, some pos => { S with world := upd S.world s w, got := upd S.got s (S.got s ++ [(name, pos)]) }
      | _, _ => { S with world := upd S.world s w }
  | .inject s c rand faults =>
    { S with world := upd S.world s (decryptMessage (d.env s) (d.address s.other) c { S.world s with rand := rand, faults := faults }).2 }
  | .call s c => { S with world := upd S.world s (c.run (d.env s) (S.world s)).2 }
  | .keys s preKeys signedPreKeys =>
    { S with world := upd S.world s { S.world s with preKeys := preKeys, signedPreKeys := signedPreKeys } }

def Duo.hrun (d : Duo) (S : MSys) (es : List HEvent) : MSys := es.foldl d.hstep S

/-- The step without its store failures, when it is one of the three kinds of `Verif.Spec.Sessions`. -/
def HEvent.plain : HEvent → Option MEvent
  | .start s b rand _ => some (.start s b rand)
  | .send s pt _ => some (.send s pt)
  | .deliver s i rand _ => some (.deliver s i rand)
  | _ => none

/-- This side has a session with this name. -/
def MSys.Has (S : MSys) (d : Duo) (s : Side) (name : Bytes) : Prop :=
  ∃ r u, (S.world s).sessions (d.address s.other) = some r ∧ r.HasState u ∧ u.aliceBaseKey = name

/-- The pre-keys of the bundles from which the other side has started sessions (or tried to) that have not arrived yet are as before. -/
def MSys.Keeps (S : MSys) (d : Duo) (s : Side) (w : World) : Prop :=
  ∀ x ∈ S.started, x.1 = s.other → ¬ S.Has d s x.2.2 →
    w.signedPreKeys x.2.1.signedPreKeyID = (S.world s).signedPreKeys x.2.1.signedPreKeyID ∧
    ∀ id, x.2.1.preKeyID = some id → w.preKeys id = (S.world s).preKeys id

/-- What is asked of a message from anyone. -/
structure MSys.InjectionOk (S : MSys) (d : Duo) (s : Side) (c : Ciphertext) (rand : Bytes) : Prop where
  /-- it is not a forgery that would be read -/
  rejected : ∀ p, (decryptMessage (d.env s) (d.address s.other) c { S.world s with rand := rand, faults := [] }).1 ≠ .ok (some p)
  /-- a pre-key message with an identity key that is not the other side's is not trusted -/
  identity : ∀ m, c = .preKey m → d.trusted s (S.world s).known (d.address s.other) m.identityKey .receiving = true →
    m.identityKey = (S.world s.other).identity.pub
  /-- a pre-key message is given to a session store that returns copies -/
  copying : ∀ m, c = .preKey m → d.aliased s = false

/-- What is asked of the steps of a schedule. -/
def HEvent.Ok (d : Duo) (S : MSys) : HEvent → Prop
  | .start s b _ _ => Offers d.C (S.world s.other) b ∧ ∀ x ∈ S.started, x.1 = s → ∀ id, x.2.1.preKeyID = some id → b.preKeyID ≠ some id
  | .send _ pt _ => pt.length < 2 ^ 62
  | .deliver s i rand faults => (faults = [] ∨ d.aliased s = false) ∧
      ∀ (c : Ciphertext) (pt name : Bytes) (k : PubKey) (n : UInt32), (S.sent s.other)[i]? = some (c, pt, name) →
        c.position = some (k, n) → S.DeliveryOk d s c name k n rand
  | .inject s c rand _ => S.InjectionOk d s c rand
  | .call s c => c.op.address ≠ some (d.address s.other) ∧ S.Keeps d s (c.run (d.env s) (S.world s)).2
  | .keys s preKeys signedPreKeys => S.Keeps d s { S.world s with preKeys := preKeys, signedPreKeys := signedPreKeys }

/-- Every step of the schedule is like that. -/
def Duo.HOk (d : Duo) (S : MSys) : List HEvent → Prop
  | [] => True
  | e :: es => e.Ok d S ∧ d.HOk (d.hstep S e) es

end Verif
