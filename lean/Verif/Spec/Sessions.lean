import Verif.Spec.Duo
import Verif.Spec.Reading

/-!
# Vocabulary for conversations with several sessions

Both users may process bundles of each other, at any time and as often as they like: sessions are started from both sides at once,
and started again while messages of older ones are on their way. A session is named by the bytes of its base key, the key that the
side that started it made for it. Nothing here is used by the model.
-/

namespace Verif

/-- One step of a schedule. -/
inductive MEvent where
  /-- a side processes a bundle of the other side -/
  | start (s : Side) (b : Bundle) (rand : Bytes)
  /-- a side encrypts a plaintext for the other -/
  | send (s : Side) (plaintext : Bytes)
  /-- a side is handed the `i`-th message the other side has sent -/
  | deliver (s : Side) (i : Nat) (rand : Bytes)

/-- Both users; the sessions that were started, by whom and with which bundle; the messages each side has sent, with their plaintexts and
the sessions they were sent in; and the positions of the messages each side has accepted, with the sessions they were sent in. -/
structure MSys where
  world : Side → World
  started : List (Side × Bundle × Bytes) := []
  sent : Side → List (Ciphertext × Bytes × Bytes) := fun _ => []
  got : Side → List (Bytes × PubKey × UInt32) := fun _ => []

/-- The name of the session that EncryptMessage uses. -/
def World.talksIn (w : World) (a : Address) : Bytes := (((w.sessions a).bind fun r => r.current).map fun s => s.aliceBaseKey).getD []

/-- The positions that a side has accepted in a session. -/
def MSys.gotIn (S : MSys) (s : Side) (name : Bytes) : List (PubKey × UInt32) :=
  (S.got s).filterMap fun g => if g.1 = name then some g.2 else none

def Duo.mstep (d : Duo) (S : MSys) : MEvent → MSys
  | .start s b rand =>
    let (r, w) := processPreKeyBundle (d.env s) (d.address s.other) b { S.world s with rand := rand, faults := [] }
    match r with
    | .ok () => { S with world := upd S.world s w, started := S.started ++ [(s, b, w.talksIn (d.address s.other))] }
    | _ => { S with world := upd S.world s w }
  | .send s pt =>
    let (r, w) := encryptMessage (d.env s) (d.address s.other) pt { S.world s with faults := [] }
    match r with
    | .ok c => { S with world := upd S.world s w, sent := upd S.sent s (S.sent s ++ [(c, pt, (S.world s).talksIn (d.address s.other))]) }
    | _ => { S with world := upd S.world s w }
  | .deliver s i rand =>
    match (S.sent s.other)[i]? with
    | none => S
    | some (c, _, name) =>
      let (r, w) := d.receive s c rand (S.world s)
      match r, c.position with
      | .ok (some _), some pos => { S with world := upd S.world s w, got := upd S.got s (S.got s ++ [(name, pos)]) }
      | _, _ => { S with world := upd S.world s w }

def Duo.mrun (d : Duo) (S : MSys) (es : List MEvent) : MSys := es.foldl d.mstep S

/-- Two users who have not talked to each other, with key pairs that fit, who trust each other's identity. -/
structure Duo.NoSessionYet (d : Duo) (w : Side → World) : Prop where
  new : ∀ s, (w s).sessions (d.address s.other) = none
  key : ∀ s, (w s).identity.Matched d.C
  trusts : ∀ s, d.Trusts s (w s) (w s.other).identity.pub

/-- The randomness of which key pairs may be made. Starting a session takes 32 bytes for the base key, and then makes a ratchet key. A
delivery may try up to 41 sessions, each of which may take 32 bytes for a ratchet key. -/
def MEvent.pool : MEvent → List Bytes
  | .start _ _ rand => [rand.drop 32]
  | .send _ _ => []
  | .deliver _ _ rand => (List.range 41).map fun j => rand.drop (32 * j)

/-- The randomness of the base key, and the signed pre-key of the bundle, when a session is started. -/
def MEvent.opens : MEvent → Option (Bytes × PubKey)
  | .start _ b rand => some (rand, b.signedPreKeyPublic)
  | _ => none

/-- All ratchet keys that may be made during the schedule are different, and different from the signed pre-keys of the bundles; all base
keys are different. -/
structure MFreshKeys (C : Crypto) (es : List MEvent) : Prop where
  ratchet : none ∉ (es.flatMap MEvent.pool).map (publicKeyOf C) ∧ ((es.flatMap MEvent.pool).map (publicKeyOf C)).Nodup
  signed : ∀ x ∈ es.filterMap MEvent.opens, some x.2 ∉ (es.flatMap MEvent.pool).map (publicKeyOf C)
  base : ((es.filterMap MEvent.opens).map fun x => publicKeyOf C x.1).Nodup

/-- What is asked of the delivery of a message that was sent in the session `name`, at the position `k`, `n`. -/
structure MSys.DeliveryOk (S : MSys) (d : Duo) (s : Side) (c : Ciphertext) (name : Bytes) (k : PubKey) (n : UInt32) (rand : Bytes) : Prop where
  /-- a message whose receiving chain has been dropped is not accepted -/
  dropped : k ∈ chainsSeen (S.gotIn s name) → k ∉ recentChains (S.gotIn s name) → ∀ p, (d.receive s c rand (S.world s)).1 ≠ .ok (some p)
  /-- no other session can read the message -/
  confined : ∀ r u, (S.world s).sessions (d.address s.other) = some r → r.HasState u → u.aliceBaseKey ≠ name →
    ∀ m p, c.inner = some m → ¬ u.CanRead d.C m p
  /-- with a store that shares its records: the message that starts a session at the receiver is at most 25000 ahead -/
  first : d.aliased s = true → ∀ r, (S.world s).sessions (d.address s.other) = some r → (∀ u, r.HasState u → u.aliceBaseKey ≠ name) → n.toNat ≤ 25000

/-- What is asked of the steps of a schedule: bundles offer keys that the other side holds, and no one-time pre-key is offered twice;
plaintexts are not absurdly long; and deliveries are as above. -/
def MEvent.Ok (d : Duo) (S : MSys) : MEvent → Prop
  | .start s b _ => Offers d.C (S.world s.other) b ∧ ∀ x ∈ S.started, x.1 = s → ∀ id, x.2.1.preKeyID = some id → b.preKeyID ≠ some id
  | .send _ pt => pt.length < 2 ^ 62
  | .deliver s i rand => ∀ (c : Ciphertext) (pt name : Bytes) (k : PubKey) (n : UInt32), (S.sent s.other)[i]? = some (c, pt, name) →
      c.position = some (k, n) → S.DeliveryOk d s c name k n rand

/-- Every step of the schedule is like that. -/
def Duo.MOk (d : Duo) (S : MSys) : List MEvent → Prop
  | [] => True
  | e :: es => e.Ok d S ∧ d.MOk (d.mstep S e) es

end Verif
