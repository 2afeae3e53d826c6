import Verif.Spec.Session

/-!
# Vocabulary for the delivery properties of pairwise sessions

Two users exchange messages through a network that may lose, reorder and repeat them. A schedule is a list of sends and
deliveries; both call the session API of `Verif.Model.World`. Nothing here is used by the model.
-/

namespace Verif

/-- The two users. Alice starts the conversation with a bundle of Bob's. -/
inductive Side where
  | alice
  | bob
deriving DecidableEq, Repr

def Side.other : Side → Side
  | .alice => .bob
  | .bob => .alice

/-- What does not change during a conversation: the primitives, the kind of session store and the trust decision of
either side, and the address under which a side is known to the other. -/
structure Duo where
  C : Crypto
  aliased : Side → Bool
  trusted : Side → (Address → Option PubKey) → Address → PubKey → Direction → Bool
  address : Side → Address

def Duo.env (d : Duo) (s : Side) : Env := ⟨d.C, d.aliased s, d.trusted s⟩

/-- One step of a schedule. -/
inductive DEvent where
  /-- a side encrypts a plaintext for the other -/
  | send (s : Side) (plaintext : Bytes)
  /-- a side is handed the `i`-th message the other side has sent; a message may be delivered late, often or never -/
  | deliver (s : Side) (i : Nat) (rand : Bytes)

/-- Both users, the messages each has sent (with their plaintexts), and the ratchet keys and counters of the messages each
has accepted, in the order of acceptance. -/
structure DSys where
  world : Side → World
  sent : Side → List (Ciphertext × Bytes) := fun _ => []
  got : Side → List (PubKey × UInt32) := fun _ => []

/-- A message after it has been serialised and parsed again. -/
def Ciphertext.reparse : Ciphertext → Res Ciphertext
  | .signal m => do
    let m' ← newSignalFromBytes m.serialized
    return .signal m'
  | .preKey m => do
    let m' ← newPreKeyFromBytes m.serialized
    return .preKey m'
  | c => .ok c

/-- DecryptMessage on the bytes of a message, with this randomness. -/
def Duo.receive (d : Duo) (s : Side) (c : Ciphertext) (rand : Bytes) (w : World) : Res (Option Bytes) × World :=
  match c.reparse with
  | .ok c' => decryptMessage (d.env s) (d.address s.other) c' { w with rand := rand, faults := [] }
  | .err e => (.err e, w)
  | .panic => (.panic, w)

def Duo.step (d : Duo) (S : DSys) : DEvent → DSys
  | .send s pt =>
    let (r, w) := encryptMessage (d.env s) (d.address s.other) pt { S.world s with faults := [] }
    match r with
    | .ok c => { S with world := upd S.world s w, sent := upd S.sent s (S.sent s ++ [(c, pt)]) }
    | _ => { S with world := upd S.world s w }
  | .deliver s i rand =>
    match (S.sent s.other)[i]? with
    | none => S
    | some (c, _) =>
      let (r, w) := d.receive s c rand (S.world s)
      match r, c.position with
      | .ok (some _), some pos => { S with world := upd S.world s w, got := upd S.got s (S.got s ++ [pos]) }
      | _, _ => { S with world := upd S.world s w }

def Duo.run (d : Duo) (S : DSys) (es : List DEvent) : DSys := es.foldl d.step S

/-- A bundle that offers keys held by this user. A one-time pre-key must not have the id 0 (see C53). -/
structure Offers (C : Crypto) (w : World) (b : Bundle) : Prop where
  identity : b.identityKey = w.identity.pub ∧ w.identity.Matched C
  signed : ∃ k : KeyPair, k.Matched C ∧ b.signedPreKeyPublic = k.pub ∧ w.signedPreKeys b.signedPreKeyID = some (PreKeyRec.new k)
  signature : b.identityKey.verifySignature C b.signedPreKeySignature [b.signedPreKeyPublic.bytes] = .ok true
  oneTime : (b.preKeyID = none ∧ b.preKeyPublic = none) ∨
    ∃ (id : UInt32) (k : KeyPair), id ≠ 0 ∧ k.Matched C ∧ b.preKeyID = some id ∧ b.preKeyPublic = some k.pub ∧
      w.preKeys id = some (PreKeyRec.new k)

/-- A side trusts the other's identity key, whether it has stored it before or not. -/
def Duo.Trusts (d : Duo) (s : Side) (w : World) (k : PubKey) : Prop :=
  (w.known (d.address s.other) = none ∨ w.known (d.address s.other) = some k) ∧
  ∀ (known : Address → Option PubKey) (dir : Direction),
    known (d.address s.other) = none ∨ known (d.address s.other) = some k → d.trusted s known (d.address s.other) k dir = true

/-- Two users who have not talked to each other, and a bundle of Bob's. -/
structure Duo.Strangers (d : Duo) (alice bob : World) (b : Bundle) : Prop where
  aliceNew : alice.sessions (d.address .bob) = none
  bobNew : bob.sessions (d.address .alice) = none
  aliceKey : alice.identity.Matched d.C
  offers : Offers d.C bob b
  aliceTrusts : d.Trusts .alice alice bob.identity.pub
  bobTrusts : d.Trusts .bob bob alice.identity.pub

/-- The conversation after Alice has processed the bundle. -/
def Duo.start (d : Duo) (alice bob : World) (b : Bundle) (rand : Bytes) : DSys :=
  let alice' := (processPreKeyBundle (d.env .alice) (d.address .bob) b { alice with rand := rand, faults := [] }).2
  { world := fun | .alice => alice' | .bob => bob }

/-- The public key that key generation makes of these random bytes. -/
def publicKeyOf (C : Crypto) (rand : Bytes) : Option PubKey :=
  match (generateKeyPair C rand).1 with
  | .ok k => some k.pub
  | _ => none

/-- The random bytes of the deliveries of a schedule. -/
def deliveryRand : List DEvent → List Bytes
  | [] => []
  | .send _ _ :: es => deliveryRand es
  | .deliver _ _ r :: es => r :: deliveryRand es

/-- Bob's signed pre-key, the ratchet key that Alice makes of the randomness given to ProcessPreKeyBundle (after the 32
bytes for the base key), and those that may be made during the schedule are all different. -/
def FreshKeys (C : Crypto) (b : Bundle) (rand : Bytes) (es : List DEvent) : Prop :=
  let keys := some b.signedPreKeyPublic :: publicKeyOf C (rand.drop 32) :: (deliveryRand es).map (publicKeyOf C)
  none ∉ keys ∧ keys.Nodup

/-- The ratchet keys of accepted messages, in the order in which they were first seen. -/
def chainsSeen (got : List (PubKey × UInt32)) : List PubKey :=
  got.foldl (fun ks p => if p.1 ∈ ks then ks else ks ++ [p.1]) []

/-- The five that were first seen last. -/
def recentChains (got : List (PubKey × UInt32)) : List PubKey := (chainsSeen got).drop ((chainsSeen got).length - 5)

/-- The highest counter accepted under a ratchet key; 0 when there is none. -/
def newestUnder (got : List (PubKey × UInt32)) (k : PubKey) : Nat :=
  got.foldl (fun m p => if p.1 = k then max m p.2.toNat else m) 0

/-- The messages of this chain were accepted in the order in which they were sent: none was older than one before it. -/
def InOrder (got : List (PubKey × UInt32)) (k : PubKey) : Prop :=
  ∀ (before after : List (PubKey × UInt32)) (n : UInt32), got = before ++ (k, n) :: after → newestUnder before k ≤ n.toNat

/-- The windows inside which a message can be read. -/
structure InWindow (got : List (PubKey × UInt32)) (k : PubKey) (n : UInt32) : Prop where
  /-- one of the five most recent receiving chains, or a new one -/
  chain : k ∈ recentChains got ∨ k ∉ chainsSeen got
  /-- not already consumed -/
  unread : (k, n) ∉ got
  /-- at most 25000 ahead -/
  ahead : n.toNat ≤ newestUnder got k + 25000
  /-- at most 2000 behind -/
  behind : newestUnder got k ≤ n.toNat + 2000

/-- How many of these messages carry this ratchet key. -/
def sentUnder (l : List (Ciphertext × Bytes)) (k : PubKey) : Nat := l.countP fun p => decide (p.1.position.map (·.1) = some k)

/-- What is asked of the steps of a schedule: plaintexts are not absurdly long, and a message whose receiving chain has been
dropped is not accepted (the receiver takes its ratchet key for a new one and derives a different key). -/
def DEvent.Ok (d : Duo) (S : DSys) : DEvent → Prop
  | .send _ pt => pt.length < 2 ^ 62
  | .deliver s i rand => ∀ (c : Ciphertext) (pt : Bytes) (k : PubKey) (n : UInt32), (S.sent s.other)[i]? = some (c, pt) →
      c.position = some (k, n) → k ∈ chainsSeen (S.got s) → k ∉ recentChains (S.got s) →
      ∀ p, (d.receive s c rand (S.world s)).1 ≠ .ok (some p)

/-- Every step of the schedule is like that. -/
def Duo.Ok (d : Duo) (S : DSys) : List DEvent → Prop
  | [] => True
  | e :: es => e.Ok d S ∧ d.Ok (d.step S e) es

end Verif
