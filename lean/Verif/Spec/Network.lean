import Verif.Spec.Trouble

/-!
# Vocabulary for networks of users

Any number of users start sessions with each other and exchange messages, through stores that may fail and a network that loses,
reorders, repeats and invents messages. Nothing here is used by the model.
-/

namespace Verif

/-- The users: the primitives they share, the kind of session store and the trust decision of each, and the address of each. -/
structure Net (ι : Type) where
  C : Crypto
  aliased : ι → Bool
  trusted : ι → (Address → Option PubKey) → Address → PubKey → Direction → Bool
  address : ι → Address

def Net.env {ι : Type} (N : Net ι) (i : ι) : Env := ⟨N.C, N.aliased i, N.trusted i⟩

/-- One of two users. -/
def pick {ι : Type} (i j : ι) : Side → ι
  | .alice => i
  | .bob => j

/-- Two of the users, as in `Verif.Spec.Duo`. -/
def Net.duo {ι : Type} (N : Net ι) (i j : ι) : Duo :=
  { C := N.C, aliased := fun s => N.aliased (pick i j s), trusted := fun s => N.trusted (pick i j s), address := fun s => N.address (pick i j s) }

/-- All users; who tried to start a session with whom, with which bundle, and the name of the session; what each user (the first one) has
sent to each other user (the second one), with the plaintexts and the names of the sessions; and what each user (the first one) has
accepted from each other user (the second one). -/
structure NSys (ι : Type) where
  world : ι → World
  started : List (ι × ι × Bundle × Bytes) := []
  sent : ι → ι → List (Ciphertext × Bytes × Bytes) := fun _ _ => []
  got : ι → ι → List (Bytes × PubKey × UInt32) := fun _ _ => []

/-- One step of a schedule; in each of them store calls may fail. -/
inductive NEvent (ι : Type) where
  /-- user `i` processes a bundle of user `j` -/
  | start (i j : ι) (b : Bundle) (rand : Bytes) (faults : List Fault)
  /-- user `i` encrypts a plaintext for user `j` -/
  | send (i j : ι) (plaintext : Bytes) (faults : List Fault)
  /-- user `i` is handed the `n`-th message that user `j` has sent to them -/
  | deliver (i j : ι) (n : Nat) (rand : Bytes) (faults : List Fault)
  /-- user `i` is handed any message, in the name of any address -/
  | inject (i : ι) (a : Address) (c : Ciphertext) (rand : Bytes) (faults : List Fault)
  /-- user `i` changes what is in their pre-key stores -/
  | keys (i : ι) (preKeys signedPreKeys : UInt32 → Option PreKeyRec)

section
variable {ι : Type} [DecidableEq ι]

def upd2 {β : Type} (f : ι → ι → β) (i j : ι) (b : β) : ι → ι → β := upd f i (upd (f i) j b)

def Net.step (N : Net ι) (S : NSys ι) : NEvent ι → NSys ι
  | .start i j b rand faults =>
    let w := (processPreKeyBundle (N.env i) (N.address j) b { S.world i with rand := rand, faults := faults }).2
    { S with world := upd S.world i w, started := S.started ++ [(i, j, b, ((publicKeyOf N.C rand).map fun k => k.bytes).getD [])] }
  | .send i j pt faults =>
    let (r, w) := encryptMessage (N.env i) (N.address j) pt { S.world i with faults := faults }
    match r with
    | .ok c => { S with world := upd S.world i w, sent := upd2 S.sent i j (S.sent i j ++ [(c, pt, (S.world i).talksIn (N.address j))]) }
    | _ => { S with world := upd S.world i w }
  | .deliver i j n rand faults =>
    match (S.sent j i)[n]? with
    | none => S
    | some (c, _, name) =>
      let w := ((N.duo i j).receiveWith .alice c rand faults (S.world i)).2
      match (N.duo i j).tookIn .alice c rand faults (S.world i), c.position with
      | true, some pos => { S with world := upd S.world i w, got := upd2 S.got i j (S.got i j ++ [(name, pos)]) }
      | _, _ => { S with world := upd S.world i w }
  | .inject i a c rand faults =>
    { S with world := upd S.world i (decryptMessage (N.env i) a c { S.world i with rand := rand, faults := faults }).2 }
  | .keys i preKeys signedPreKeys =>
    { S with world := upd S.world i { S.world i with preKeys := preKeys, signedPreKeys := signedPreKeys } }

def Net.run (N : Net ι) (S : NSys ι) (es : List (NEvent ι)) : NSys ι := es.foldl N.step S

/-- Which of the two users `i` and `j` acts on the other, if `k` acts on `l`. -/
def sideOf (i j k l : ι) : Option Side :=
  if k = i ∧ l = j then some .alice else if k = j ∧ l = i then some .bob else none

/-- What two users know about each other. -/
def NSys.between (S : NSys ι) (i j : ι) : MSys :=
  { world := fun s => S.world (pick i j s)
    started := S.started.filterMap fun x => (sideOf i j x.1 x.2.1).map fun s => (s, x.2.2)
    sent := fun s => S.sent (pick i j s) (pick i j s.other)
    got := fun s => S.got (pick i j s) (pick i j s.other) }

/-- The step, without its store failures, if in it one of the two users `i` and `j` starts a session with the other, sends to the other, or
gets a message that the other has sent. -/
def NEvent.between (i j : ι) : NEvent ι → Option MEvent
  | .start k l b rand _ => (sideOf i j k l).map fun s => .start s b rand
  | .send k l pt _ => (sideOf i j k l).map fun s => .send s pt
  | .deliver k l n rand _ => (sideOf i j k l).map fun s => .deliver s n rand
  | _ => none

/-- The pre-keys of user `i` that others have used to start a session that has not arrived yet are as before. -/
def NSys.Keeps (S : NSys ι) (N : Net ι) (i : ι) (w : World) : Prop :=
  ∀ k b name, (k, i, b, name) ∈ S.started →
    ¬ (∃ r u, (S.world i).sessions (N.address k) = some r ∧ r.HasState u ∧ u.aliceBaseKey = name) →
    w.signedPreKeys b.signedPreKeyID = (S.world i).signedPreKeys b.signedPreKeyID ∧
    ∀ id, b.preKeyID = some id → w.preKeys id = (S.world i).preKeys id

/-- What is asked of the steps of a schedule: users do not talk to themselves; a bundle offers keys that its owner holds, and no one-time
pre-key is offered twice; plaintexts are not absurdly long; deliveries and invented messages are as in C82, and a message in the name of
somebody who is none of the users does not name a one-time pre-key that one of the users was offered; pre-keys in use are not removed. -/
def NEvent.Ok (N : Net ι) (S : NSys ι) : NEvent ι → Prop
  | .start i j b _ _ => i ≠ j ∧ Offers N.C (S.world j) b ∧
      ∀ k b' name, (k, j, b', name) ∈ S.started → ∀ id, b'.preKeyID = some id → b.preKeyID ≠ some id
  | .send i j pt _ => i ≠ j ∧ pt.length < 2 ^ 62
  | .deliver i j n rand faults => i ≠ j ∧ (faults = [] ∨ N.aliased i = false) ∧
      ∀ (c : Ciphertext) (pt name : Bytes) (k : PubKey) (m : UInt32), (S.sent j i)[n]? = some (c, pt, name) →
        c.position = some (k, m) → (S.between i j).DeliveryOk (N.duo i j) .alice c name k m rand
  | .inject i a c rand _ =>
      (∀ j, j ≠ i → a = N.address j → (S.between i j).InjectionOk (N.duo i j) .alice c rand) ∧
      ((∀ j, j ≠ i → a ≠ N.address j) → ∀ m id, c = .preKey m → m.preKeyID = some id →
        ∀ k b name, (k, i, b, name) ∈ S.started → b.preKeyID ≠ some id)
  | .keys i preKeys signedPreKeys => S.Keeps N i { S.world i with preKeys := preKeys, signedPreKeys := signedPreKeys }

/-- Every step of the schedule is like that. -/
def Net.Ok (N : Net ι) (S : NSys ι) : List (NEvent ι) → Prop
  | [] => True
  | e :: es => e.Ok N S ∧ N.Ok (N.step S e) es

/-- Users with different addresses who have not talked to each other, with key pairs that fit, who trust each other's identity; before,
anything may have happened between them and others. -/
structure Net.NoSessionYet (N : Net ι) (w : ι → World) : Prop where
  before : ∀ i, Reachable (N.env i) (w i)
  address : ∀ i j, N.address i = N.address j → i = j
  pair : ∀ i j, i ≠ j → (N.duo i j).NoSessionYet fun s => w (pick i j s)

end

end Verif
