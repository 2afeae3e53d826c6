import Verif.Spec.Reading
import Verif.Spec.Conformity

/-!
# What the receiver can write

The bytes of messages to Bob, computed by Bob: from Bob's own key pairs and stored secrets and from public keys. Nothing here takes a
private key of anyone else.
-/

namespace Verif

namespace Doc

/-- X3DH as Bob computes it: signed pre-key with Alice's identity, then identity, signed pre-key and one-time pre-key (if there is one)
with Alice's base key; preceded by 32 bytes FF. -/
def x3dhBob (C : Crypto) (identity signed : KeyPair) (oneTime : Option KeyPair) (theirIdentity theirBase : PubKey) : Keys :=
  derive C (List.replicate 32 0xFF ++ agree C signed theirIdentity ++ agree C identity theirBase ++ agree C signed theirBase ++
    match oneTime with
    | some k => agree C k theirBase
    | none => []) [] (ascii "WhisperText")

/-- A Signal message made with 80 secret bytes (cipher key, MAC key and IV). -/
def signalUnder (C : Crypto) (secrets : Bytes) (ratchetKey : PubKey) (n previous : UInt32) (sender receiver : PubKey) (plaintext : Bytes) : Bytes :=
  let body := version :: (bytes 1 (wireKey ratchetKey) ++ number 2 n ++ number 3 previous ++
    bytes 4 (aesCbc C (secrets.take 32) (secrets.drop 64) plaintext))
  body ++ (C.hmac ((secrets.drop 32).take 32) (wireKey sender ++ wireKey receiver ++ body)).take 8

/-- Bob's key pairs for a session set-up and the ids they are stored under. -/
structure BobKeys where
  identity : KeyPair
  signedId : UInt32
  signed : KeyPair
  oneTimeId : Option UInt32
  oneTime : Option KeyPair

/-- A message to Bob that sets up a session and names `claimed` as its sender; `base` and `ratchet` are any public keys. -/
def firstMessage (C : Crypto) (bob : BobKeys) (claimed base ratchet : PubKey) (registration n previous : UInt32) (plaintext : Bytes) : Bytes :=
  let start := x3dhBob C bob.identity bob.signed bob.oneTime claimed base
  let chain := (derive C (agree C bob.signed ratchet) start.root (ascii "WhisperRatchet")).chain
  preKeyMessage registration bob.oneTimeId bob.signedId base claimed (signalMessage C chain ratchet n previous claimed bob.identity.pub plaintext)

/-- The root and chain keys after each turn of the ratchet, as Bob computes them: the even ratchet keys are Bob's, of the odd ones
only the public half is used. -/
def ratchetBob (C : Crypto) (start : Keys) (bob : Nat → KeyPair) (alice : Nat → PubKey) : Nat → Keys
  | 0 => start
  | i + 1 => derive C (if i % 2 = 0 then agree C (bob i) (alice (i + 1)) else agree C (bob (i + 1)) (alice i))
      (ratchetBob C start bob alice i).root (ascii "WhisperRatchet")

end Doc

/-- Bob has these key pairs in the stores under these ids; `oneTime` is none when there is none under `oneTimeId`. -/
structure World.HasKeys (w : World) (k : Doc.BobKeys) : Prop where
  identity : k.identity = w.identity
  signed : ∃ rec, w.signedPreKeys k.signedId = some rec ∧ rec.keyPair = .ok k.signed
  oneTime : k.oneTime = none ∧ k.oneTimeId.bind w.preKeys = none ∨
    ∃ rec pair, k.oneTimeId.bind w.preKeys = some rec ∧ rec.keyPair = .ok pair ∧ k.oneTime = some pair

/-- The next message of a side of a conversation (as in `Plan.wire`), computed from Bob's key pairs, Alice's public keys (identity,
base key, ratchet keys), the registration id in Alice's envelopes, and how many messages were exchanged. -/
def Doc.BobKeys.wire (k : Doc.BobKeys) (C : Crypto) (registration : UInt32) (aliceIdentity base : PubKey) (bob : Nat → KeyPair) (alice : Nat → PubKey)
    (S : DSys) (s : Side) (plaintext : Bytes) : Bytes :=
  let e := turn S s
  let key := fun i => if i % 2 = 0 then (bob i).pub else alice i
  let n := sentUnder (S.sent s) (key e)
  let previous := if e < 2 then 0 else sentUnder (S.sent s) (key (e - 2)) - 1
  let identity : Side → PubKey := fun
    | .alice => aliceIdentity
    | .bob => k.identity.pub
  let message := Doc.signalMessage C (Doc.ratchetBob C (Doc.x3dhBob C k.identity k.signed k.oneTime aliceIdentity base) bob alice e).chain (key e)
    (UInt32.ofNat n) (UInt32.ofNat previous) (identity s) (identity s.other) plaintext
  if s = .alice ∧ S.got .alice = [] then Doc.preKeyMessage registration k.oneTimeId k.signedId base aliceIdentity message else message

end Verif
