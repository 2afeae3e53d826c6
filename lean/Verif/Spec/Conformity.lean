import Verif.Spec.Group
import Verif.Spec.Duo
import Verif.Spec.Protocol

/-!
# What a pairwise conversation must look like on the wire

The bytes of every message, as a function of the keys and of what the sender has sent and accepted so far.
-/

namespace Verif

/-- What is fixed when Alice sets up the session. -/
structure Plan where
  /-- the outcome of X3DH -/
  start : Doc.Keys
  /-- Alice's registration id -/
  registration : UInt32
  /-- the pre-keys Alice used -/
  oneTime : Option UInt32
  signed : UInt32
  base : PubKey
  identity : Side → PubKey

/-- Which ratchet key a side sends with. Number 0 is Bob's signed pre-key, number 1 the key Alice makes for the set-up; a side
makes a new key (two higher) whenever it accepts the first message under a new key of the other side. -/
def turn (S : DSys) (s : Side) : Nat :=
  (match s with
    | .alice => 1
    | .bob => 0) + 2 * (chainsSeen (S.got s)).length

/-- The next message of a side. Messages are counted from 0 under each ratchet key; the header also tells the number of the last
message under the sender's previous key. Alice's messages are in pre-key envelopes until Alice has accepted one of Bob's. -/
def Plan.wire (P : Plan) (C : Crypto) (keys : Nat → KeyPair) (S : DSys) (s : Side) (plaintext : Bytes) : Bytes :=
  let e := turn S s
  let n := sentUnder (S.sent s) (keys e).pub
  let previous := if e < 2 then 0 else sentUnder (S.sent s) (keys (e - 2)).pub - 1
  let message := Doc.signalMessage C (Doc.ratchet C P.start keys e).chain (keys e).pub (UInt32.ofNat n) (UInt32.ofNat previous)
    (P.identity s) (P.identity s.other) plaintext
  if s = .alice ∧ S.got .alice = [] then Doc.preKeyMessage P.registration P.oneTime P.signed P.base (P.identity .alice) message
  else message

/-- The bytes of a pairwise message. -/
def Ciphertext.wire : Ciphertext → Option Bytes
  | .signal m => some m.serialized
  | .preKey m => some m.serialized
  | _ => none

/-! ## Groups -/

/-- A call that can have created the sender's chain: the chain id is half of four random bytes of the system, the first chain key is
the first 32 bytes read from the caller's source and the signing key is made of the following ones. -/
structure GCall.Creates (C : Crypto) (k : Address × DistId) (cid : UInt32) (first : Bytes) (signing : KeyPair) (c : GCall) : Prop where
  op : c.op = .distribute k.1 k.2
  chain : 4 ≤ c.sysRand.length ∧ cid.toNat = leNat (c.sysRand.take 4) / 2
  first : first = c.rand.take 32
  signing : (generateKeyPair C (c.rand.drop 32)).1 = .ok signing

/-- The user does not add another sender's chain under their own name, and plaintexts are not absurdly long. -/
structure GCall.Sends (k : Address × DistId) (c : GCall) : Prop where
  foreign : ∀ a d, c.op = .process a d → c.op.key ≠ k
  sizes : ∀ a d pt, c.op = .encrypt a d pt → pt.length < 2 ^ 63

end Verif
