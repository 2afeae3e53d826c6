import Verif.Spec.Group
import Verif.Spec.Duo

/-!
# Vocabulary for groups of several members

One sender and any number of members. The sender's key reaches every member inside a pairwise session; then every member
gets the group messages from the network at its own pace. Nothing here is used by the model.
-/

namespace Verif

/-- Who talks to whom: the primitives, the sender's group store, that of every member, the sender's address and the
distribution id. -/
structure GMembers (ι : Type) where
  C : Crypto
  senderAliased : Bool
  memberAliased : ι → Bool
  address : Address
  dist : DistId

/-- The sender, the members, the messages sent so far with their plaintexts, and the iterations every member has
accepted. -/
structure GMSys (ι : Type) where
  sender : GWorld
  member : ι → GWorld
  sent : List (SenderKeyMsg × Bytes) := []
  accepted : ι → List Nat := fun _ => []

/-- One step. -/
inductive GMEvent (ι : Type) where
  /-- the sender encrypts one message for all members, with any random bytes and store failures -/
  | send (pt : Bytes) (rand : Bytes) (faults : List Fault)
  /-- the bytes of the `i`-th message arrive at this member: at any time, any number of times, or never -/
  | deliver (r : ι) (i : Nat)
  /-- another message arrives at this member -/
  | foreign (r : ι) (m : SenderKeyMsg) (faults : List Fault)

/-- A member parses and decrypts the bytes of a message. -/
def GMembers.receive {ι : Type} (P : GMembers ι) (r : ι) (bytes : Bytes) (w : GWorld) : Res Bytes × GWorld :=
  match newSenderKeyFromBytes bytes with
  | .ok m => groupDecrypt P.C (P.memberAliased r) P.address m { w with faults := [] }
  | .err e => (.err e, w)
  | .panic => (.panic, w)

def GMembers.step {ι : Type} [DecidableEq ι] (P : GMembers ι) (s : GMSys ι) : GMEvent ι → GMSys ι
  | .send pt rand faults =>
    match groupEncrypt P.C P.senderAliased P.address P.dist pt { s.sender with rand := rand, faults := faults } with
    | (.ok m, w) => { s with sender := w, sent := s.sent ++ [(m, pt)] }
    | (_, w) => { s with sender := w }
  | .deliver r i =>
    match s.sent[i]? with
    | none => s
    | some (m, _) =>
      match P.receive r m.serialized (s.member r) with
      | (.ok _, w) => { s with member := upd s.member r w, accepted := upd s.accepted r (m.iteration.toNat :: s.accepted r) }
      | (_, w) => { s with member := upd s.member r w }
  | .foreign r m faults =>
    let w := (groupDecrypt P.C (P.memberAliased r) P.address m { s.member r with faults := faults }).2
    { s with member := upd s.member r w }

def GMembers.run {ι : Type} [DecidableEq ι] (P : GMembers ι) (s : GMSys ι) (es : List (GMEvent ι)) : GMSys ι := es.foldl P.step s

/-- What is asked of an event: plaintexts are not absurdly long, and messages from elsewhere do not carry a valid signature
of the sender for this chain. -/
def GMEvent.Ok {ι : Type} (P : GMembers ι) (cid : UInt32) (pk : PubKey) : GMEvent ι → Prop
  | .send pt _ _ => pt.length < 2 ^ 63
  | .deliver _ _ => True
  | .foreign _ m _ => m.distID = P.dist → m.chainID = cid → m.verifySignature P.C pk ≠ .ok true

/-- How often the sender encrypts. -/
def GMEvent.sends {ι : Type} (es : List (GMEvent ι)) : Nat := es.countP fun e => match e with
  | .send .. => true
  | _ => false

/-- What one member has to do with the pairwise session before the group messages: the two users of the session, which of
them is the sender, how the session was set up, what has happened in it so far, and the message that carries the sender
key. -/
structure Handover where
  duo : Duo
  side : Side
  alice : World
  bob : World
  bundle : Bundle
  rand : Bytes
  before : List DEvent
  index : Nat
  message : Ciphertext
  position : PubKey × UInt32
  deliveryRand : Bytes

/-- The pairwise conversation before the sender key is delivered. -/
def Handover.conversation (h : Handover) : DSys := h.duo.run (h.duo.start h.alice h.bob h.bundle h.rand) h.before

/-- The conversation is an ordinary one (as in C01), and this message is one the sender has sent with this plaintext; the
member has not read it and it is inside the windows. -/
structure Handover.Carries (h : Handover) (plaintext : Bytes) : Prop where
  strangers : h.duo.Strangers h.alice h.bob h.bundle
  fresh : FreshKeys h.duo.C h.bundle h.rand (h.before ++ [.deliver h.side.other h.index h.deliveryRand])
  ok : h.duo.Ok (h.duo.start h.alice h.bob h.bundle h.rand) h.before
  short : h.before.length < 2 ^ 32
  sent : (h.conversation.sent h.side)[h.index]? = some (h.message, plaintext)
  position_eq : h.message.position = some h.position
  window : InWindow (h.conversation.got h.side.other) h.position.1 h.position.2

/-- What the member's DecryptMessage returns for the bytes of that message. -/
def Handover.received (h : Handover) : Res (Option Bytes) :=
  (h.duo.receive h.side.other h.message h.deliveryRand (h.conversation.world h.side.other)).1

/-- What the member does with a plaintext that carries a sender key: parse it and process it. -/
def GMembers.accept {ι : Type} (P : GMembers ι) (r : ι) (plaintext : Bytes) (w : GWorld) : Res Unit × GWorld :=
  match newDistributionFromBytes plaintext with
  | .ok d => processDistribution (P.memberAliased r) P.address d { w with faults := [] }
  | .err e => (.err e, w)
  | .panic => (.panic, w)

end Verif
