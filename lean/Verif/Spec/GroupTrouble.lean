import Verif.Spec.Group

/-!
# Vocabulary for groups with failing stores and many sender keys

The schedules of `Verif.Spec.Group`, with store failures at any point of a delivery, with the sender handing out its key again, and with
further distribution messages in the sender's name (repeated ones, and those of other sender keys, for example because the
sender has lost its store and started again). Nothing here is used by the model.
-/

namespace Verif

/-- One step of a schedule. -/
inductive GTEvent where
  /-- a step of `Verif.Spec.Group` -/
  | plain (e : GEvent)
  /-- the bytes of the `i`-th message sent arrive; store calls may fail -/
  | deliver (i : Nat) (faults : List Fault)
  /-- the sender calls NewSenderKeyDistribution again; store calls may fail -/
  | distribute (rand sysRand : Bytes) (faults : List Fault)
  /-- the receiver processes any distribution message in the sender's name; store calls may fail -/
  | process (d : DistributionMsg) (faults : List Fault)

/-- A sender, a receiver, and `others`: the chain ids of the other sender keys that the receiver has been handed since it last processed
the one we talk about. -/
structure GTSys extends GSys where
  others : List UInt32 := []

/-- The receiver parses and decrypts the bytes of a message, with these outcomes of the store calls. -/
def GPair.receiveWith (P : GPair) (bytes : Bytes) (faults : List Fault) (w : GWorld) : Res Bytes × GWorld :=
  match newSenderKeyFromBytes bytes with
  | .ok m => groupDecrypt P.C P.receiverAliased P.address m { w with faults := faults }
  | .err e => (.err e, w)
  | .panic => (.panic, w)

/-- The message has been taken in: with a store that does not fail it would be read, and the stored record is the one after reading
it. When the store call fails afterwards, the caller gets an error instead of the plaintext. -/
def GPair.tookIn (P : GPair) (bytes : Bytes) (faults : List Fault) (w : GWorld) : Bool :=
  (match (P.receive bytes w).1 with
    | .ok _ => true
    | _ => false) &&
  decide ((P.receiveWith bytes faults w).2.records (P.address, P.dist) = (P.receive bytes w).2.records (P.address, P.dist))

def GPair.tstep (P : GPair) (cid : UInt32) (S : GTSys) : GTEvent → GTSys
  | .plain e => { S with toGSys := P.step S.toGSys e }
  | .deliver i faults =>
    match S.sent[i]? with
    | none => S
    | some (m, _) =>
      let w := (P.receiveWith m.serialized faults S.receiver).2
      if P.tookIn m.serialized faults S.receiver then { S with receiver := w, accepted := m.iteration.toNat :: S.accepted }
      else { S with receiver := w }
  | .distribute rand sysRand faults =>
    { S with sender := (newSenderKeyDistribution P.C P.address P.dist { S.sender with rand := rand, sysRand := sysRand, faults := faults }).2 }
  | .process d faults =>
    let (r, w) := processDistribution P.receiverAliased P.address d { S.receiver with faults := faults }
    { S with receiver := w,
             others := if d.distID ≠ P.dist then S.others
               else if d.chainID ≠ cid then S.others.insert d.chainID
               else if r = .ok () then [] else S.others }

def GPair.trun (P : GPair) (cid : UInt32) : GTSys → List GTEvent → GTSys
  | S, [] => S
  | S, e :: es => P.trun cid (P.tstep cid S e) es

/-- How often the sender encrypts. -/
def tsends (es : List GTEvent) : Nat := es.countP fun e => match e with
  | .plain (.send ..) => true
  | _ => false

/-- What is asked of a step: that of `GEvent.Ok`; and a distribution message in the sender's name with this chain id has the
sender's signing key. -/
def GTEvent.Ok (P : GPair) (cid : UInt32) (pk : PubKey) : GTEvent → Prop
  | .plain e => e.Ok P cid pk
  | .process d _ => d.distID = P.dist → d.chainID = cid → d.signingKey = pk
  | _ => True

end Verif
