import Verif.Model.Group

/-!
# Vocabulary for the group properties

Histories of group API calls, and the observations the properties talk about. Nothing here is used by the model.
-/

namespace Verif

/-- What a user of the group API can do. `sender` is the address in the `GroupSession`. -/
inductive GOp where
  /-- `GroupSession.EncryptMessage` -/
  | encrypt (sender : Address) (dist : DistId) (plaintext : Bytes)
  /-- `GroupSession.DecryptMessage` -/
  | decrypt (sender : Address) (m : SenderKeyMsg)
  /-- `GroupSession.ProcessSenderKeyDistribution` -/
  | process (sender : Address) (d : DistributionMsg)
  /-- `GroupSession.NewSenderKeyDistribution` -/
  | distribute (sender : Address) (dist : DistId)

/-- One call, with its own random bytes and any pattern of store failures. -/
structure GCall where
  op : GOp
  rand : Bytes := []
  sysRand : Bytes := []
  faults : List Fault := []

/-- What the caller gets back. -/
inductive GOut where
  | ciphertext (sender : Address) (dist : DistId) (m : SenderKeyMsg)
  | plaintext (sender : Address) (m : SenderKeyMsg) (p : Bytes)
  | distribution (sender : Address) (dist : DistId) (d : DistributionMsg)
  | done
  | error (e : Err)
  | panic

def GOut.of {α} (f : α → GOut) : Res α → GOut
  | .ok a => f a
  | .err e => .error e
  | .panic => .panic

/-- The primitives, and whether the store hands out its own records (the in-memory store) or copies. -/
structure GEnv where
  C : Crypto
  aliased : Bool

/-- Run one call. -/
def GCall.run (E : GEnv) (c : GCall) (w0 : GWorld) : GOut × GWorld :=
  let w := { w0 with rand := c.rand, sysRand := c.sysRand, faults := c.faults }
  match c.op with
  | .encrypt a d pt => let (r, w') := groupEncrypt E.C E.aliased a d pt w; (GOut.of (.ciphertext a d) r, w')
  | .decrypt a m => let (r, w') := groupDecrypt E.C E.aliased a m w; (GOut.of (.plaintext a m) r, w')
  | .process a d => let (r, w') := processDistribution E.aliased a d w; (GOut.of (fun _ => .done) r, w')
  | .distribute a d => let (r, w') := newSenderKeyDistribution E.C a d w; (GOut.of (.distribution a d) r, w')

/-- Run a history; the outputs are in the order of the calls. -/
def runGCalls (E : GEnv) : List GCall → GWorld → List GOut × GWorld
  | [], w => ([], w)
  | c :: cs, w =>
    let (o, w1) := c.run E w
    let (os, w2) := runGCalls E cs w1
    (o :: os, w2)

/-- The world after a history. -/
def gAfter (E : GEnv) (cs : List GCall) (w : GWorld) : GWorld := (runGCalls E cs w).2

/-- No group has been used yet. -/
def GWorld.Empty (w : GWorld) : Prop := ∀ k, w.records k = none

/-- What some history of calls leads to, starting from an empty store; with any random bytes and any failures still to
come. -/
def GReachable (E : GEnv) (w : GWorld) : Prop :=
  ∃ (w0 : GWorld) (cs : List GCall) (rand sysRand : Bytes) (faults : List Fault), w0.Empty ∧
    w = { gAfter E cs w0 with rand := rand, sysRand := sysRand, faults := faults }

/-- The store and distribution id a call works on. -/
def GOp.key : GOp → Address × DistId
  | .encrypt a d _ => (a, d)
  | .decrypt a m => (a, m.distID)
  | .process a d => (a, d.distID)
  | .distribute a d => (a, d)

/-- As far as this group is concerned, the call is one of a receiver: it is not an encryption, and a message it delivers
is below the last 32-bit iteration. -/
def GCall.Receives (k : Address × DistId) (c : GCall) : Prop :=
  c.op.key = k → (∀ a d pt, c.op ≠ .encrypt a d pt) ∧ (∀ a m, c.op = .decrypt a m → m.iteration.toNat + 1 < 2 ^ 32)

/-- A store with a state for this chain id and signing key. -/
def GRecord.Holds (g : GRecord) (chainID : UInt32) (signingKey : PubKey) (s : GState) : Prop :=
  s ∈ g ∧ s.chainId = chainID ∧ s.signingPublic = signingKey.bytes

/-- The iteration of a message that `EncryptMessage` returned for this group. -/
def GOut.sentIteration (k : Address × DistId) : GOut → Option UInt32
  | .ciphertext a d m => if (a, d) = k then some m.iteration else none
  | _ => none

/-- The iterations of the messages returned for this group, in order. -/
def sentIterations (k : Address × DistId) (outs : List GOut) : List UInt32 := outs.filterMap (GOut.sentIteration k)

/-- How far one call for this group can move the sender's chain. -/
def GCall.reach (k : Address × DistId) (c : GCall) : Nat :=
  if c.op.key = k then
    match c.op with
    | .encrypt .. => 1
    | .decrypt .. => 25001
    | _ => 0
  else 0

/-! ## A sender and a receiver -/

/-- A sender, a receiver, the messages sent so far with their plaintexts, and the iterations the receiver has accepted. -/
structure GSys where
  sender : GWorld
  receiver : GWorld
  sent : List (SenderKeyMsg × Bytes) := []
  accepted : List Nat := []

/-- The network and the rest of the world. -/
inductive GEvent where
  /-- the sender encrypts, with any random bytes and store failures -/
  | send (pt : Bytes) (rand : Bytes) (faults : List Fault)
  /-- the bytes of the `i`-th message sent arrive: at any time, any number of times, or never -/
  | deliver (i : Nat)
  /-- another message arrives -/
  | foreign (m : SenderKeyMsg) (faults : List Fault)
  /-- calls for other groups -/
  | senderCall (c : GCall)
  | receiverCall (c : GCall)

/-- Who talks: the primitives, the two kinds of store, the sender's address and the distribution id. -/
structure GPair where
  C : Crypto
  senderAliased : Bool
  receiverAliased : Bool
  address : Address
  dist : DistId

/-- The receiver parses and decrypts the bytes of a message. -/
def GPair.receive (P : GPair) (bytes : Bytes) (w : GWorld) : Res Bytes × GWorld :=
  match newSenderKeyFromBytes bytes with
  | .ok m => groupDecrypt P.C P.receiverAliased P.address m { w with faults := [] }
  | .err e => (.err e, w)
  | .panic => (.panic, w)

def GPair.step (P : GPair) (s : GSys) : GEvent → GSys
  | .send pt rand faults =>
    match groupEncrypt P.C P.senderAliased P.address P.dist pt { s.sender with rand := rand, faults := faults } with
    | (.ok m, w) => { s with sender := w, sent := s.sent ++ [(m, pt)] }
    | (_, w) => { s with sender := w }
  | .deliver i =>
    match s.sent[i]? with
    | none => s
    | some (m, _) =>
      match P.receive m.serialized s.receiver with
      | (.ok _, w) => { s with receiver := w, accepted := m.iteration.toNat :: s.accepted }
      | (_, w) => { s with receiver := w }
  | .foreign m faults =>
    { s with receiver := (groupDecrypt P.C P.receiverAliased P.address m { s.receiver with faults := faults }).2 }
  | .senderCall c => if c.op.key = (P.address, P.dist) then s else { s with sender := (c.run ⟨P.C, P.senderAliased⟩ s.sender).2 }
  | .receiverCall c => if c.op.key = (P.address, P.dist) then s else { s with receiver := (c.run ⟨P.C, P.receiverAliased⟩ s.receiver).2 }

def GPair.run (P : GPair) : GSys → List GEvent → GSys
  | s, [] => s
  | s, e :: es => P.run (P.step s e) es

/-- The next iteration of a receiver that started at `start`: one after the newest accepted. -/
def nextIteration (start : Nat) (accepted : List Nat) : Nat := accepted.foldr (fun n m => max (n + 1) m) start

/-- How many iterations between `n` and the newest accepted one have not been accepted. -/
def outstanding (accepted : List Nat) (n : Nat) : Nat :=
  ((List.range (nextIteration 0 accepted)).filter fun i => n < i ∧ i ∉ accepted).length

/-- How often the sender encrypts. -/
def sends (es : List GEvent) : Nat := es.countP fun e => match e with
  | .send .. => true
  | _ => false

/-- What is asked of an event: plaintexts are not absurdly long, and messages from elsewhere do not carry a valid signature
of the sender for this chain. -/
def GEvent.Ok (P : GPair) (cid : UInt32) (pk : PubKey) : GEvent → Prop
  | .send pt _ _ => pt.length < 2 ^ 63
  | .foreign m _ => m.distID = P.dist → m.chainID = cid → m.verifySignature P.C pk ≠ .ok true
  | _ => True

end Verif
