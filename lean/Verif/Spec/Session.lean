import Verif.Model.World

/-!
# Vocabulary for the session properties

Histories of API calls, and the observations the properties talk about. Nothing here is used by the model.
-/

namespace Verif

/-- What a user of the session API can do. -/
inductive Op where
  | encrypt (a : Address) (plaintext : Bytes)
  | decrypt (a : Address) (c : Ciphertext)
  | bundle (a : Address) (b : Bundle)
  /-- `PreKeyStore.Store` -/
  | addPreKey (id : UInt32) (k : PreKeyRec)
  /-- `SignedPreKeyStore.Store` -/
  | addSignedPreKey (id : UInt32) (k : PreKeyRec)

/-- One call: with its own random bytes, and with any pattern of store failures. -/
structure Call where
  op : Op
  rand : Bytes
  faults : List Fault := []

/-- What the caller gets back. -/
inductive Out where
  | ciphertext (a : Address) (c : Ciphertext)
  | plaintext (a : Address) (p : Option Bytes)
  | done
  | error (e : Err)
  | panic

def Out.of {α} (f : α → Out) : Res α → Out
  | .ok a => f a
  | .err e => .error e
  | .panic => .panic

/-- Run one call. -/
def Call.run (E : Env) (c : Call) (w0 : World) : Out × World :=
  let w := { w0 with rand := c.rand, faults := c.faults }
  match c.op with
  | .encrypt a pt => let (r, w') := encryptMessage E a pt w; (Out.of (.ciphertext a) r, w')
  | .decrypt a m => let (r, w') := decryptMessage E a m w; (Out.of (.plaintext a) r, w')
  | .bundle a b => let (r, w') := processPreKeyBundle E a b w; (Out.of (fun _ => .done) r, w')
  | .addPreKey id k => (.done, { w with preKeys := upd w.preKeys id (some k) })
  | .addSignedPreKey id k => (.done, { w with signedPreKeys := upd w.signedPreKeys id (some k) })

/-- Run a history; the outputs are in the order of the calls. -/
def runCalls (E : Env) : List Call → World → List Out × World
  | [], w => ([], w)
  | c :: cs, w =>
    let (o, w1) := c.run E w
    let (os, w2) := runCalls E cs w1
    (o :: os, w2)

/-- The world after a history. -/
def after (E : Env) (cs : List Call) (w : World) : World := (runCalls E cs w).2

/-- Nobody has been talked to yet. -/
def World.NoSessions (w : World) : Prop := ∀ a, w.sessions a = none

/-- What some history of calls leads to, starting without sessions; with any random bytes and any store failures still
to come. -/
def Reachable (E : Env) (w : World) : Prop :=
  ∃ (w0 : World) (cs : List Call) (rand : Bytes) (faults : List Fault), w0.NoSessions ∧
    w = { after E cs w0 with rand := rand, faults := faults }

/-- The remote address a call is about. -/
def Op.address : Op → Option Address
  | .encrypt a _ => some a
  | .decrypt a _ => some a
  | .bundle a _ => some a
  | _ => none

/-- The states of a record: the current one and the archived ones, parsed. -/
def Record.HasState (r : Record) (s : SState) : Prop :=
  r.current = some s ∨ ∃ b ∈ r.previous, SState.unmarshal b = .ok s

/-- The limits of protocol/session/state.go:18-21, written out. -/
def SState.Bounded (s : SState) : Prop :=
  s.receiverChains.length ≤ 5 ∧ ∀ c ∈ s.receiverChains, c.messageKeys.length ≤ 2000

/-- Ratchet key and counter of a pairwise message. -/
def Ciphertext.position : Ciphertext → Option (PubKey × UInt32)
  | .signal m => some (m.senderRatchetKey, m.counter)
  | .preKey m => some (m.message.senderRatchetKey, m.message.counter)
  | _ => none

/-- The receiving chain for this ratchet key has reached this counter, and holds no message key for it any more. -/
def SState.Received (s : SState) (ratchetKey : PubKey) (counter : UInt32) : Prop :=
  ∃ c ∈ s.receiverChains, c.senderRatchetKey = ratchetKey.bytes ∧ (∃ ck, c.chainKey = some ck ∧ counter ≤ ck.index) ∧
    ∀ k ∈ c.messageKeys, k.index ≠ counter

/-- Ratchet public key and next counter of the sending chain of a stored session. -/
def SState.sendPosition (s : SState) : Option (Bytes × UInt32) :=
  s.senderChain.bind fun c => c.chainKey.map fun k => (c.senderRatchetKey, k.index)

/-- Ratchet public key and next counter of the session that EncryptMessage would use. -/
def World.sendPosition (w : World) (a : Address) : Option (Bytes × UInt32) :=
  (w.sessions a).bind fun r => r.current.bind SState.sendPosition

/-- The store never fails in this call. -/
def World.Reliable (w : World) : Prop := ∀ f ∈ w.faults, f = Fault.none

/-- A failing store call has no effect. -/
def World.CleanFailures (w : World) : Prop := Fault.after ∉ w.faults

/-- The same world with a store that never fails. -/
def World.calm (w : World) : World := { w with faults := [] }

/-- The states of a record number this many. -/
def Record.size (r : Record) : Nat := r.previous.length + if r.current.isSome then 1 else 0

/-- `State.RemoteIdentityKey`, when there is one. -/
def SState.peer (s : SState) : Option PubKey :=
  match s.remoteIdentityKey with
  | .ok o => o
  | _ => none

/-- The peer of the session that is current for an address. -/
def World.peer (w : World) (a : Address) : Option PubKey :=
  (w.sessions a).bind fun r => r.current.bind SState.peer

/-- The record already has a session that was set up with this version and base key. -/
def Record.Knows (r : Record) (version : UInt32) (baseKey : PubKey) : Prop :=
  ∃ s, r.HasState s ∧ s.version = version ∧ s.aliceBaseKey = baseKey.bytes

/-- All states of a record: the archived ones, oldest first, and then the current one. -/
def Record.states (r : Record) : List SState :=
  (r.previous.filterMap fun b => match SState.unmarshal b with | .ok s => some s | _ => none) ++ r.current.toList

/-- What identifies a session: protocol version, base key, both identity keys and our registration id. -/
def SState.label (s : SState) : UInt32 × Bytes × Bytes × Bytes × UInt32 :=
  (s.version, s.aliceBaseKey, s.localIdentityPublic, s.remoteIdentityPublic, s.localRegistrationId)

/-- The position of the receiving chain for a ratchet key; a chain that does not exist yet will start at 0. -/
def SState.position (s : SState) (ratchetKey : PubKey) : Nat :=
  match s.receiverChains.find? fun c => c.senderRatchetKey = ratchetKey.bytes with
  | some c => match c.chainKey with
    | some k => k.index.toNat
    | none => 0
  | none => 0

/-- The two parties of the session have the same identity key. -/
def SState.WithSelf (s : SState) : Prop := s.localIdentityPublic = s.remoteIdentityPublic

/-- The authenticated part of a pairwise message. -/
def Ciphertext.inner : Ciphertext → Option Signal
  | .signal m => some m
  | .preKey m => some m.message
  | _ => none

/-- The session has a receiving chain for this ratchet key. -/
def SState.HasChain (s : SState) (ratchetKey : PubKey) : Prop := ∃ c ∈ s.receiverChains, c.senderRatchetKey = ratchetKey.bytes

/-- The receiving chain for this ratchet key is past this counter and holds no message key for it. -/
def SState.Spent (s : SState) (ratchetKey : PubKey) (counter : UInt32) : Prop :=
  ∃ c ∈ s.receiverChains, c.senderRatchetKey = ratchetKey.bytes ∧ (∃ ck, c.chainKey = some ck ∧ counter < ck.index) ∧
    ∀ k ∈ c.messageKeys, k.index ≠ counter

/-- What can be done with one session. -/
inductive SEvent where
  | send (plaintext : Bytes)
  | receive (m : Signal) (rand : Bytes)

/-- The session after an event; it changes only when the event succeeds. -/
def SState.step (C : Crypto) (s : SState) : SEvent → SState
  | .send pt => match encryptState C s pt with
    | .ok (_, s', _) => s'
    | _ => s
  | .receive m rd => match (decryptMessageSession C s m rd).1 with
    | .ok (_, s') => s'
    | _ => s

/-- The session after some events. -/
def SState.run (C : Crypto) (s : SState) (evs : List SEvent) : SState := evs.foldl (SState.step C) s

/-- A message as the parsing functions return it. -/
def Ciphertext.Parsed : Ciphertext → Prop
  | .signal m => ∃ bytes, newSignalFromBytes bytes = .ok m
  | .preKey m => ∃ bytes, newPreKeyFromBytes bytes = .ok m
  | _ => True

/-- No Diffie-Hellman value of the key agreement for this pre-key message is zero, and the named signed pre-key is in
the store. -/
structure PreKeyMsg.Acceptable (m : PreKeyMsg) (C : Crypto) (w : World) : Prop where
  signed : (w.signedPreKeys m.signedPreKeyID).isSome
  points : ∀ (p : PreKeyRec) (k : KeyPair), w.signedPreKeys m.signedPreKeyID = some p → p.keyPair = .ok k →
    (C.dh k.priv.key m.identityKey.keyBytes).isSome ∧ (C.dh k.priv.key m.baseKey.keyBytes).isSome
  identity : (C.dh w.identity.priv.key m.baseKey.keyBytes).isSome
  oneTime : ∀ (id : UInt32) (p : PreKeyRec) (k : KeyPair), m.preKeyID = some id → w.preKeys id = some p → p.keyPair = .ok k →
    (C.dh k.priv.key m.baseKey.keyBytes).isSome

end Verif
