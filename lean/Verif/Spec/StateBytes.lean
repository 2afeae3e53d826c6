import Verif.Model.StateBytes

/-!
# Programs that look at a session state and hold bytes

A program has a session state. It calls the accessors, holds the byte slices they return, and writes to slices. The same program is run
twice: over memory, and over values, where byte strings have no place in memory. Two kinds of slices are kept apart: those of the four
accessors that hand out the stored bytes themselves (`shared`), and all others (`own`). A write to a slice that does not exist, or past
its end, does nothing.
-/

namespace Verif

/-- The accessors that return stored bytes. -/
inductive SharedField where
  /-- `AliceBaseKey()` -/
  | aliceBaseKey
  /-- `RootKey()`, `Bytes()` of it -/
  | rootKey
  /-- `SenderChainKey()`, `Key()` of it -/
  | senderChainKey
  /-- `ReceiverChainKey(sender)`, `Key()` of it -/
  | receiverChainKey (sender : PubKey)

/-- The accessors that return new bytes. -/
inductive CopiedField where
  /-- `LocalIdentityKey()`, `Bytes()` of it -/
  | localIdentityKey
  /-- `RemoteIdentityKey()`, `Bytes()` of it -/
  | remoteIdentityKey
  /-- `SenderRatchetKey()`, `Bytes()` of it -/
  | senderRatchetKey
  /-- `SenderRatchetPrivateKey()`, `Bytes()` of it -/
  | senderRatchetPrivateKey
  /-- `UnacknowledgedPreKeyMessages()`, `Bytes()` of its `BaseKey()` -/
  | pendingBaseKey
  /-- `Bytes()` -/
  | bytes

/-- What a program can do. -/
inductive StateOp where
  | shared (field : SharedField)
  | copied (field : CopiedField)
  /-- `MessageKeys(sender, counter)`, `CipherKey()`, `MACKey()` and `IV()` of them -/
  | messageKeys (sender : PubKey) (counter : UInt32)
  /-- write to a held slice, from this offset -/
  | write (slice offset : Nat) (bytes : Bytes)
  /-- write to a slice that one of the `shared` accessors returned -/
  | writeShared (slice offset : Nat) (bytes : Bytes)

/-- The program only looks: it neither takes out message keys nor writes to bytes that a `shared` accessor returned. -/
def StateOp.Looks : StateOp → Prop
  | .messageKeys _ _ | .writeShared _ _ _ => False
  | _ => True

/-! ## Over memory -/

structure StateMem where
  heap : Heap
  state : StateOf Slice
  own : List Slice := []
  shared : List Slice := []

/-- The program has parsed a stored session, and holds slices from before. -/
def StateMem.start (s : SState) (heap : Heap) (own : List Slice) : StateMem :=
  { heap := (newStateBytes s heap).2, state := (newStateBytes s heap).1, own := own }

def SharedField.slice (h : Heap) (s : StateOf Slice) : SharedField → Res (Option Slice)
  | .aliceBaseKey => do return some (← s.aliceBaseKeySlice)
  | .rootKey => do return some (← s.rootKeySlice)
  | .senderChainKey => do return some (← s.senderChainKeySlice)
  | .receiverChainKey sender => s.receiverChainKeySlice h sender

def CopiedField.slice (C : Crypto) (s : StateOf Slice) : CopiedField → M Heap (Option Slice)
  | .localIdentityKey => do return some (← s.localIdentityKeyBytes)
  | .remoteIdentityKey => s.remoteIdentityKeyBytes
  | .senderRatchetKey => do return some (← s.senderRatchetKeyBytes)
  | .senderRatchetPrivateKey => do return some (← s.senderRatchetPrivateKeyBytes C)
  | .pendingBaseKey => s.pendingBaseKeyBytes
  | .bytes => do return some (← s.stateBytes)

/-- Writing to a slice, if the bytes fit. -/
def StateMem.writeTo (m : StateMem) (x : Slice) (offset : Nat) (bytes : Bytes) : StateMem :=
  if offset + bytes.length ≤ x.len then { m with heap := m.heap.modify x.arr fun a => overwrite a (x.off + offset) bytes } else m

/-- One operation: the bytes the program gets (none for a write, and for an accessor that says there is no such thing), and what is there
afterwards. -/
def StateMem.step (C : Crypto) (m : StateMem) : StateOp → Res (List Bytes) × StateMem
  | .shared f => match f.slice m.heap m.state with
    | .ok (some x) => (.ok [m.heap.read x], { m with shared := m.shared ++ [x] })
    | .ok none => (.ok [], m)
    | .err e => (.err e, m)
    | .panic => (.panic, m)
  | .copied f => match f.slice C m.state m.heap with
    | (.ok (some x), h) => (.ok [h.read x], { m with heap := h, own := m.own ++ [x] })
    | (.ok none, h) => (.ok [], { m with heap := h })
    | (.err e, h) => (.err e, { m with heap := h })
    | (.panic, h) => (.panic, { m with heap := h })
  | .messageKeys sender counter => match m.state.messageKeySlices m.heap sender counter with
    | (.ok (some (x, y, z)), s) => (.ok [m.heap.read x, m.heap.read y, m.heap.read z], { m with state := s, own := m.own ++ [x, y, z] })
    | (.ok none, s) => (.ok [], { m with state := s })
    | (.err e, s) => (.err e, { m with state := s })
    | (.panic, s) => (.panic, { m with state := s })
  | .write i offset bytes => match m.own[i]? with
    | some x => (.ok [], m.writeTo x offset bytes)
    | none => (.ok [], m)
  | .writeShared i offset bytes => match m.shared[i]? with
    | some x => (.ok [], m.writeTo x offset bytes)
    | none => (.ok [], m)

/-- A program over memory: the answers, and what is there at the end. -/
def StateMem.run (C : Crypto) (m : StateMem) : List StateOp → List (Res (List Bytes)) × StateMem
  | [] => ([], m)
  | op :: ops => ((m.step C op).1 :: ((m.step C op).2.run C ops).1, ((m.step C op).2.run C ops).2)

/-- The session that the library would go on with. -/
def StateMem.seen (m : StateMem) : SState := m.state.seen m.heap

/-! ## Over values -/

structure StateVals where
  state : SState
  shared : List SharedField := []

def SharedField.value (s : SState) : SharedField → Res (Option Bytes)
  | .aliceBaseKey => .ok (some s.aliceBaseKey)
  | .rootKey => do return some (← s.getRootKey).key
  | .senderChainKey => do return some (← s.senderChainKey).key
  | .receiverChainKey sender => do return (← s.receiverChainKey sender).map (·.key)

/-- The session with these bytes in place of what the accessor returns, and nothing else changed. -/
def SharedField.put (s : SState) (b : Bytes) : SharedField → SState
  | .aliceBaseKey => { s with aliceBaseKey := b }
  | .rootKey => { s with rootKey := b }
  | .senderChainKey => match s.senderChainKey with
    | .ok k => s.setSenderChainKey ⟨b, k.index⟩
    | _ => s
  | .receiverChainKey sender => match s.receiverChainKey sender with
    | .ok (some k) => match s.setReceiverChainKey sender ⟨b, k.index⟩ with
      | .ok s' => s'
      | _ => s
    | _ => s

def CopiedField.value (s : SState) : CopiedField → Res (Option Bytes)
  | .localIdentityKey => do return some (← s.localIdentityKey).bytes
  | .remoteIdentityKey => do return (← s.remoteIdentityKey).map (·.bytes)
  | .senderRatchetKey => do return some (← s.senderRatchetKey).bytes
  | .senderRatchetPrivateKey => do return some (← s.senderRatchetPrivateKey).bytes
  | .pendingBaseKey => do return (← s.unacknowledgedPreKeyMessages).map (·.baseKey.bytes)
  | .bytes => .ok (some s.marshal)

/-- The session without the stored message keys for this position. -/
def SState.withoutMessageKeys (s : SState) (sender : PubKey) (counter : UInt32) : SState :=
  match s.receiverChain sender with
  | none => s
  | some (i, chain) =>
    { s with receiverChains := s.receiverChains.set i { chain with messageKeys := chain.messageKeys.filter fun k => k.index ≠ counter } }

/-- The answer: no bytes, or one byte string. -/
def answerOf (r : Res (Option Bytes)) : Res (List Bytes) := do return (← r).toList

def StateVals.step (v : StateVals) : StateOp → Res (List Bytes) × StateVals
  | .shared f => (answerOf (f.value v.state), match f.value v.state with
    | .ok (some _) => { v with shared := v.shared ++ [f] }
    | _ => v)
  | .copied f => (answerOf (f.value v.state), v)
  | .messageKeys sender counter =>
    (do match (← v.state.takeMessageKeys sender counter).1 with
        | some k => return [k.cipherKey, k.macKey, k.iv]
        | none => return [], { v with state := v.state.withoutMessageKeys sender counter })
  | .write _ _ _ => (.ok [], v)
  | .writeShared i offset bytes => (.ok [], match v.shared[i]? with
    | none => v
    | some f => match f.value v.state with
      | .ok (some b) => if offset + bytes.length ≤ b.length then { v with state := f.put v.state (overwrite b offset bytes) } else v
      | _ => v)

/-- A program over values. -/
def StateVals.run (v : StateVals) : List StateOp → List (Res (List Bytes)) × StateVals
  | [] => ([], v)
  | op :: ops => ((v.step op).1 :: ((v.step op).2.run ops).1, ((v.step op).2.run ops).2)

/-! ## Where the bytes of a state are -/

/-- The slices share no byte. -/
def NoOverlap (x y : Slice) : Prop := x.arr ≠ y.arr ∨ x.off + x.len ≤ y.off ∨ y.off + y.len ≤ x.off

/-! All the slices of a state, in the order of the fields. -/

def ChainKeyOf.places (c : ChainKeyOf Slice) : List Slice := [c.key]
def MessageKeyOf.places (k : MessageKeyOf Slice) : List Slice := [k.cipherKey, k.macKey, k.iv]
def ChainOf.places (c : ChainOf Slice) : List Slice :=
  [c.senderRatchetKey] ++ ([c.senderRatchetKeyPrivate] ++ (c.chainKey.toList.flatMap ChainKeyOf.places ++ c.messageKeys.flatMap MessageKeyOf.places))
def PendingOf.places (p : PendingOf Slice) : List Slice := [p.baseKey]
def StateOf.places (s : StateOf Slice) : List Slice :=
  [s.localIdentityPublic] ++ ([s.remoteIdentityPublic] ++ ([s.rootKey] ++ (s.senderChain.toList.flatMap ChainOf.places ++
    (s.receiverChains.flatMap ChainOf.places ++ (s.pendingPreKey.toList.flatMap PendingOf.places ++ [s.aliceBaseKey])))))

end Verif
