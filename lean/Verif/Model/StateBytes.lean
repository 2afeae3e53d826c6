import Verif.Model.KeyHeap
import Verif.Model.State

/-!
# Session states and the memory their bytes live in

`Model/State.lean` treats a session state as a value. Here its byte strings are slices, as in the generated structure. It exists for the
question what a caller who has a state, from `Record.State` of a record that a store handed out, can change by looking at it.
-/

namespace Verif

/-- protocol/proto/v1/storage.proto:17-20, with any kind of byte string: values, or slices. -/
structure ChainKeyOf (β : Type) where
  index : UInt32
  key : β

/-- protocol/proto/v1/storage.proto:24-29, with any kind of byte string. -/
structure MessageKeyOf (β : Type) where
  index : UInt32
  cipherKey : β
  macKey : β
  iv : β

/-- protocol/proto/v1/storage.proto:13-32, with any kind of byte string. -/
structure ChainOf (β : Type) where
  senderRatchetKey : β
  senderRatchetKeyPrivate : β
  chainKey : Option (ChainKeyOf β)
  messageKeys : List (MessageKeyOf β)

/-- protocol/proto/v1/storage.proto:34-38, with any kind of byte string. -/
structure PendingOf (β : Type) where
  preKeyId : UInt32
  baseKey : β
  signedPreKeyId : Int32

/-- protocol/proto/v1/storage.proto:12-60, with any kind of byte string. The chains and keys are values here: which pointers to them
stay behind in arrays is the subject of Model/SessionHeap. -/
structure StateOf (β : Type) where
  sessionVersion : UInt32
  localIdentityPublic : β
  remoteIdentityPublic : β
  rootKey : β
  previousCounter : UInt32
  senderChain : Option (ChainOf β)
  receiverChains : List (ChainOf β)
  pendingPreKey : Option (PendingOf β)
  remoteRegistrationId : UInt32
  localRegistrationId : UInt32
  aliceBaseKey : β

/-- The bytes that the slices show. (for protocol/session/state.go:210-222.) -/
def ChainKeyOf.seen (h : Heap) (c : ChainKeyOf Slice) : PBChainKey := { index := c.index, key := h.read c.key }

/-- The bytes that the slices show. (for protocol/session/state.go:264-288.) -/
def MessageKeyOf.seen (h : Heap) (k : MessageKeyOf Slice) : PBMessageKey :=
  { index := k.index, cipherKey := h.read k.cipherKey, macKey := h.read k.macKey, iv := h.read k.iv }

/-- The bytes that the slices show. (for protocol/session/state.go:142-151.) -/
def ChainOf.seen (h : Heap) (c : ChainOf Slice) : PBChain :=
  { senderRatchetKey := h.read c.senderRatchetKey, senderRatchetKeyPrivate := h.read c.senderRatchetKeyPrivate,
    chainKey := c.chainKey.map (ChainKeyOf.seen h), messageKeys := c.messageKeys.map (MessageKeyOf.seen h) }

/-- The bytes that the slices show. (for protocol/session/state.go:324-345.) -/
def PendingOf.seen (h : Heap) (p : PendingOf Slice) : PBPendingPreKey :=
  { preKeyId := p.preKeyId, baseKey := h.read p.baseKey, signedPreKeyId := p.signedPreKeyId }

/-- The state that the library would go on with. (for protocol/session/state.go:31-33.) -/
def StateOf.seen (h : Heap) (s : StateOf Slice) : SState :=
  { sessionVersion := s.sessionVersion, localIdentityPublic := h.read s.localIdentityPublic,
    remoteIdentityPublic := h.read s.remoteIdentityPublic, rootKey := h.read s.rootKey, previousCounter := s.previousCounter,
    senderChain := s.senderChain.map (ChainOf.seen h), receiverChains := s.receiverChains.map (ChainOf.seen h),
    pendingPreKey := s.pendingPreKey.map (PendingOf.seen h), remoteRegistrationId := s.remoteRegistrationId,
    localRegistrationId := s.localRegistrationId, aliceBaseKey := h.read s.aliceBaseKey }

/-! ## Parsing: `proto.Unmarshal` makes a new array for every `bytes` field. A field that is absent has no array in Go and an empty one here. -/

/-- A new array. (protocol/session/record.go:33, `proto.Unmarshal`.) -/
def newBytes (b : Bytes) (h : Heap) : Slice × Heap := (⟨h.length, 0, b.length, b.length⟩, h ++ [b])

/-- The chain key of a parsed chain. (protocol/session/record.go:33, `proto.Unmarshal`.) -/
def newChainKeyBytes (c : PBChainKey) (h : Heap) : ChainKeyOf Slice × Heap :=
  let (key, h) := newBytes c.key h
  (⟨c.index, key⟩, h)

/-- A parsed message key. (protocol/session/record.go:33, `proto.Unmarshal`.) -/
def newMessageKeyBytes (k : PBMessageKey) (h : Heap) : MessageKeyOf Slice × Heap :=
  let (cipherKey, h) := newBytes k.cipherKey h
  let (macKey, h) := newBytes k.macKey h
  let (iv, h) := newBytes k.iv h
  (⟨k.index, cipherKey, macKey, iv⟩, h)

/-- A part that may be absent. (protocol/session/record.go:33, `proto.Unmarshal`.) -/
def newOptional {α β : Type} (f : α → Heap → β × Heap) : Option α → Heap → Option β × Heap
  | none, h => (none, h)
  | some a, h =>
    let (b, h) := f a h
    (some b, h)

/-- A repeated part. (protocol/session/record.go:33, `proto.Unmarshal`.) -/
def newRepeated {α β : Type} (f : α → Heap → β × Heap) : List α → Heap → List β × Heap
  | [], h => ([], h)
  | a :: as, h =>
    let (b, h) := f a h
    let (bs, h) := newRepeated f as h
    (b :: bs, h)

/-- A parsed chain. (protocol/session/record.go:33, `proto.Unmarshal`.) -/
def newChainBytes (c : PBChain) (h : Heap) : ChainOf Slice × Heap :=
  let (pub, h) := newBytes c.senderRatchetKey h
  let (priv, h) := newBytes c.senderRatchetKeyPrivate h
  let (chainKey, h) := newOptional newChainKeyBytes c.chainKey h
  let (messageKeys, h) := newRepeated newMessageKeyBytes c.messageKeys h
  (⟨pub, priv, chainKey, messageKeys⟩, h)

/-- A parsed pending pre-key. (protocol/session/record.go:33, `proto.Unmarshal`.) -/
def newPendingBytes (p : PBPendingPreKey) (h : Heap) : PendingOf Slice × Heap :=
  let (baseKey, h) := newBytes p.baseKey h
  (⟨p.preKeyId, baseKey, p.signedPreKeyId⟩, h)

/-- protocol/session/record.go:31-41 — `NewRecordBytes`, the state; also the states of `PreviousStates` (protocol/session/record.go:56-67)
and `Clone` (protocol/session/state.go:41-44), which copies every byte string. -/
def newStateBytes (s : SState) (h : Heap) : StateOf Slice × Heap :=
  let (loc, h) := newBytes s.localIdentityPublic h
  let (remote, h) := newBytes s.remoteIdentityPublic h
  let (root, h) := newBytes s.rootKey h
  let (sender, h) := newOptional newChainBytes s.senderChain h
  let (receivers, h) := newRepeated newChainBytes s.receiverChains h
  let (pending, h) := newOptional newPendingBytes s.pendingPreKey h
  let (base, h) := newBytes s.aliceBaseKey h
  ({ sessionVersion := s.sessionVersion, localIdentityPublic := loc, remoteIdentityPublic := remote, rootKey := root,
     previousCounter := s.previousCounter, senderChain := sender, receiverChains := receivers, pendingPreKey := pending,
     remoteRegistrationId := s.remoteRegistrationId, localRegistrationId := s.localRegistrationId, aliceBaseKey := base }, h)

/-! ## The accessors -/

/-- protocol/ratchet/keys.go:111-120, 127-129 — `NewChainKey` and `Key`: the slice is passed on. Also `NewRootKey` and `Bytes`
(protocol/ratchet/keys.go:160-168, 172-174). -/
def keySlice (s : Slice) : Res Slice := if s.len ≠ 32 then .err (.invalidKeyLength 32 s.len) else .ok s

namespace StateOf

variable (s : StateOf Slice)

/-- protocol/session/state.go:50-52 — `AliceBaseKey`. -/
def aliceBaseKeySlice : Res Slice := .ok s.aliceBaseKey

/-- protocol/session/state.go:110-112 — `RootKey`, and `Bytes` of it. -/
def rootKeySlice : Res Slice := keySlice s.rootKey

/-- protocol/session/state.go:210-222 — `SenderChainKey`, and `Key` of it. -/
def senderChainKeySlice : Res Slice :=
  match s.senderChain with
  | none => .err .missingSenderChain
  | some c =>
    match c.chainKey with
    | none => .err .missingSenderChainKey
    | some ck => keySlice ck.key

/-- protocol/session/state.go:142-151 — `ReceiverChain`. -/
def findChainOf (h : Heap) (key : Bytes) : List (ChainOf Slice) → Nat → Option (Nat × ChainOf Slice)
  | [], _ => none
  | c :: cs, i => if h.read c.senderRatchetKey = key then some (i, c) else findChainOf h key cs (i + 1)

/-- protocol/session/state.go:169-181 — `ReceiverChainKey`, and `Key` of it; `none` is `exists == false`. -/
def receiverChainKeySlice (h : Heap) (sender : PubKey) : Res (Option Slice) :=
  match findChainOf h sender.bytes s.receiverChains 0 with
  | none => .ok none
  | some (_, chain) =>
    match chain.chainKey with
    | none => .err (.invalidKeyLength 32 0)
    | some ck => do
      let k ← keySlice ck.key
      return some k

/-- protocol/session/state.go:264-288 — `MessageKeys`, and `CipherKey`, `MACKey` and `IV` of them, with the state afterwards, also on an
error; `none` is `found == false`. The last stored key with this counter is the one that is returned. -/
def messageKeySlices (h : Heap) (sender : PubKey) (counter : UInt32) : Res (Option (Slice × Slice × Slice)) × StateOf Slice :=
  match findChainOf h sender.bytes s.receiverChains 0 with
  | none => (.ok none, s)
  | some (idx, chain) =>
    let s' := { s with receiverChains :=
      s.receiverChains.set idx { chain with messageKeys := chain.messageKeys.filter fun k => k.index ≠ counter } }
    match (chain.messageKeys.filter fun k => k.index = counter).getLast? with
    | none => (.ok none, s')
    | some k =>
      if k.cipherKey.len ≠ 32 then (.err (.invalidKeyLength 32 k.cipherKey.len), s')
      else if k.macKey.len ≠ 32 then (.err (.invalidKeyLength 32 k.macKey.len), s')
      else if k.iv.len ≠ 16 then (.err (.invalidKeyLength 16 k.iv.len), s')
      else (.ok (some (k.cipherKey, k.macKey, k.iv)), s')

end StateOf

/-- A public key parsed from a slice, and `Bytes` of it: `NewPublicKey` copies, and `Bytes` makes a new array.
(protocol/identity/keys.go:25-34, protocol/session/state.go:78, 134, 330.) -/
def publicBytesOf (s : Slice) : M Heap Slice := do
  let k ← pubFromSlice s
  k.bytes

namespace StateOf

variable (C : Crypto) (s : StateOf Slice)

/-- protocol/session/state.go:77-79 — `LocalIdentityKey`, and `Bytes` of it. -/
def localIdentityKeyBytes : M Heap Slice := publicBytesOf s.localIdentityPublic

/-- protocol/session/state.go:63-75 — `RemoteIdentityKey`, and `Bytes` of it; `none` is `exists == false`. -/
def remoteIdentityKeyBytes : M Heap (Option Slice) :=
  if s.remoteIdentityPublic.len = 0 then M.pure none
  else do
    let k ← publicBytesOf s.remoteIdentityPublic
    return some k

/-- protocol/session/state.go:128-140 — `SenderRatchetKey`, and `Bytes` of it. -/
def senderRatchetKeyBytes : M Heap Slice :=
  match s.senderChain with
  | none => M.throw .missingSenderChain
  | some c => publicBytesOf c.senderRatchetKey

/-- protocol/session/state.go:114-126 — `SenderRatchetPrivateKey`, and `Bytes` of it. -/
def senderRatchetPrivateKeyBytes : M Heap Slice :=
  match s.senderChain with
  | none => M.throw .missingSenderChain
  | some c => do
    let k ← privFromSlice C c.senderRatchetKeyPrivate
    k.bytes

/-- protocol/session/state.go:324-345 — `UnacknowledgedPreKeyMessages`, and `Bytes` of its `BaseKey`; `none` is a nil result. -/
def pendingBaseKeyBytes : M Heap (Option Slice) :=
  match s.pendingPreKey with
  | none => M.pure none
  | some p => do
    let k ← publicBytesOf p.baseKey
    return some k

/-- protocol/session/state.go:359-362 — `Bytes`. -/
def stateBytes : M Heap Slice := fun h => allocBytes (s.seen h).marshal h

end StateOf

end Verif
