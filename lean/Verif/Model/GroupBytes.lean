import Verif.Model.KeyHeap
import Verif.Model.Group

/-!
# Group sessions and the memory their keys live in

`Model/Group.lean` treats group states and messages as values. Here chain keys and message keys are slices, as in the code, over the
in-memory group store, which hands out the record it holds. It exists for the question whether bytes that the caller holds, or gets
from a message, are bytes that the library still uses.

The two signing keys of a state stay values: they are made by `Bytes` (protocol/session/group_state.go:26, 42), which copies, and
only read by `NewPublicKey` and `NewPrivateKey`, which copy (C130).
-/

namespace Verif

/-- protocol/senderkey/keys.go:64-67 — `ChainKey` with its slice; also a stored chain key or message key
(protocol/generated/v1, `SenderChainKey`, `SenderMessageKey`): `NewChainKey`, `Seed` and `SetSenderChainKey` pass the slice on
(protocol/senderkey/keys.go:69-82, protocol/session/group_state.go:61-71). -/
structure ChainRef where
  seed : Slice
  iteration : UInt32
deriving DecidableEq

/-- protocol/senderkey/keys.go:24-29 — `MessageKey` with its seed slice. The cipher key and the IV are windows of an array that
`DeriveMessageKey` makes and nobody outside the call gets; they are values here. -/
structure MessageKeyRef where
  cipherKey : Bytes
  iv : Bytes
  seed : Slice
  iteration : UInt32
deriving DecidableEq

/-- protocol/session/group_state.go:10-12 — `GroupState` with its slices. -/
structure GStateRef where
  messageVersion : UInt32
  chainId : UInt32
  chainKey : ChainRef
  signingPublic : Bytes
  signingPrivate : Bytes
  messageKeys : List ChainRef := []
deriving DecidableEq

/-- The chain key that a slice shows. (for protocol/session/group_state.go:61-64.) -/
def ChainRef.seen (h : Heap) (c : ChainRef) : SKChainKey := { seed := h.read c.seed, iteration := c.iteration }

/-- The state that the slices show. (for protocol/session/group_state.go:10-12.) -/
def GStateRef.seen (h : Heap) (s : GStateRef) : GState :=
  { messageVersion := s.messageVersion, chainId := s.chainId, chainKey := s.chainKey.seen h, signingPublic := s.signingPublic,
    signingPrivate := s.signingPrivate, messageKeys := s.messageKeys.map (ChainRef.seen h) }

/-- protocol/session/store_inmem.go:34-63 — memory, the in-memory group store, and the two random readers. -/
structure GMem where
  heap : Heap
  records : Address × DistId → Option (List GStateRef)
  rand : Bytes
  sysRand : Bytes

/-- What the library would load and read. (for protocol/session/store_inmem.go:49-55.) -/
def GMem.seen (m : GMem) : GWorld :=
  { records := fun k => (m.records k).map (List.map (GStateRef.seen m.heap)), rand := m.rand, sysRand := m.sysRand, faults := [] }

/-- A step on memory only. (for protocol/session/group_cipher.go:19-123.) -/
def onHeap {α} (x : M Heap α) : M GMem α := fun m =>
  let (r, h) := x m.heap
  (r, { m with heap := h })

/-- protocol/session/store_inmem.go:49-55 — `Load`: the stored record itself. -/
def memLoad (k : Address × DistId) : M GMem (Option (List GStateRef)) := fun m => (.ok (m.records k), m)

/-- protocol/session/store_inmem.go:57-63 — `Store`; also a change to a record that the store holds. -/
def memStore (k : Address × DistId) (r : List GStateRef) : M GMem Unit := fun m =>
  (.ok (), { m with records := upd m.records k (some r) })

/-- The `random` argument at protocol/session/group_cipher.go:19 and protocol/session/group_session.go:61. -/
def memRand {α} (x : M Bytes α) : M GMem α := fun m =>
  let (r, rand') := x m.rand
  (r, { m with rand := rand' })

/-- protocol/session/group_session.go:128-136 — `crypto/rand.Reader`. -/
def memSysRand {α} (x : M Bytes α) : M GMem α := fun m =>
  let (r, rand') := x m.sysRand
  (r, { m with sysRand := rand' })

/-- protocol/senderkey/keys.go:95-101 — `hash`: a new array. -/
def hashRef (C : Crypto) (key : Slice) (seed : Bytes) : M Heap Slice := fun h => allocBytes (chainHash C (h.read key) seed) h

/-- protocol/senderkey/keys.go:84-89 — `ChainKey.Next`. -/
def ChainRef.next (C : Crypto) (c : ChainRef) : M Heap ChainRef := do
  let seed ← hashRef C c.seed [2]
  return ⟨seed, c.iteration + 1⟩

/-- protocol/senderkey/keys.go:31-46 — `DeriveMessageKey`: the seed slice is kept. -/
def deriveMessageKeyRef (C : Crypto) (seed : Slice) (iteration : UInt32) : M Heap MessageKeyRef := fun h =>
  let derived := C.hkdf (h.read seed) [] groupInfo 48
  (.ok { cipherKey := derived.drop 16, iv := derived.take 16, seed := seed, iteration := iteration }, h)

/-- protocol/senderkey/keys.go:91-93 — `ChainKey.MessageKey`. -/
def ChainRef.messageKey (C : Crypto) (c : ChainRef) : M Heap MessageKeyRef := do
  let seed ← hashRef C c.seed [1]
  deriveMessageKeyRef C seed c.iteration

/-- protocol/session/group_state.go:23-46 — `NewGroupState`: the chain key is copied (lines 29-30). -/
def newGroupStateRef (messageVersion : UInt8) (chainID iteration : UInt32) (chainKey : Slice) (signatureKey : PubKey)
    (signaturePrivateKey : Option PrivKey) : M Heap GStateRef := do
  let seed ← makeCopy chainKey.len chainKey
  return { messageVersion := messageVersion.toUInt32, chainId := chainID, chainKey := ⟨seed, iteration⟩,
           signingPublic := signatureKey.bytes,
           signingPrivate := match signaturePrivateKey with
             | some k => k.bytes
             | none => [] }

namespace GStateRef

/-- protocol/session/group_state.go:48-55 — `Version`. -/
def version (s : GStateRef) : UInt32 := if s.messageVersion = 0 then 3 else s.messageVersion

/-- protocol/session/group_state.go:81-91 — `AddMessageKey`: the stored key has the same seed slice. -/
def addMessageKey (s : GStateRef) (k : MessageKeyRef) : GStateRef :=
  let keys := s.messageKeys ++ [⟨k.seed, k.iteration⟩]
  { s with messageKeys := if keys.length > maxMessageKeys then keys.drop 1 else keys }

/-- protocol/session/group_state.go:93-117 — `RemoveMessageKeys`. -/
def removeMessageKeys (C : Crypto) (s : GStateRef) (iteration : UInt32) : M Heap (Option (MessageKeyRef × GStateRef)) :=
  match s.messageKeys.find? fun k => k.iteration = iteration with
  | none => M.pure none
  | some k => do
    let derived ← deriveMessageKeyRef C k.seed k.iteration
    return some (derived, { s with messageKeys := s.messageKeys.eraseP fun k => k.iteration = iteration })

end GStateRef

/-- The test of protocol/session/group_record.go:71-75. -/
def isStateRef (chainID : UInt32) (signatureKey : PubKey) (s : GStateRef) : Bool :=
  match newPublicKey s.signingPublic with
  | .ok k => s.chainId == chainID && signatureKey.equal k
  | _ => false

/-- protocol/session/group_record.go:42-66 — `AddState`, with `RemoveState` (68-89) and `RemoveStates` (91-105). -/
def addStateRef (g : List GStateRef) (s : GStateRef) : Res (List GStateRef) :=
  match newPublicKey s.signingPublic with
  | .ok signingKey =>
    let existing := g.find? (isStateRef s.chainId signingKey)
    let g := (g.eraseP (isStateRef s.chainId signingKey)).filter fun t => t.chainId ≠ s.chainId
    let g := if g.length ≥ maxSenderKeyStates then g.drop 1 else g
    .ok (g ++ [existing.getD s])
  | .err e => .err e
  | .panic => .panic

/-- A state of a record, found by `StateForChainID`, has been changed. (protocol/session/group_record.go:32-40.) -/
def setStateRef (g : List GStateRef) (chainID : UInt32) (s' : GStateRef) : List GStateRef :=
  match g with
  | [] => []
  | s :: g => if chainID = s.chainId then s' :: g else s :: setStateRef g chainID s'

/-- protocol/session/group_record.go:24-30 — `State`. -/
def stateRef (g : List GStateRef) : Res GStateRef :=
  match g with
  | [] => .err .emptySenderKeyState
  | s :: _ => .ok s

/-- The loop of protocol/session/group_cipher.go:148-155. -/
def groupSkipRef (C : Crypto) (iteration : UInt32) : Nat → ChainRef → GStateRef → M Heap (ChainRef × GStateRef)
  | 0, ck, s => M.pure (ck, s)
  | fuel + 1, ck, s =>
    if ck.iteration < iteration then do
      let keys ← ck.messageKey C
      let next ← ck.next C
      groupSkipRef C iteration fuel next (s.addMessageKey keys)
    else M.pure (ck, s)

/-- protocol/session/group_cipher.go:125-165 — `messageKey`. -/
def groupMessageKeyRef (C : Crypto) (s : GStateRef) (iteration : UInt32) : M Heap (MessageKeyRef × GStateRef) :=
  if s.chainKey.iteration > iteration then do
    match ← s.removeMessageKeys C iteration with
    | none => M.throw .duplicateMessage
    | some out => M.pure out
  else if iteration - s.chainKey.iteration > maxJumps then M.throw .tooFarInFuture
  else do
    let out ← groupSkipRef C iteration (iteration.toNat - s.chainKey.iteration.toNat) s.chainKey s
    let next ← out.1.next C
    let keys ← out.1.messageKey C
    return (keys, { out.2 with chainKey := next })

/-- protocol/crypto/aes/aes.go:37-59, 73-82 — `CBCDecrypt` with its effect on memory: the plaintext is a window of a new array. -/
def cbcDecryptSlice (C : Crypto) (key iv : Bytes) (ciphertext : Slice) : M Heap Slice := fun h =>
  if aesKeyOk key = false then (.err .badAESKey, h)
  else if ciphertext.len = 0 ∨ ciphertext.len % 16 ≠ 0 then (.err .badCiphertextLength, h)
  else if iv.length ≠ 16 then (.err .badIV, h)
  else
    let out := cbcDecBlocks C key (ciphertext.len / 16) iv (h.read ciphertext)
    match pkcs7unpad out with
    | .ok p => (.ok ⟨h.length, 0, p.length, out.length⟩, h ++ [out])
    | .err e => (.err e, h ++ [out])
    | .panic => (.panic, h ++ [out])

/-- protocol/message/senderkey.go:40-71 — `NewSenderKey`: the message keeps the ciphertext slice; the serialisation is a new array. -/
def newSenderKeyRef (C : Crypto) (version : UInt8) (distID : DistId) (chainID iteration : UInt32) (ciphertext : Slice)
    (signatureKey : PrivKey) : M GMem SenderKeyRef := fun m =>
  (do
    let msg ← memRand (newSenderKey C version distID chainID iteration (m.heap.read ciphertext) signatureKey)
    let serialized ← onHeap (allocBytes msg.serialized)
    return { version := msg.version, distID := msg.distID, chainID := msg.chainID, iteration := msg.iteration,
             ciphertext := ciphertext, serialized := serialized : SenderKeyRef }) m

/-- protocol/session/group_cipher.go:19-69 — `GroupSession.EncryptMessage`. The record is the store's own: line 61 changes it in the
store, line 63 stores it again. -/
def encryptBytes (C : Crypto) (sender : Address) (dist : DistId) (plaintext : Slice) : M GMem SenderKeyRef := do
  match ← memLoad (sender, dist) with
  | none => M.throw .noSenderKeyState
  | some record =>
    let state ← M.lift (stateRef record)
    let messageKey ← onHeap (state.chainKey.messageKey C)
    let ciphertext ← onHeap (cbcEncryptSlice C messageKey.cipherKey messageKey.iv plaintext)
    let signingKey ← M.lift (newPrivateKey state.signingPrivate)
    let msg ← newSenderKeyRef C state.version.toUInt8 dist state.chainId messageKey.iteration ciphertext signingKey
    let next ← onHeap (state.chainKey.next C)
    memStore (sender, dist) ({ state with chainKey := next } :: record.drop 1)
    memStore (sender, dist) ({ state with chainKey := next } :: record.drop 1)
    return msg

/-- protocol/session/group_cipher.go:72-123 — `GroupSession.DecryptMessage`. The record is the store's own: the change of its state
(line 105) is in the store before the message is decrypted. -/
def decryptBytes (C : Crypto) (sender : Address) (msg : SenderKeyRef) : M GMem Slice := do
  match ← memLoad (sender, msg.distID) with
  | none => M.throw .noSenderKeyState
  | some record =>
    match record.find? fun s => msg.chainID = s.chainId with
    | none => M.throw .noSenderKeyState
    | some state =>
      if msg.version.toUInt32 ≠ state.version then M.throw .unsupportedVersion
      else
        let signingKey ← M.lift (newPublicKey state.signingPublic)
        let m ← M.get
        let valid ← M.lift ((msg.seen m.heap).verifySignature C signingKey)
        if valid then
          let out ← onHeap (groupMessageKeyRef C state msg.iteration)
          memStore (sender, msg.distID) (setStateRef record msg.chainID out.2)
          let plaintext ← onHeap (cbcDecryptSlice C out.1.cipherKey out.1.iv msg.ciphertext)
          memStore (sender, msg.distID) (setStateRef record msg.chainID out.2)
          return plaintext
        else M.throw .badSignature

/-- protocol/session/group_session.go:33-58 — `ProcessSenderKeyDistribution`. A record that was loaded is the store's own and line 51
changes it in the store; line 56 stores the same record again, so it is stored once here. -/
def processBytes (sender : Address) (msg : DistributionRef) : M GMem Unit := do
  let stored ← memLoad (sender, msg.distID)
  let state ← onHeap (newGroupStateRef msg.version msg.chainID msg.iteration msg.chainKey msg.signingKey none)
  let record ← M.lift (addStateRef (stored.getD []) state)
  memStore (sender, msg.distID) record

/-- protocol/session/group_session.go:66-104 — creation of a sender key. -/
def createSenderKeyRef (C : Crypto) (sender : Address) (dist : DistId) : M GMem (List GStateRef) := do
  let chainID ← memSysRand randomUint32
  let senderKey ← memRand (readFull 32)
  let senderKey ← onHeap (allocBytes senderKey)
  let signingKey ← memRand (generateKeyPair C)
  let state ← onHeap (newGroupStateRef 3 (chainID >>> 1) 0 senderKey signingKey.pub (some signingKey.priv))
  let record ← M.lift (addStateRef [] state)
  memStore (sender, dist) record
  return record

/-- protocol/message/senderkey.go:162-189 — `NewSenderKeyDistribution`: the message keeps the chain key slice (line 185); the
serialisation is a new array. -/
def newDistributionRef (version : UInt8) (distID : DistId) (chainID iteration : UInt32) (chainKey : Slice) (signingKey : PubKey) :
    M Heap DistributionRef := fun h =>
  (do
    let serialized ← allocBytes (newDistribution version distID chainID iteration (h.read chainKey) signingKey).serialized
    return { version := version, distID := distID, chainID := chainID, iteration := iteration, chainKey := chainKey,
             signingKey := signingKey, serialized := serialized : DistributionRef }) h

/-- protocol/session/group_session.go:61-126 — `NewSenderKeyDistribution`: the chain key of the message is the slice of the stored
state (lines 111, 123). -/
def newDistributionBytes (C : Crypto) (sender : Address) (dist : DistId) : M GMem DistributionRef := do
  let stored ← memLoad (sender, dist)
  let record ← match stored with
    | some r => pure r
    | none => createSenderKeyRef C sender dist
  let state ← M.lift (stateRef record)
  let signingKey ← M.lift (newPublicKey state.signingPublic)
  onHeap (newDistributionRef state.version.toUInt8 dist state.chainId state.chainKey.iteration state.chainKey.seed signingKey)

end Verif
