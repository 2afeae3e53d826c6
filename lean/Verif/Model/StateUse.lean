import Verif.Model.StateBytes
import Verif.Model.Cipher

/-!
# Sending and receiving with session states that live in memory

`Model/Cipher.lean` treats session states as values. Here the ratchet makes slices, as in the code: which of the new keys are windows of
one array, and which arrays of the old state the new state keeps. The message is a value here, and so are key pairs, whose calls
copy (C130).
-/

namespace Verif

/-- Memory, and the `random` argument of protocol/session/cipher.go:229. -/
structure RMem where
  heap : Heap
  rand : Bytes

/-- A step on memory. (for protocol/session/cipher.go:325-422.) -/
def onMem {α} (x : M Heap α) : M RMem α := fun m =>
  let (r, h) := x m.heap
  (r, { m with heap := h })

/-- A step that reads random bytes. (for protocol/session/cipher.go:349.) -/
def onRand {α} (x : M Bytes α) : M RMem α := fun m =>
  let (r, b) := x m.rand
  (r, { m with rand := b })

/-- protocol/ratchet/keys.go:103-106 — `ChainKey` with its slice. -/
structure ChainKeyRef where
  key : Slice
  index : UInt32

/-- protocol/ratchet/keys.go:31-38 — `MessageKeys` with its slices. -/
structure MessageKeysRef where
  cipherKey : Slice
  macKey : Slice
  iv : Slice
  counter : UInt32

/-- protocol/ratchet/keys.go:109-118 — `NewChainKey` keeps the slice. -/
def chainKeyFromSlice (key : Slice) (index : UInt32) : Res ChainKeyRef :=
  if key.len ≠ 32 then .err (.invalidKeyLength 32 key.len) else .ok ⟨key, index⟩

/-- protocol/ratchet/keys.go:133-138, 147-153 — `ChainKey.Next`: a new array. -/
def ChainKeyRef.next (C : Crypto) (c : ChainKeyRef) : M Heap ChainKeyRef := fun h =>
  (do
    let key ← allocBytes (chainHash C (h.read c.key) [2])
    return (⟨key, c.index + 1⟩ : ChainKeyRef)) h

/-- protocol/ratchet/keys.go:63-78, 142-144 — `ChainKey.MessageKeys`: three windows of one new array. -/
def ChainKeyRef.messageKeys (C : Crypto) (c : ChainKeyRef) : M Heap MessageKeysRef := fun h =>
  (do
    let a ← allocBytes (C.hkdf (chainHash C (h.read c.key) [1]) [] messageKeysInfo 80)
    return { cipherKey := ⟨a.arr, 0, 32, 80⟩, macKey := ⟨a.arr, 32, 32, 48⟩, iv := ⟨a.arr, 64, 16, 16⟩, counter := c.index : MessageKeysRef }) h

/-- protocol/ratchet/keys.go:178-202 — `RootKey.CreateChain`: the two keys are the two halves of one new array. -/
def createChainRef (C : Crypto) (root : Slice) (ours : PrivKey) (theirs : PubKey) : M Heap (Slice × ChainKeyRef) := fun h =>
  match ours.agreement C theirs with
  | .ok secret =>
    (do
      let a ← allocBytes (C.hkdf secret (h.read root) rootInfo 64)
      return ((⟨a.arr, 0, 32, 64⟩ : Slice), (⟨⟨a.arr, 32, 32, 32⟩, 0⟩ : ChainKeyRef))) h
  | .err e => (.err e, h)
  | .panic => (.panic, h)

namespace StateOf

/-- The new value of the chain at a position. (for protocol/session/state.go:164, 259.) -/
def setChain (s : StateOf Slice) (i : Nat) (c : ChainOf Slice) : StateOf Slice := { s with receiverChains := s.receiverChains.set i c }

/-- protocol/session/state.go:169-181 — `ReceiverChainKey`; `none` is `exists == false`. -/
def receiverChainKeyRef (s : StateOf Slice) (h : Heap) (sender : PubKey) : Res (Option ChainKeyRef) :=
  match findChainOf h sender.bytes s.receiverChains 0 with
  | none => .ok none
  | some (_, chain) => match chain.chainKey with
    | none => .err (.invalidKeyLength 32 0)
    | some ck => do
      let k ← chainKeyFromSlice ck.key ck.index
      return some k

/-- protocol/session/state.go:153-167 — `SetReceiverChainKey`. -/
def setReceiverChainKeyRef (s : StateOf Slice) (h : Heap) (sender : PubKey) (k : ChainKeyRef) : Res (StateOf Slice) :=
  match findChainOf h sender.bytes s.receiverChains 0 with
  | none => .err .missingReceiverChain
  | some (i, c) => .ok (s.setChain i { c with chainKey := some ⟨k.index, k.key⟩ })

/-- protocol/session/state.go:241-262 — `SetMessageKeys`: the stored key has the same slices. -/
def setMessageKeysRef (s : StateOf Slice) (h : Heap) (sender : PubKey) (k : MessageKeysRef) : Res (StateOf Slice) :=
  match findChainOf h sender.bytes s.receiverChains 0 with
  | none => .err .missingReceiverChain
  | some (i, c) =>
    let keys := c.messageKeys ++ [⟨k.counter, k.cipherKey, k.macKey, k.iv⟩]
    .ok (s.setChain i { c with messageKeys := if keys.length > maxMessageKeys then keys.drop 1 else keys })

/-- protocol/session/state.go:183-197 — `AddReceiverChain`, with the bytes of the ratchet key in a new array. -/
def addReceiverChainRef (s : StateOf Slice) (ratchet none' : Slice) (k : ChainKeyRef) : StateOf Slice :=
  let chains := s.receiverChains ++ [⟨ratchet, none', some ⟨k.index, k.key⟩, []⟩]
  { s with receiverChains := if chains.length > maxReceiverChains then chains.drop 1 else chains }

/-- protocol/session/state.go:199-208 — `SetSenderChain`, with the bytes of the key pair in new arrays. -/
def setSenderChainRef (s : StateOf Slice) (pub priv : Slice) (k : ChainKeyRef) : StateOf Slice :=
  { s with senderChain := some ⟨pub, priv, some ⟨k.index, k.key⟩, []⟩ }

/-- protocol/session/state.go:224-239 — `SetSenderChainKey`, of a state that has a sender chain. -/
def setSenderChainKeyRef (s : StateOf Slice) (c : ChainOf Slice) (k : ChainKeyRef) : StateOf Slice :=
  { s with senderChain := some { c with chainKey := some ⟨k.index, k.key⟩ } }

end StateOf

/-- protocol/session/cipher.go:35-105 — the part of `EncryptMessage` that uses the state. The message is computed as over values; line 105 puts the
next chain key, a new array, into the state. -/
def encryptStateRef (C : Crypto) (s : StateOf Slice) (plaintext : Bytes) : M Heap (Ciphertext × StateOf Slice) := fun h =>
  match encryptState C (s.seen h) plaintext with
  | .ok (c, _, _) => match s.senderChain with
    | none => (.err .missingSenderChain, h)
    | some chain => match chain.chainKey with
      | none => (.err .missingSenderChainKey, h)
      | some k => (do
          let next ← ChainKeyRef.next C ⟨k.key, k.index⟩
          return (c, s.setSenderChainKeyRef chain next)) h
  | .err e => (.err e, h)
  | .panic => (.panic, h)

/-- protocol/session/cipher.go:325-376 — `chainKey`. The private part of a new receiving chain is nil in Go and an empty array here. -/
def chainKeyForRef (C : Crypto) (s : StateOf Slice) (theirEphemeral : PubKey) : M RMem (ChainKeyRef × StateOf Slice) := do
  let m ← M.get
  match ← M.lift (s.receiverChainKeyRef m.heap theirEphemeral) with
  | some k =>
    return (k, s)
  | none =>
    let root ← M.lift s.rootKeySlice
    let ours ← M.lift (s.seen m.heap).senderRatchetPrivateKey
    let (root1, receiving) ← onMem (createChainRef C root ours theirEphemeral)
    let pair ← onRand (generateKeyPair C)
    let (root2, sending) ← onMem (createChainRef C root1 pair.priv theirEphemeral)
    let current ← M.lift (s.seen m.heap).senderChainKey
    let ratchet ← onMem (allocBytes theirEphemeral.bytes)
    let none' ← onMem (allocBytes [])
    let pub ← onMem (allocBytes pair.pub.bytes)
    let priv ← onMem (allocBytes pair.priv.bytes)
    let s := { s with rootKey := root2 }
    let s := s.addReceiverChainRef ratchet none' receiving
    let s := { s with previousCounter := if current.index > 0 then current.index - 1 else 0 }
    return (receiving, s.setSenderChainRef pub priv sending)

/-- The loop of protocol/session/cipher.go:405-414. -/
def skipLoopRef (C : Crypto) (theirEphemeral : PubKey) (counter : UInt32) : Nat → ChainKeyRef → StateOf Slice → M Heap (ChainKeyRef × StateOf Slice)
  | 0, ck, s => M.pure (ck, s)
  | fuel + 1, ck, s =>
    if ck.index < counter then do
      let keys ← ck.messageKeys C
      let h ← M.get
      let s' ← M.lift (s.setMessageKeysRef h theirEphemeral keys)
      let next ← ck.next C
      skipLoopRef C theirEphemeral counter fuel next s'
    else M.pure (ck, s)

/-- protocol/session/cipher.go:378-422 — `messageKeys`. The test for a session with oneself is made as over values. -/
def messageKeysForRef (C : Crypto) (s : StateOf Slice) (theirEphemeral : PubKey) (chainKey : ChainKeyRef) (counter : UInt32) :
    M Heap (MessageKeysRef × StateOf Slice) := do
  let h ← M.get
  if chainKey.index > counter then
    let found := s.messageKeySlices h theirEphemeral counter
    match ← M.lift found.1 with
    | some k => return (⟨k.1, k.2.1, k.2.2, counter⟩, found.2)
    | none => M.throw .duplicateMessage
  else do
    let _ ← M.lift (if counter - chainKey.index > maxJumps then do
        let withSelf ← (s.seen h).sessionWithSelf
        if withSelf then .ok () else .err .tooFarInFuture
      else .ok () : Res Unit)
    let out ← skipLoopRef C theirEphemeral counter (counter.toNat - chainKey.index.toNat) chainKey s
    let h ← M.get
    let s ← M.lift (out.2.setReceiverChainKeyRef h theirEphemeral out.1)
    let keys ← out.1.messageKeys C
    return (keys, s)

/-- protocol/session/cipher.go:229-233, 273-323 — the current state of a record is cloned, `decryptMessageSession` works on the clone, and on success the
clone becomes the current state. -/
def decryptStateRef (C : Crypto) (s : StateOf Slice) (ciphertext : Signal) : M RMem (Bytes × StateOf Slice) := do
  let m ← M.get
  let s ← onMem fun h => (.ok (newStateBytes (s.seen m.heap) h).1, (newStateBytes (s.seen m.heap) h).2)
  match s.senderChain with
  | none => M.throw .noSession
  | some _ =>
    let m ← M.get
    if ciphertext.version.toUInt32 ≠ (s.seen m.heap).version then M.throw .unsupportedVersion
    else
      let (chainKey, s) ← chainKeyForRef C s ciphertext.senderRatchetKey
      let (keys, s) ← onMem (messageKeysForRef C s ciphertext.senderRatchetKey chainKey ciphertext.counter)
      let m ← M.get
      M.lift do
        match ← (s.seen m.heap).remoteIdentityKey with
        | none => .err .noRemoteIdentity
        | some theirIdentityKey =>
          let localIdentityKey ← (s.seen m.heap).localIdentityKey
          let valid ← ciphertext.verifyMAC C (m.heap.read keys.macKey) theirIdentityKey localIdentityKey
          if valid then
            let plaintext ← cbcDecrypt C (m.heap.read keys.cipherKey) (m.heap.read keys.iv) ciphertext.ciphertext
            return (plaintext, { s with pendingPreKey := none })
          else .err .badMAC

end Verif
