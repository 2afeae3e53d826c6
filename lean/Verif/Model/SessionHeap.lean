import Verif.Model.Heap
import Verif.Model.GroupHeap

/-!
# The session code on pointers and slices

`Model/Heap` has `*Record` and `*State` as references, but the lists in them are values: the receiving chains of a state, the message keys of a chain,
the archived sessions of a record. Here these lists are Go slices, that is windows into arrays that `append`, `s[1:]`, `s[:0]` and `s[i] = x`
share and overwrite in place. C99 proves that both agree.

A `*State` is one heap cell with its protobuf structure, a `*SessionStructure_Chain` is kept in the slot that points to it: `ReceiverChain` hands out the
pointer, but only to the methods of `State`, and no chain is in two slots. A `*SessionStructure_Chain_MessageKey` is never written after it has been
made, so the value stands for the pointer. The array of a slice is kept with the slice, because no array is reached through two states, chains or records:
the only second slice of an array is the local `filtered` of `MessageKeys`. Byte slices are never written in place.
-/

namespace Verif

namespace PtrSlice
variable {α : Type}

/-- A slice that has been built by `append` or `proto.Unmarshal` or `proto.Clone`; how much room for more its array has is up to the runtime.
(protocol/session/state.go:41-44, protocol/session/record.go:58-65.) -/
def ofList (grow : Nat → Nat) (l : List α) : PtrSlice α := { array := l.map some ++ List.replicate (grow l.length) none, off := 0, len := l.length }

/-- `s[i] = x`. (protocol/session/state.go:164 and 259.) -/
def setAt (s : PtrSlice α) (i : Nat) (x : α) : Res (PtrSlice α) :=
  if i < s.len then .ok { s with array := s.array.set (s.off + i) (some x) } else .panic

end PtrSlice

/-- protocol/proto/v1/storage.proto:13-32 — a receiving chain; `keys` is its slice of message keys. -/
structure ChainCell where
  senderRatchetKey : Bytes := []
  senderRatchetKeyPrivate : Bytes := []
  chainKey : Option PBChainKey := none
  keys : PtrSlice PBMessageKey := {}

/-- The value of a chain. (no counterpart in /repo.) -/
def ChainCell.value (c : ChainCell) : PBChain :=
  { senderRatchetKey := c.senderRatchetKey, senderRatchetKeyPrivate := c.senderRatchetKeyPrivate, chainKey := c.chainKey, messageKeys := c.keys.live }

/-- A chain that has just been made or parsed. (protocol/session/state.go:41-44, protocol/session/record.go:58-65.) -/
def ChainCell.fresh (grow : Nat → Nat) (c : PBChain) : ChainCell :=
  { senderRatchetKey := c.senderRatchetKey, senderRatchetKeyPrivate := c.senderRatchetKeyPrivate, chainKey := c.chainKey, keys := .ofList grow c.messageKeys }

/-- protocol/session/state.go:31-33 — what a `*State` points to; `fields` holds all fields but the receiving chains (its `receiverChains` is not used). -/
structure SCell where
  fields : SState := {}
  chains : PtrSlice ChainCell := {}

namespace SCell

/-- The value of a state: what the methods that only read see. (no counterpart in /repo.) -/
def value (c : SCell) : SState := { c.fields with receiverChains := c.chains.live.map ChainCell.value }

/-- A state that has just been made or parsed or cloned. (protocol/session/state.go:35-44.) -/
def fresh (grow : Nat → Nat) (s : SState) : SCell := { fields := s, chains := .ofList grow (s.receiverChains.map (ChainCell.fresh grow)) }

/-- The loop of protocol/session/state.go:144-148. The key of a nil chain reads as empty, and the key that is looked for is never empty. -/
def findChain (key : Bytes) : List (Option ChainCell) → Nat → Option (Nat × ChainCell)
  | [], _ => none
  | none :: cs, i => findChain key cs (i + 1)
  | some c :: cs, i => if c.senderRatchetKey = key then some (i, c) else findChain key cs (i + 1)

/-- protocol/session/state.go:142-151 — `ReceiverChain`. -/
def receiverChain (c : SCell) (sender : PubKey) : Option (Nat × ChainCell) := findChain sender.bytes c.chains.items 0

/-- protocol/session/state.go:153-167 — `SetReceiverChainKey`. -/
def setReceiverChainKey (c : SCell) (sender : PubKey) (chainKey : ChainKey) : Res SCell :=
  match c.receiverChain sender with
  | none => .err .missingReceiverChain
  | some (idx, chain) => do
    let chains ← c.chains.setAt idx { chain with chainKey := some { index := chainKey.index, key := chainKey.key } }
    return { c with chains := chains }

/-- protocol/session/state.go:183-197 — `AddReceiverChain`. -/
def addReceiverChain (grow : Nat → Nat) (c : SCell) (sender : PubKey) (chainKey : ChainKey) : Res SCell := do
  let chains := c.chains.append grow [some { senderRatchetKey := sender.bytes, chainKey := some { index := chainKey.index, key := chainKey.key } }]
  if chains.len > maxReceiverChains then
    let chains ← chains.setNil 0
    let chains ← chains.tail
    return { c with chains := chains }
  else return { c with chains := chains }

/-- The slice part of `SetMessageKeys` (protocol/session/state.go:253-257). -/
def addKey (grow : Nat → Nat) (keys : PtrSlice PBMessageKey) (k : PBMessageKey) : Res (PtrSlice PBMessageKey) := do
  let keys := keys.append grow [some k]
  if keys.len > maxMessageKeys then
    let keys ← keys.setNil 0
    keys.tail
  else return keys

/-- protocol/session/state.go:241-262 — `SetMessageKeys`. -/
def setMessageKeys (grow : Nat → Nat) (c : SCell) (sender : PubKey) (mk : MessageKeys) : Res SCell :=
  match c.receiverChain sender with
  | none => .err .missingReceiverChain
  | some (idx, chain) => do
    let keys ← addKey grow chain.keys { index := mk.counter, cipherKey := mk.cipherKey, macKey := mk.macKey, iv := mk.iv }
    let chains ← c.chains.setAt idx { chain with keys := keys }
    return { c with chains := chains }

/-- The loop of protocol/session/state.go:274-283: `i` is the next index to read, `n` the number of elements still to read, `found` the last key that was
taken out. Reads and the writes of `append` go to the same array; `append` has room, because no more than `i` elements have been written.
`key = nil` (line 278) only changes the loop's variable. The fields of a nil key read as zero. -/
def filterKeys (grow : Nat → Nat) (counter : UInt32) : Nat → Nat → PtrSlice PBMessageKey → Option PBMessageKey → PtrSlice PBMessageKey × Option PBMessageKey
  | 0, _, filtered, found => (filtered, found)
  | n + 1, i, filtered, found =>
    let key := filtered.array[filtered.off + i]?.join
    if (key.getD {}).index = counter then filterKeys grow counter n (i + 1) filtered (some (key.getD {}))
    else filterKeys grow counter n (i + 1) (filtered.append grow [key]) found

/-- protocol/session/state.go:264-288 — `MessageKeys` up to the keys being checked: the stored key, and the changed state. -/
def takeMessageKeys (grow : Nat → Nat) (c : SCell) (sender : PubKey) (counter : UInt32) : Res (Option PBMessageKey × SCell) :=
  match c.receiverChain sender with
  | none => .ok (none, c)
  | some (idx, chain) => do
    let (filtered, found) := filterKeys grow counter chain.keys.len 0 { chain.keys with len := 0 } none
    let chains ← c.chains.setAt idx { chain with keys := filtered }
    return (found, { c with chains := chains })

end SCell

/-- protocol/session/record.go:17-20 — `Record`; `current` is a `*State`. -/
structure ZRecordCell where
  current : Option Nat := none
  previous : PtrSlice Bytes := {}

/-- The memory of a process and its stores, as `HWorld`. (protocol/session/session.go:25-31, protocol/session/store_inmem.go:13-15.) -/
structure ZWorld where
  rest : World
  /-- the session store: a map to `*Record` -/
  store : Address → Option Nat
  records : Nat → ZRecordCell
  states : Nat → SCell
  /-- cells from here on are not in use -/
  nextRecord : Nat
  nextState : Nat
  /-- how much room for more the runtime gives a new array with this many elements -/
  grow : Nat → Nat

/-- The record with all pointers and slices followed. (no counterpart in /repo.) -/
def ZWorld.view (h : ZWorld) (r : Nat) : Record := { current := (h.records r).current.map fun p => (h.states p).value, previous := (h.records r).previous.live }

/-- The stores, with pointers and slices followed. (no counterpart in /repo.) -/
def ZWorld.values (h : ZWorld) : World := { h.rest with sessions := fun a => (h.store a).map h.view }

/-- Code that does not touch session records (protocol/session/session.go:41-60). -/
def zRest {α} (x : M World α) : M ZWorld α := fun h =>
  let (r, w) := x h.rest
  (r, { h with rest := w })

/-- `&State{...}` (protocol/session/state.go:35-39). -/
def zAllocState (s : SState) : M ZWorld Nat := fun h =>
  (.ok h.nextState, { h with states := upd h.states h.nextState (.fresh h.grow s), nextState := h.nextState + 1 })

/-- `&Record{...}` (protocol/session/record.go:24-29). -/
def zAllocRecord (r : ZRecordCell) : M ZWorld Nat := fun h =>
  (.ok h.nextRecord, { h with records := upd h.records h.nextRecord r, nextRecord := h.nextRecord + 1 })

/-- protocol/session/record.go:24-29 — `NewRecord(nil)`. -/
def zNewRecord : M ZWorld Nat := zAllocRecord { previous := .make maxArchivedStates }

/-- A read of the fields of a `*State` (protocol/session/state.go:31-33). -/
def zReadCell (p : Nat) : M ZWorld SCell := fun h => (.ok (h.states p), h)

/-- A method of `*State` that only reads (e.g. protocol/session/state.go:77-79). -/
def zReadState (p : Nat) : M ZWorld SState := fun h => (.ok (h.states p).value, h)

/-- A write to the fields of a `*State` (protocol/session/state.go:31-33). -/
def zWriteCell (p : Nat) (c : SCell) : M ZWorld Unit := fun h => (.ok (), { h with states := upd h.states p c })

/-- A getter of `*State` (e.g. protocol/session/state.go:77-79). -/
def zGetState {α} (p : Nat) (f : SState → Res α) : M ZWorld α := do
  let s ← zReadState p
  M.lift (f s)

/-- A setter of `*State` for fields other than the receiving chains (e.g. protocol/session/state.go:106-108). -/
def zChangeFields (p : Nat) (f : SState → SState) : M ZWorld Unit := do
  let c ← zReadCell p
  zWriteCell p { c with fields := f c.fields }

/-- A setter of `*State` for the receiving chains, which may fail before it has written anything (protocol/session/state.go:153-167, 183-197
and 241-262). -/
def zChangeChains (p : Nat) (f : (Nat → Nat) → SCell → Res SCell) : M ZWorld Unit := do
  let h ← M.get
  let c ← zReadCell p
  let c' ← M.lift (f h.grow c)
  zWriteCell p c'

/-- A read of the fields of a `*Record` (protocol/session/record.go:17-20). -/
def zReadRecord (r : Nat) : M ZWorld ZRecordCell := fun h => (.ok (h.records r), h)

/-- A write to the fields of a `*Record` (protocol/session/record.go:17-20). -/
def zWriteRecord (r : Nat) (c : ZRecordCell) : M ZWorld Unit := fun h => (.ok (), { h with records := upd h.records r c })

/-- A method of `*Record` that only reads (e.g. protocol/session/record.go:56-67). -/
def zGetRecord {α} (r : Nat) (f : Record → Res α) : M ZWorld α := fun h => (f (h.view r), h)

/-- protocol/session/state.go:41-44 — `Clone`. -/
def zClone (p : Nat) : M ZWorld Nat := do
  let s ← zReadState p
  zAllocState s

/-- What a store that keeps copies does with a record, e.g. by serialising it. (no counterpart in /repo: protocol/session/store.go:11-14 leaves it
to the user.) -/
def zCopyRecord (r : Nat) : M ZWorld Nat := do
  let h ← M.get
  let c ← zReadRecord r
  let previous := PtrSlice.ofList h.grow c.previous.live
  match c.current with
  | none => zAllocRecord { current := none, previous := previous }
  | some p =>
    let q ← zClone p
    zAllocRecord { current := some q, previous := previous }

/-- One call on the session store. (protocol/session/store.go:11-14.) -/
def zStoreCall {α} (act : M ZWorld α) : M ZWorld α := fun h =>
  match h.rest.faults with
  | [] => act h
  | .none :: fs => act { h with rest := { h.rest with faults := fs } }
  | .before :: fs => (.err .store, { h with rest := { h.rest with faults := fs } })
  | .after :: fs => (.err .store, (act { h with rest := { h.rest with faults := fs } }).2)

/-- `SessionStore.Load` (protocol/session/store_inmem.go:24-27). -/
def zLoadSession (E : HEnv) (a : Address) : M ZWorld (Option Nat) := zStoreCall do
  let h ← M.get
  match h.store a with
  | none => return none
  | some r =>
    if E.aliased then return some r
    else
      let r' ← zCopyRecord r
      return some r'

/-- `SessionStore.Store` (protocol/session/store_inmem.go:29-32). -/
def zStoreSession (E : HEnv) (a : Address) (r : Nat) : M ZWorld Unit := zStoreCall do
  let p ← if E.copies then zCopyRecord r else pure r
  M.modify fun h => { h with store := upd h.store a (some p) }

/-- protocol/session/record.go:69-71 — `SetSessionState`. -/
def zSetSessionState (r p : Nat) : M ZWorld Unit := do
  let c ← zReadRecord r
  zWriteRecord r { c with current := some p }

/-- protocol/session/record.go:107-118 — `ArchiveCurrentState`: `s[1:]` without `s[0] = nil`. -/
def zArchiveCurrentState (r : Nat) : M ZWorld Unit := do
  let h ← M.get
  let c ← zReadRecord r
  match c.current with
  | none => return ()
  | some p =>
    let s ← zReadState p
    let previous ← M.lift (if c.previous.len ≥ maxArchivedStates then c.previous.tail else .ok c.previous)
    zWriteRecord r { c with previous := previous.append h.grow [some s.marshal] }

/-- protocol/session/record.go:102-105 — `PromoteState`. -/
def zPromoteState (r p : Nat) : M ZWorld Unit := do
  zArchiveCurrentState r
  zSetSessionState r p

/-- protocol/session/record.go:93-100 — `PromoteOldState`. -/
def zPromoteOldState (r idx p : Nat) : M ZWorld Unit := do
  let h ← M.get
  let c ← zReadRecord r
  if idx ≥ c.previous.len then return ()
  else
    let previous ← M.lift (c.previous.setNil idx)
    let previous ← M.lift (previous.cut h.grow idx)
    zWriteRecord r { c with previous := previous }
    zPromoteState r p

/-- The loop of protocol/session/record.go:58-65: every archived state is parsed into a new `*State`. -/
def zAllocStates : List SState → M ZWorld (List Nat)
  | [] => return []
  | s :: ss => do
    let p ← zAllocState s
    let ps ← zAllocStates ss
    return p :: ps

/-- protocol/session/state.go:264-288 — `MessageKeys`: the chain is written back before the keys are checked. -/
def zTakeMessageKeys (p : Nat) (sender : PubKey) (counter : UInt32) : M ZWorld (Option MessageKeys) := do
  let h ← M.get
  let c ← zReadCell p
  let (found, c') ← M.lift (c.takeMessageKeys h.grow sender counter)
  zWriteCell p c'
  match found with
  | none => return none
  | some k =>
    let mk ← M.lift (newMessageKeys k.cipherKey k.macKey k.iv counter)
    return some mk

/-- protocol/session/cipher.go:325-376 — `chainKey`. -/
def zChainKey (C : Crypto) (p : Nat) (theirEphemeral : PubKey) : M ZWorld ChainKey := do
  match ← zGetState p (·.receiverChainKey theirEphemeral) with
  | some chain => return chain
  | none =>
    let rootKey ← zGetState p (·.getRootKey)
    let ourEphemeral ← zGetState p (·.senderRatchetPrivateKey)
    let (receiverRootKey, receiverChainKey) ← M.lift (rootKey.createChain C ourEphemeral theirEphemeral)
    let ourNewEphemeral ← zRest (withRand (generateKeyPair C))
    let (senderRootKey, senderChainKey) ← M.lift (receiverRootKey.createChain C ourNewEphemeral.priv theirEphemeral)
    let currentSenderChainKey ← zGetState p (·.senderChainKey)
    zChangeFields p fun s => { s with rootKey := senderRootKey.key }
    zChangeChains p fun grow c => c.addReceiverChain grow theirEphemeral receiverChainKey
    let currentIdx := currentSenderChainKey.index
    let previousIdx := if currentIdx > 0 then currentIdx - 1 else 0
    zChangeFields p fun s => { s with previousCounter := previousIdx }
    zChangeFields p fun s => s.setSenderChain ourNewEphemeral senderChainKey
    return receiverChainKey

/-- The loop of protocol/session/cipher.go:405-414; `fuel` as in `skipLoop`. -/
def zSkipLoop (C : Crypto) (p : Nat) (theirEphemeral : PubKey) (counter : UInt32) : Nat → ChainKey → M ZWorld ChainKey
  | 0, ck => return ck
  | fuel + 1, ck =>
    if ck.index < counter then do
      zChangeChains p fun grow c => c.setMessageKeys grow theirEphemeral (ck.messageKeys C)
      zSkipLoop C p theirEphemeral counter fuel (ck.next C)
    else return ck

/-- protocol/session/cipher.go:378-422 — `messageKeys`. -/
def zMessageKeys (C : Crypto) (p : Nat) (theirEphemeral : PubKey) (chainKey : ChainKey) (counter : UInt32) : M ZWorld MessageKeys :=
  if chainKey.index > counter then do
    match ← zTakeMessageKeys p theirEphemeral counter with
    | some k => return k
    | none => M.throw .duplicateMessage
  else do
    let jump := counter - chainKey.index
    if jump > maxJumps then
      let withSelf ← zGetState p (·.sessionWithSelf)
      if withSelf then pure () else M.throw .tooFarInFuture
    let ck ← zSkipLoop C p theirEphemeral counter (counter.toNat - chainKey.index.toNat) chainKey
    zChangeChains p fun _ c => c.setReceiverChainKey theirEphemeral ck
    return ck.messageKeys C

/-- protocol/session/cipher.go:273-323 — `decryptMessageSession`. -/
def zDecryptMessageSession (C : Crypto) (p : Nat) (ciphertext : Signal) : M ZWorld Bytes := do
  let s ← zReadState p
  match s.senderChain with
  | none => M.throw .noSession
  | some _ =>
    if ciphertext.version.toUInt32 ≠ s.version then M.throw .unsupportedVersion
    else
      let theirEphemeral := ciphertext.senderRatchetKey
      let chainKey ← zChainKey C p theirEphemeral
      let messageKeys ← zMessageKeys C p theirEphemeral chainKey ciphertext.counter
      match ← zGetState p (·.remoteIdentityKey) with
      | none => M.throw .noRemoteIdentity
      | some theirIdentityKey =>
        let localIdentityKey ← zGetState p (·.localIdentityKey)
        let valid ← M.lift (ciphertext.verifyMAC C messageKeys.macKey theirIdentityKey localIdentityKey)
        if valid then
          let plaintext ← M.lift (cbcDecrypt C messageKeys.cipherKey messageKeys.iv ciphertext.ciphertext)
          zChangeFields p (·.clearUnacknowledgedPreKeyMessage)
          return plaintext
        else M.throw .badMAC

/-- The loop of protocol/session/cipher.go:242-257 over the archived `*State`s. -/
def zTryPrevious (C : Crypto) (ciphertext : Signal) :
    List Nat → Nat → Option (Nat × Nat × Bytes) → M ZWorld (Option (Nat × Nat × Bytes))
  | [], _, found => return found
  | p :: ps, i, found => do
    match ← M.attempt (zDecryptMessageSession C p ciphertext) with
    | .ok plaintext => zTryPrevious C ciphertext ps (i + 1) (some (i, p, plaintext))
    | .error .duplicateMessage => M.throw .duplicateMessage
    | .error _ => zTryPrevious C ciphertext ps (i + 1) found

/-- protocol/session/cipher.go:235-270 — the part of `decryptMessage` that tries the archived states. -/
def zDecryptPrevious (C : Crypto) (r : Nat) (ciphertext : Signal) : M ZWorld Bytes := do
  let previous ← zGetRecord r (·.previousStates)
  let previous ← zAllocStates previous
  match ← zTryPrevious C ciphertext previous 0 none with
  | some (idx, p, plaintext) =>
    zPromoteOldState r idx p
    return plaintext
  | none => M.throw .decryptionFailed

/-- protocol/session/cipher.go:220-271 — `decryptMessage`. -/
def zDecryptRecord (C : Crypto) (r : Nat) (ciphertext : Signal) : M ZWorld Bytes := do
  let c ← zReadRecord r
  match c.current with
  | some p =>
    let current ← zClone p
    match ← M.attempt (zDecryptMessageSession C current ciphertext) with
    | .ok plaintext =>
      zSetSessionState r current
      return plaintext
    | .error .duplicateMessage => M.throw .duplicateMessage
    | .error _ => zDecryptPrevious C r ciphertext
  | none => zDecryptPrevious C r ciphertext

/-- protocol/session/cipher.go:23-124 — `EncryptMessage`: works on the record's own state, without a clone. -/
def zEncryptMessage (E : HEnv) (a : Address) (plaintext : Bytes) : M ZWorld Ciphertext := do
  match ← zLoadSession E a with
  | none => M.throw (.sessionNotFound a)
  | some r =>
    let c ← zReadRecord r
    match c.current with
    | none => M.throw (.sessionNotFound a)
    | some p =>
      let (msg, next, theirIdentityKey) ← zGetState p fun s => do
        let (msg, _, theirIdentityKey) ← encryptState E.C s plaintext
        let chainKey ← s.senderChainKey
        return (msg, chainKey.next E.C, theirIdentityKey)
      zChangeFields p fun s => s.setSenderChainKey next
      let trusted ← zRest (isTrusted E.toEnv a theirIdentityKey .sending)
      if trusted then
        zRest (storeIdentity a theirIdentityKey)
        zStoreSession E a r
        return msg
      else M.throw (.untrustedIdentity a)

/-- protocol/session/session.go:62-118 — `processPreKeyV3`. -/
def zProcessPreKeyV3 (E : HEnv) (r : Nat) (msg : PreKeyMsg) : M ZWorld (Option UInt32) := do
  let found ← zGetRecord r fun x => x.hasSessionState msg.version.toUInt32 msg.baseKey.bytes
  if found then return none
  else
    let ourSignedPreKeyPair ← zRest (loadSignedPreKey msg.signedPreKeyID >>= optKeyPair)
    let ourOneTimePreKeyPair ← match msg.preKeyID with
      | none => pure none
      | some id => zRest (loadPreKey id >>= optKeyPair)
    let h ← M.get
    let s ← M.lift (orPanic (initializeBobSession E.C
      { ourIdentityKeyPair := h.rest.identity, ourSignedPreKeyPair := ourSignedPreKeyPair,
        ourOneTimePreKeyPair := ourOneTimePreKeyPair, ourRatchetKeyPair := ourSignedPreKeyPair,
        theirIdentityKey := msg.identityKey, theirBaseKey := msg.baseKey }))
    let p ← zAllocState s
    zChangeFields p fun s => { s with localRegistrationId := h.rest.regId }
    zChangeFields p fun s => { s with remoteRegistrationId := msg.registrationID }
    zChangeFields p fun s => { s with aliceBaseKey := msg.baseKey.bytes }
    zPromoteState r p
    return msg.preKeyID

/-- protocol/session/session.go:38-60 — `ProcessPreKey`. -/
def zProcessPreKey (E : HEnv) (a : Address) (r : Nat) (msg : PreKeyMsg) : M ZWorld (Option UInt32) := do
  let trusted ← zRest (isTrusted E.toEnv a msg.identityKey .receiving)
  if trusted then
    let id ← zProcessPreKeyV3 E r msg
    zRest (storeIdentity a msg.identityKey)
    return id
  else M.throw (.untrustedIdentity a)

/-- `Load`, and `NewRecord(nil)` when there is no record (protocol/session/cipher.go:139-146, protocol/session/session.go:141-147). -/
def zLoadOrNew (E : HEnv) (a : Address) : M ZWorld Nat := do
  match ← zLoadSession E a with
  | some r => return r
  | none => zNewRecord

/-- protocol/session/cipher.go:138-171 — `decryptPreKey`. -/
def zDecryptPreKey (E : HEnv) (a : Address) (msg : PreKeyMsg) : M ZWorld Bytes := do
  let r ← zLoadOrNew E a
  let preKeyID ← zProcessPreKey E a r msg
  let plaintext ← zDecryptRecord E.C r msg.message
  zStoreSession E a r
  match preKeyID with
  | some id => zRest (deletePreKey id)
  | none => pure ()
  return plaintext

/-- protocol/session/cipher.go:173-212 — `decryptSignal`. -/
def zDecryptSignal (E : HEnv) (a : Address) (msg : Signal) : M ZWorld (Option Bytes) := do
  match ← zLoadSession E a with
  | none => M.throw (.sessionNotFound a)
  | some r =>
    let out ← M.attempt (zDecryptRecord E.C r msg)
    let plaintext := match out with
      | .ok p => some p
      | .error _ => none
    let c ← zReadRecord r
    match c.current with
    | none => M.throw .mustHaveState
    | some p =>
      let s ← zReadState p
      match s.remoteIdentityKey with
      | .ok (some theirIdentityKey) =>
        let trusted ← zRest (isTrusted E.toEnv a theirIdentityKey .receiving)
        if trusted then
          zRest (storeIdentity a theirIdentityKey)
          zStoreSession E a r
          return plaintext
        else M.throw (.untrustedIdentity a)
      | .panic => M.panic
      | _ => M.throw .mustHaveIdentity

/-- protocol/session/cipher.go:127-136 — `DecryptMessage`. -/
def zDecryptMessage (E : HEnv) (a : Address) (c : Ciphertext) : M ZWorld (Option Bytes) :=
  match c with
  | .preKey m => do
    let p ← zDecryptPreKey E a m
    return some p
  | .signal m => zDecryptSignal E a m
  | _ => M.throw .wrongMessageType

/-- protocol/session/session.go:122-195 — `ProcessPreKeyBundle`. -/
def zProcessPreKeyBundle (E : HEnv) (a : Address) (b : Bundle) : M ZWorld Unit := do
  let trusted ← zRest (isTrusted E.toEnv a b.identityKey .sending)
  if trusted then
    let ok ← M.lift (b.identityKey.verifySignature E.C b.signedPreKeySignature [b.signedPreKeyPublic.bytes])
    if ok then
      let r ← zLoadOrNew E a
      let ourBaseKeyPair ← zRest (withRand (generateKeyPair E.C))
      let h ← M.get
      let s ← zRest (withRand (initializeAliceSession E.C
        { ourIdentityKeyPair := h.rest.identity, ourBaseKeyPair := ourBaseKeyPair, theirIdentityKey := b.identityKey,
          theirSignedPreKey := b.signedPreKeyPublic, theirOneTimePreKey := b.preKeyPublic,
          theirRatchetKey := b.signedPreKeyPublic }))
      let p ← zAllocState s
      zChangeFields p fun s => s.setUnacknowledgedPreKeyMessage b.preKeyID b.signedPreKeyID ourBaseKeyPair.pub
      zChangeFields p fun s => { s with localRegistrationId := h.rest.regId }
      zChangeFields p fun s => { s with remoteRegistrationId := b.registrationID }
      zChangeFields p fun s => { s with aliceBaseKey := ourBaseKeyPair.pub.bytes }
      zRest (storeIdentity a b.identityKey)
      zPromoteState r p
      zStoreSession E a r
    else M.throw .badBundleSignature
  else M.throw .untrustedBundle

end Verif
