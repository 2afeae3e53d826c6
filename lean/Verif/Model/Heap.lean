import Verif.Model.World

/-!
# The session code on pointers

`Model/Cipher` and `Model/World` work on values: a method that changes a `*State` or a `*Record` returns the new value, and a flag says
whether the session store sees such changes at once. Here the same functions are written as the Go code is: `*Record` and `*State` are
references into a heap, methods write through them, `Clone`, `NewRecord`, `NewState` and the stores decide who shares what. C85 proves that both agree.

A `*State` is one heap cell: the protobuf structure and the chains in it are only reached through their `State`, and `proto.Clone` copies
all of them (protocol/session/state.go:41-44). Byte slices are never written in place, so they stay values.
-/

namespace Verif

/-- protocol/session/record.go:17-20 — `Record`; `current` is a `*State`. -/
structure RecordCell where
  current : Option Nat := none
  previous : List Bytes := []

/-- The memory of a process and its stores. `rest` holds all stores but the session store (its `sessions` field is not used), the
random reader and the outcomes of the next store calls. (protocol/session/session.go:25-31, protocol/session/store_inmem.go:13-15.) -/
structure HWorld where
  rest : World
  /-- the session store: a map to `*Record` -/
  store : Address → Option Nat
  records : Nat → RecordCell
  states : Nat → SState
  /-- cells from here on are not in use -/
  nextRecord : Nat
  nextState : Nat

/-- The session store. `E.aliased`: `Load` returns the stored pointer (protocol/session/store_inmem.go:24-27), otherwise a copy. `copies`:
`Store` keeps a copy, otherwise the pointer (protocol/session/store_inmem.go:29-32). -/
structure HEnv extends Env where
  copies : Bool

/-- What a `*Record` points to. (no counterpart in /repo.) -/
def HWorld.view (h : HWorld) (r : Nat) : Record := { current := (h.records r).current.map h.states, previous := (h.records r).previous }

/-- The stores, with pointers followed. (no counterpart in /repo.) -/
def HWorld.values (h : HWorld) : World := { h.rest with sessions := fun a => (h.store a).map h.view }

/-- Code that does not touch session records, e.g. the pre-key and identity stores (protocol/session/session.go:41-60). -/
def hRest {α} (x : M World α) : M HWorld α := fun h =>
  let (r, w) := x h.rest
  (r, { h with rest := w })

/-- `state := ...; &state` (protocol/session/state.go:35-39). -/
def allocState (s : SState) : M HWorld Nat := fun h =>
  (.ok h.nextState, { h with states := upd h.states h.nextState s, nextState := h.nextState + 1 })

/-- `&Record{...}` (protocol/session/record.go:24-29). -/
def allocRecord (r : RecordCell) : M HWorld Nat := fun h =>
  (.ok h.nextRecord, { h with records := upd h.records h.nextRecord r, nextRecord := h.nextRecord + 1 })

/-- A read of the fields of a `*State` (protocol/session/state.go:31-33). -/
def readState (p : Nat) : M HWorld SState := fun h => (.ok (h.states p), h)

/-- A write to the fields of a `*State` (protocol/session/state.go:31-33). -/
def writeState (p : Nat) (s : SState) : M HWorld Unit := fun h => (.ok (), { h with states := upd h.states p s })

/-- A getter of `*State` (e.g. protocol/session/state.go:77-79). -/
def getState {α} (p : Nat) (f : SState → Res α) : M HWorld α := do
  let s ← readState p
  M.lift (f s)

/-- A setter of `*State` (e.g. protocol/session/state.go:106-108). -/
def changeState (p : Nat) (f : SState → SState) : M HWorld Unit := do
  let s ← readState p
  writeState p (f s)

/-- A setter of `*State` that may fail, before it has written anything (protocol/session/state.go:153-167 and 241-262). -/
def changeState? (p : Nat) (f : SState → Res SState) : M HWorld Unit := do
  let s ← readState p
  let s' ← M.lift (f s)
  writeState p s'

/-- A read of the fields of a `*Record` (protocol/session/record.go:17-20). -/
def readRecord (r : Nat) : M HWorld RecordCell := fun h => (.ok (h.records r), h)

/-- A write to the fields of a `*Record` (protocol/session/record.go:17-20). -/
def writeRecord (r : Nat) (c : RecordCell) : M HWorld Unit := fun h => (.ok (), { h with records := upd h.records r c })

/-- A method of `*Record` that only reads (e.g. protocol/session/record.go:56-67). -/
def getRecord {α} (r : Nat) (f : Record → Res α) : M HWorld α := fun h => (f (h.view r), h)

/-- protocol/session/state.go:41-44 — `Clone`. -/
def hClone (p : Nat) : M HWorld Nat := do
  let s ← readState p
  allocState s

/-- What a store that keeps copies does with a record, e.g. by serialising it. (no counterpart in /repo: protocol/session/store.go:11-14 leaves it
to the user.) -/
def copyRecord (r : Nat) : M HWorld Nat := do
  let c ← readRecord r
  match c.current with
  | none => allocRecord c
  | some p =>
    let q ← hClone p
    allocRecord { c with current := some q }

/-- One call on the session store. (protocol/session/store.go:11-14.) -/
def hStoreCall {α} (act : M HWorld α) : M HWorld α := fun h =>
  match h.rest.faults with
  | [] => act h
  | .none :: fs => act { h with rest := { h.rest with faults := fs } }
  | .before :: fs => (.err .store, { h with rest := { h.rest with faults := fs } })
  | .after :: fs => (.err .store, (act { h with rest := { h.rest with faults := fs } }).2)

/-- `SessionStore.Load` (protocol/session/store_inmem.go:24-27). -/
def hLoadSession (E : HEnv) (a : Address) : M HWorld (Option Nat) := hStoreCall do
  let h ← M.get
  match h.store a with
  | none => return none
  | some r =>
    if E.aliased then return some r
    else
      let r' ← copyRecord r
      return some r'

/-- `SessionStore.Store` (protocol/session/store_inmem.go:29-32). -/
def hStoreSession (E : HEnv) (a : Address) (r : Nat) : M HWorld Unit := hStoreCall do
  let p ← if E.copies then copyRecord r else pure r
  M.modify fun h => { h with store := upd h.store a (some p) }

/-- protocol/session/record.go:69-71 — `SetSessionState`. -/
def hSetSessionState (r p : Nat) : M HWorld Unit := do
  let c ← readRecord r
  writeRecord r { c with current := some p }

/-- protocol/session/record.go:107-118 — `ArchiveCurrentState`. -/
def hArchiveCurrentState (r : Nat) : M HWorld Unit := do
  let c ← readRecord r
  match c.current with
  | none => return ()
  | some p =>
    let s ← readState p
    let previous := if c.previous.length ≥ maxArchivedStates then c.previous.drop 1 else c.previous
    writeRecord r { c with previous := previous ++ [s.marshal] }

/-- protocol/session/record.go:102-105 — `PromoteState`. -/
def hPromoteState (r p : Nat) : M HWorld Unit := do
  hArchiveCurrentState r
  hSetSessionState r p

/-- protocol/session/record.go:93-100 — `PromoteOldState`. -/
def hPromoteOldState (r idx p : Nat) : M HWorld Unit := do
  let c ← readRecord r
  if idx ≥ c.previous.length then return ()
  else
    writeRecord r { c with previous := c.previous.take idx ++ c.previous.drop (idx + 1) }
    hPromoteState r p

/-- The loop of protocol/session/record.go:58-65: every archived state is parsed into a new `*State`. -/
def allocStates : List SState → M HWorld (List Nat)
  | [] => return []
  | s :: ss => do
    let p ← allocState s
    let ps ← allocStates ss
    return p :: ps

/-- protocol/session/state.go:264-288 — `MessageKeys`: the chain is written back before the keys are checked. -/
def hTakeMessageKeys (p : Nat) (sender : PubKey) (counter : UInt32) : M HWorld (Option MessageKeys) := do
  let s ← readState p
  match s.receiverChain sender with
  | none => return none
  | some (idx, chain) =>
    writeState p { s with receiverChains :=
      s.receiverChains.set idx { chain with messageKeys := chain.messageKeys.filter fun k => k.index ≠ counter } }
    match (chain.messageKeys.filter fun k => k.index = counter).getLast? with
    | none => return none
    | some k =>
      let mk ← M.lift (newMessageKeys k.cipherKey k.macKey k.iv counter)
      return some mk

/-- protocol/session/cipher.go:325-376 — `chainKey`. -/
def hChainKey (C : Crypto) (p : Nat) (theirEphemeral : PubKey) : M HWorld ChainKey := do
  match ← getState p (·.receiverChainKey theirEphemeral) with
  | some chain => return chain
  | none =>
    let rootKey ← getState p (·.getRootKey)
    let ourEphemeral ← getState p (·.senderRatchetPrivateKey)
    let (receiverRootKey, receiverChainKey) ← M.lift (rootKey.createChain C ourEphemeral theirEphemeral)
    let ourNewEphemeral ← hRest (withRand (generateKeyPair C))
    let (senderRootKey, senderChainKey) ← M.lift (receiverRootKey.createChain C ourNewEphemeral.priv theirEphemeral)
    let currentSenderChainKey ← getState p (·.senderChainKey)
    changeState p fun s => { s with rootKey := senderRootKey.key }
    changeState p fun s => s.addReceiverChain theirEphemeral receiverChainKey
    let currentIdx := currentSenderChainKey.index
    let previousIdx := if currentIdx > 0 then currentIdx - 1 else 0
    changeState p fun s => { s with previousCounter := previousIdx }
    changeState p fun s => s.setSenderChain ourNewEphemeral senderChainKey
    return receiverChainKey

/-- The loop of protocol/session/cipher.go:405-414; `fuel` as in `skipLoop`. -/
def hSkipLoop (C : Crypto) (p : Nat) (theirEphemeral : PubKey) (counter : UInt32) : Nat → ChainKey → M HWorld ChainKey
  | 0, ck => return ck
  | fuel + 1, ck =>
    if ck.index < counter then do
      changeState? p fun s => s.setMessageKeys theirEphemeral (ck.messageKeys C)
      hSkipLoop C p theirEphemeral counter fuel (ck.next C)
    else return ck

/-- protocol/session/cipher.go:378-422 — `messageKeys`. -/
def hMessageKeys (C : Crypto) (p : Nat) (theirEphemeral : PubKey) (chainKey : ChainKey) (counter : UInt32) : M HWorld MessageKeys :=
  if chainKey.index > counter then do
    match ← hTakeMessageKeys p theirEphemeral counter with
    | some k => return k
    | none => M.throw .duplicateMessage
  else do
    let jump := counter - chainKey.index
    if jump > maxJumps then
      let withSelf ← getState p (·.sessionWithSelf)
      if withSelf then pure () else M.throw .tooFarInFuture
    let ck ← hSkipLoop C p theirEphemeral counter (counter.toNat - chainKey.index.toNat) chainKey
    changeState? p fun s => s.setReceiverChainKey theirEphemeral ck
    return ck.messageKeys C

/-- protocol/session/cipher.go:273-323 — `decryptMessageSession`. -/
def hDecryptMessageSession (C : Crypto) (p : Nat) (ciphertext : Signal) : M HWorld Bytes := do
  let s ← readState p
  match s.senderChain with
  | none => M.throw .noSession
  | some _ =>
    if ciphertext.version.toUInt32 ≠ s.version then M.throw .unsupportedVersion
    else
      let theirEphemeral := ciphertext.senderRatchetKey
      let chainKey ← hChainKey C p theirEphemeral
      let messageKeys ← hMessageKeys C p theirEphemeral chainKey ciphertext.counter
      match ← getState p (·.remoteIdentityKey) with
      | none => M.throw .noRemoteIdentity
      | some theirIdentityKey =>
        let localIdentityKey ← getState p (·.localIdentityKey)
        let valid ← M.lift (ciphertext.verifyMAC C messageKeys.macKey theirIdentityKey localIdentityKey)
        if valid then
          let plaintext ← M.lift (cbcDecrypt C messageKeys.cipherKey messageKeys.iv ciphertext.ciphertext)
          changeState p (·.clearUnacknowledgedPreKeyMessage)
          return plaintext
        else M.throw .badMAC

/-- The loop of protocol/session/cipher.go:242-257 over the archived `*State`s. -/
def hTryPrevious (C : Crypto) (ciphertext : Signal) :
    List Nat → Nat → Option (Nat × Nat × Bytes) → M HWorld (Option (Nat × Nat × Bytes))
  | [], _, found => return found
  | p :: ps, i, found => do
    match ← M.attempt (hDecryptMessageSession C p ciphertext) with
    | .ok plaintext => hTryPrevious C ciphertext ps (i + 1) (some (i, p, plaintext))
    | .error .duplicateMessage => M.throw .duplicateMessage
    | .error _ => hTryPrevious C ciphertext ps (i + 1) found

/-- protocol/session/cipher.go:235-270 — the part of `decryptMessage` that tries the archived states. -/
def hDecryptPrevious (C : Crypto) (r : Nat) (ciphertext : Signal) : M HWorld Bytes := do
  let previous ← getRecord r (·.previousStates)
  let previous ← allocStates previous
  match ← hTryPrevious C ciphertext previous 0 none with
  | some (idx, p, plaintext) =>
    hPromoteOldState r idx p
    return plaintext
  | none => M.throw .decryptionFailed

/-- protocol/session/cipher.go:220-271 — `decryptMessage`. -/
def hDecryptRecord (C : Crypto) (r : Nat) (ciphertext : Signal) : M HWorld Bytes := do
  let c ← readRecord r
  match c.current with
  | some p =>
    let current ← hClone p
    match ← M.attempt (hDecryptMessageSession C current ciphertext) with
    | .ok plaintext =>
      hSetSessionState r current
      return plaintext
    | .error .duplicateMessage => M.throw .duplicateMessage
    | .error _ => hDecryptPrevious C r ciphertext
  | none => hDecryptPrevious C r ciphertext

/-- protocol/session/cipher.go:23-124 — `EncryptMessage`: works on the record's own state, without a clone. -/
def hEncryptMessage (E : HEnv) (a : Address) (plaintext : Bytes) : M HWorld Ciphertext := do
  match ← hLoadSession E a with
  | none => M.throw (.sessionNotFound a)
  | some r =>
    let c ← readRecord r
    match c.current with
    | none => M.throw (.sessionNotFound a)
    | some p =>
      let (msg, next, theirIdentityKey) ← getState p fun s => do
        let (msg, _, theirIdentityKey) ← encryptState E.C s plaintext
        let chainKey ← s.senderChainKey
        return (msg, chainKey.next E.C, theirIdentityKey)
      changeState p fun s => s.setSenderChainKey next
      let trusted ← hRest (isTrusted E.toEnv a theirIdentityKey .sending)
      if trusted then
        hRest (storeIdentity a theirIdentityKey)
        hStoreSession E a r
        return msg
      else M.throw (.untrustedIdentity a)

/-- protocol/session/session.go:62-118 — `processPreKeyV3`. -/
def hProcessPreKeyV3 (E : HEnv) (r : Nat) (msg : PreKeyMsg) : M HWorld (Option UInt32) := do
  let found ← getRecord r fun x => x.hasSessionState msg.version.toUInt32 msg.baseKey.bytes
  if found then return none
  else
    let ourSignedPreKeyPair ← hRest (loadSignedPreKey msg.signedPreKeyID >>= optKeyPair)
    let ourOneTimePreKeyPair ← match msg.preKeyID with
      | none => pure none
      | some id => hRest (loadPreKey id >>= optKeyPair)
    let h ← M.get
    let s ← M.lift (orPanic (initializeBobSession E.C
      { ourIdentityKeyPair := h.rest.identity, ourSignedPreKeyPair := ourSignedPreKeyPair,
        ourOneTimePreKeyPair := ourOneTimePreKeyPair, ourRatchetKeyPair := ourSignedPreKeyPair,
        theirIdentityKey := msg.identityKey, theirBaseKey := msg.baseKey }))
    let p ← allocState s
    changeState p fun s => { s with localRegistrationId := h.rest.regId }
    changeState p fun s => { s with remoteRegistrationId := msg.registrationID }
    changeState p fun s => { s with aliceBaseKey := msg.baseKey.bytes }
    hPromoteState r p
    return msg.preKeyID

/-- protocol/session/session.go:38-60 — `ProcessPreKey`. -/
def hProcessPreKey (E : HEnv) (a : Address) (r : Nat) (msg : PreKeyMsg) : M HWorld (Option UInt32) := do
  let trusted ← hRest (isTrusted E.toEnv a msg.identityKey .receiving)
  if trusted then
    let id ← hProcessPreKeyV3 E r msg
    hRest (storeIdentity a msg.identityKey)
    return id
  else M.throw (.untrustedIdentity a)

/-- `Load`, and `NewRecord(nil)` when there is no record (protocol/session/cipher.go:139-146, protocol/session/session.go:141-147). -/
def hLoadOrNew (E : HEnv) (a : Address) : M HWorld Nat := do
  match ← hLoadSession E a with
  | some r => return r
  | none => allocRecord {}

/-- protocol/session/cipher.go:138-171 — `decryptPreKey`. -/
def hDecryptPreKey (E : HEnv) (a : Address) (msg : PreKeyMsg) : M HWorld Bytes := do
  let r ← hLoadOrNew E a
  let preKeyID ← hProcessPreKey E a r msg
  let plaintext ← hDecryptRecord E.C r msg.message
  hStoreSession E a r
  match preKeyID with
  | some id => hRest (deletePreKey id)
  | none => pure ()
  return plaintext

/-- protocol/session/cipher.go:173-212 — `decryptSignal`. -/
def hDecryptSignal (E : HEnv) (a : Address) (msg : Signal) : M HWorld (Option Bytes) := do
  match ← hLoadSession E a with
  | none => M.throw (.sessionNotFound a)
  | some r =>
    let out ← M.attempt (hDecryptRecord E.C r msg)
    let plaintext := match out with
      | .ok p => some p
      | .error _ => none
    let c ← readRecord r
    match c.current with
    | none => M.throw .mustHaveState
    | some p =>
      let s ← readState p
      match s.remoteIdentityKey with
      | .ok (some theirIdentityKey) =>
        let trusted ← hRest (isTrusted E.toEnv a theirIdentityKey .receiving)
        if trusted then
          hRest (storeIdentity a theirIdentityKey)
          hStoreSession E a r
          return plaintext
        else M.throw (.untrustedIdentity a)
      | .panic => M.panic
      | _ => M.throw .mustHaveIdentity

/-- protocol/session/cipher.go:127-136 — `DecryptMessage`. -/
def hDecryptMessage (E : HEnv) (a : Address) (c : Ciphertext) : M HWorld (Option Bytes) :=
  match c with
  | .preKey m => do
    let p ← hDecryptPreKey E a m
    return some p
  | .signal m => hDecryptSignal E a m
  | _ => M.throw .wrongMessageType

/-- protocol/session/session.go:122-195 — `ProcessPreKeyBundle`. -/
def hProcessPreKeyBundle (E : HEnv) (a : Address) (b : Bundle) : M HWorld Unit := do
  let trusted ← hRest (isTrusted E.toEnv a b.identityKey .sending)
  if trusted then
    let ok ← M.lift (b.identityKey.verifySignature E.C b.signedPreKeySignature [b.signedPreKeyPublic.bytes])
    if ok then
      let r ← hLoadOrNew E a
      let ourBaseKeyPair ← hRest (withRand (generateKeyPair E.C))
      let h ← M.get
      let s ← hRest (withRand (initializeAliceSession E.C
        { ourIdentityKeyPair := h.rest.identity, ourBaseKeyPair := ourBaseKeyPair, theirIdentityKey := b.identityKey,
          theirSignedPreKey := b.signedPreKeyPublic, theirOneTimePreKey := b.preKeyPublic,
          theirRatchetKey := b.signedPreKeyPublic }))
      let p ← allocState s
      changeState p fun s => s.setUnacknowledgedPreKeyMessage b.preKeyID b.signedPreKeyID ourBaseKeyPair.pub
      changeState p fun s => { s with localRegistrationId := h.rest.regId }
      changeState p fun s => { s with remoteRegistrationId := b.registrationID }
      changeState p fun s => { s with aliceBaseKey := ourBaseKeyPair.pub.bytes }
      hRest (storeIdentity a b.identityKey)
      hPromoteState r p
      hStoreSession E a r
    else M.throw .badBundleSignature
  else M.throw .untrustedBundle

end Verif
