import Verif.Model.World

/-!
# Group sessions (`protocol/session/group_*.go`)
-/

namespace Verif

/-- protocol/session/group_state.go:10-12, protocol/proto/v1/storage.proto (`SenderKeyStateStructure`).
`NewGroupState` always sets the two sub-messages and nothing in the library parses a stored one, so they are not
optional here. -/
structure GState where
  messageVersion : UInt32
  chainId : UInt32
  chainKey : SKChainKey
  signingPublic : Bytes
  signingPrivate : Bytes
  messageKeys : List SKChainKey := []
deriving DecidableEq

/-- protocol/session/group_state.go:23-46 — `NewGroupState`; a nil private key is stored as no bytes. -/
def newGroupState (messageVersion : UInt8) (chainID iteration : UInt32) (chainKey : Bytes) (signatureKey : PubKey)
    (signaturePrivateKey : Option PrivKey) : GState :=
  { messageVersion := messageVersion.toUInt32, chainId := chainID,
    chainKey := { seed := chainKey, iteration := iteration }, signingPublic := signatureKey.bytes,
    signingPrivate := match signaturePrivateKey with
      | some k => k.bytes
      | none => [] }

namespace GState

/-- protocol/session/group_state.go:48-55 — `Version`. -/
def version (s : GState) : UInt32 := if s.messageVersion = 0 then 3 else s.messageVersion

/-- protocol/session/group_state.go:66-71 — `SetSenderChainKey`. -/
def setSenderChainKey (s : GState) (c : SKChainKey) : GState := { s with chainKey := c }

/-- protocol/session/group_state.go:73-75 — `PrivateSigningKey`. -/
def privateSigningKey (s : GState) : Res PrivKey := newPrivateKey s.signingPrivate

/-- protocol/session/group_state.go:77-79 — `PublicSigningKey`. -/
def publicSigningKey (s : GState) : Res PubKey := newPublicKey s.signingPublic

/-- protocol/session/group_state.go:81-91 — `AddMessageKey`. A stored message key is its iteration and seed. -/
def addMessageKey (s : GState) (k : SKMessageKey) : GState :=
  let keys := s.messageKeys ++ [{ seed := k.seed, iteration := k.iteration }]
  { s with messageKeys := if keys.length > maxMessageKeys then keys.drop 1 else keys }

/-- protocol/session/group_state.go:93-117 — `RemoveMessageKeys`: takes the first stored key with this iteration;
`none` is `ok == false`. The derivation cannot fail. -/
def removeMessageKeys (C : Crypto) (s : GState) (iteration : UInt32) : Option (SKMessageKey × GState) :=
  match s.messageKeys.find? fun k => k.iteration = iteration with
  | none => none
  | some k =>
    some (deriveSKMessageKey C k.seed k.iteration,
      { s with messageKeys := s.messageKeys.eraseP fun k => k.iteration = iteration })

end GState

/-- protocol/session/group_record.go:11. -/
def maxSenderKeyStates : Nat := 5

/-- protocol/session/group_record.go:14-16 — `GroupRecord`. -/
abbrev GRecord := List GState

namespace GRecord

/-- protocol/session/group_record.go:24-30 — `State`: the first state. -/
def state (g : GRecord) : Res GState :=
  match g with
  | [] => .err .emptySenderKeyState
  | s :: _ => .ok s

/-- protocol/session/group_record.go:32-40 — `StateForChainID`. -/
def stateForChainID (g : GRecord) (chainID : UInt32) : Option GState := g.find? fun s => chainID = s.chainId

/-- The state returned by `StateForChainID` has been mutated through its pointer.
(protocol/session/group_record.go:32-40.) -/
def setStateForChainID (g : GRecord) (chainID : UInt32) (s' : GState) : GRecord :=
  match g with
  | [] => []
  | s :: g => if chainID = s.chainId then s' :: g else s :: setStateForChainID g chainID s'

/-- The test of protocol/session/group_record.go:71-75. -/
def isState (chainID : UInt32) (signatureKey : PubKey) (s : GState) : Bool :=
  match s.publicSigningKey with
  | .ok k => s.chainId == chainID && signatureKey.equal k
  | _ => false

/-- protocol/session/group_record.go:68-89 — `RemoveState`. -/
def removeState (g : GRecord) (chainID : UInt32) (signatureKey : PubKey) : Option GState × GRecord :=
  (g.find? (isState chainID signatureKey), g.eraseP (isState chainID signatureKey))

/-- protocol/session/group_record.go:91-105 — `RemoveStates` (the count is only logged). -/
def removeStates (g : GRecord) (chainID : UInt32) : GRecord := g.filter fun s => s.chainId ≠ chainID

/-- protocol/session/group_record.go:42-66 — `AddState`. -/
def addState (g : GRecord) (s : GState) : Res GRecord := do
  let signingKey ← s.publicSigningKey
  let (existing, g) := removeState g s.chainId signingKey
  let g := removeStates g s.chainId
  let existing := existing.getD s
  let g := if g.length ≥ maxSenderKeyStates then g.drop 1 else g
  return g ++ [existing]

end GRecord

/-- The loop of protocol/session/group_cipher.go:148-155; `fuel` as in `skipLoop`. -/
def groupSkipLoop (C : Crypto) (iteration : UInt32) : Nat → SKChainKey → GState → SKChainKey × GState
  | 0, ck, s => (ck, s)
  | fuel + 1, ck, s =>
    if ck.iteration < iteration then
      groupSkipLoop C iteration fuel (ck.next C) (s.addMessageKey (ck.messageKey C))
    else (ck, s)

/-- protocol/session/group_cipher.go:125-165 — `messageKey`. Every error is returned before the state is mutated. -/
def groupMessageKey (C : Crypto) (s : GState) (iteration : UInt32) : Res (SKMessageKey × GState) :=
  let chainKey := s.chainKey
  if chainKey.iteration > iteration then
    match s.removeMessageKeys C iteration with
    | none => .err .duplicateMessage
    | some out => .ok out
  else if iteration - chainKey.iteration > maxJumps then .err .tooFarInFuture
  else
    let (ck, s) := groupSkipLoop C iteration (iteration.toNat - chainKey.iteration.toNat) chainKey s
    .ok (ck.messageKey C, s.setSenderChainKey (ck.next C))

/-- Store, random readers and pending store faults of one user.
(protocol/session/group_session.go:19-29, protocol/session/store_inmem.go:34-63.) -/
structure GWorld where
  /-- protocol/session/store.go:16-19, protocol/session/store_inmem.go:34-63 -/
  records : Address × DistId → Option GRecord
  /-- the `io.Reader` argument -/
  rand : Bytes
  /-- `crypto/rand.Reader`, used for chain ids -/
  sysRand : Bytes
  faults : List Fault

/-- One call on a user-supplied group store. (protocol/session/store.go:16-19.) -/
def gStoreCall {α} (act : GWorld → α × GWorld) : M GWorld α := fun w =>
  match w.faults with
  | [] => let (a, w') := act w; (.ok a, w')
  | .none :: fs => let (a, w') := act { w with faults := fs }; (.ok a, w')
  | .before :: fs => (.err .store, { w with faults := fs })
  | .after :: fs => (.err .store, (act { w with faults := fs }).2)

/-- `GroupStore.Load` (protocol/session/store_inmem.go:49-55). -/
def gLoad (k : Address × DistId) : M GWorld (Option GRecord) := gStoreCall fun w => (w.records k, w)
/-- `GroupStore.Store` (protocol/session/store_inmem.go:57-63). -/
def gStore (k : Address × DistId) (r : GRecord) : M GWorld Unit :=
  gStoreCall fun w => ((), { w with records := upd w.records k (some r) })

/-- the `random` argument at protocol/session/group_cipher.go:19 and protocol/session/group_session.go:61. -/
def gWithRand {α} (x : M Bytes α) : M GWorld α := fun w =>
  let (r, rand') := x w.rand
  (r, { w with rand := rand' })

/-- protocol/session/group_session.go:128-136 — `crypto/rand.Reader`. -/
def gWithSysRand {α} (x : M Bytes α) : M GWorld α := fun w =>
  let (r, rand') := x w.sysRand
  (r, { w with sysRand := rand' })

/-- A record loaded from a sharing store has been mutated in place.
(protocol/session/store_inmem.go:49-63 returns the stored pointer.) -/
def gTouch (aliased : Bool) (k : Address × DistId) (loaded : Bool) (r : GRecord) : M GWorld Unit := fun w =>
  if aliased && loaded then (.ok (), { w with records := upd w.records k (some r) }) else (.ok (), w)

/-- protocol/session/group_cipher.go:19-69 — `GroupSession.EncryptMessage`. -/
def groupEncrypt (C : Crypto) (aliased : Bool) (sender : Address) (dist : DistId) (plaintext : Bytes) :
    M GWorld SenderKeyMsg := do
  match ← gLoad (sender, dist) with
  | none => M.throw .noSenderKeyState
  | some record =>
    let state ← M.lift (GRecord.state record)
    let messageKey := state.chainKey.messageKey C
    let ciphertext ← M.lift (cbcEncrypt C messageKey.cipherKey messageKey.iv plaintext)
    let signingKey ← M.lift state.privateSigningKey
    let msg ← gWithRand (newSenderKey C state.version.toUInt8 dist state.chainId messageKey.iteration ciphertext signingKey)
    let record' := state.setSenderChainKey (state.chainKey.next C) :: record.drop 1
    gTouch aliased (sender, dist) true record'
    gStore (sender, dist) record'
    return msg

/-- protocol/session/group_cipher.go:72-123 — `GroupSession.DecryptMessage`. -/
def groupDecrypt (C : Crypto) (aliased : Bool) (sender : Address) (msg : SenderKeyMsg) : M GWorld Bytes := do
  match ← gLoad (sender, msg.distID) with
  | none => M.throw .noSenderKeyState
  | some record =>
    match GRecord.stateForChainID record msg.chainID with
    | none => M.throw .noSenderKeyState
    | some state =>
      if msg.version.toUInt32 ≠ state.version then M.throw .unsupportedVersion
      else
        let signingKey ← M.lift state.publicSigningKey
        let valid ← M.lift (msg.verifySignature C signingKey)
        if valid then
          let (messageKey, state') ← M.lift (groupMessageKey C state msg.iteration)
          let record' := GRecord.setStateForChainID record msg.chainID state'
          gTouch aliased (sender, msg.distID) true record'
          let plaintext ← M.lift (cbcDecrypt C messageKey.cipherKey messageKey.iv msg.ciphertext)
          gStore (sender, msg.distID) record'
          return plaintext
        else M.throw .badSignature

/-- protocol/session/group_session.go:33-58 — `ProcessSenderKeyDistribution`. -/
def processDistribution (aliased : Bool) (sender : Address) (msg : DistributionMsg) : M GWorld Unit := do
  let stored ← gLoad (sender, msg.distID)
  let state := newGroupState msg.version msg.chainID msg.iteration msg.chainKey msg.signingKey none
  let record ← M.lift (GRecord.addState (stored.getD []) state)
  gTouch aliased (sender, msg.distID) stored.isSome record
  gStore (sender, msg.distID) record

/-- protocol/session/group_session.go:128-136 — `randomUint32`. -/
def randomUint32 : M Bytes UInt32 := do
  let b ← readFull 4
  return UInt32.ofNat (leNat b)

/-- protocol/session/group_session.go:66-104 — creation of a sender key. -/
def createSenderKey (C : Crypto) (sender : Address) (dist : DistId) : M GWorld GRecord := do
  let chainID ← gWithSysRand randomUint32
  let chainID := chainID >>> 1
  let senderKey ← gWithRand (readFull 32)
  let signingKey ← gWithRand (generateKeyPair C)
  let record ← M.lift (GRecord.addState [] (newGroupState 3 chainID 0 senderKey signingKey.pub (some signingKey.priv)))
  gStore (sender, dist) record
  return record

/-- protocol/session/group_session.go:61-126 — `NewSenderKeyDistribution`. -/
def newSenderKeyDistribution (C : Crypto) (sender : Address) (dist : DistId) : M GWorld DistributionMsg := do
  let stored ← gLoad (sender, dist)
  let record ← match stored with
    | some r => pure r
    | none => createSenderKey C sender dist
  let state ← M.lift (GRecord.state record)
  let signingKey ← M.lift state.publicSigningKey
  return newDistribution state.version.toUInt8 dist state.chainId state.chainKey.iteration state.chainKey.seed signingKey

end Verif
