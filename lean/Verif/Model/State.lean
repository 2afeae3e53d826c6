import Verif.Model.Storage
import Verif.Model.Ratchet

/-!
# Session states and records (`protocol/session/state.go`, `protocol/session/record.go`)

A `*State` is a value of `SState`; a mutating method returns the new value.
-/

namespace Verif

/-- protocol/session/state.go:18. -/
def maxReceiverChains : Nat := 5
/-- protocol/session/state.go:19. -/
def maxArchivedStates : Nat := 40
/-- protocol/session/state.go:21. -/
def maxMessageKeys : Nat := 2000

namespace SState

/-- protocol/session/state.go:54-61 — `Version`. -/
def version (s : SState) : UInt32 := if s.sessionVersion = 0 then 2 else s.sessionVersion

/-- protocol/session/state.go:63-75 — `RemoteIdentityKey`; `none` is `exists == false`. -/
def remoteIdentityKey (s : SState) : Res (Option PubKey) :=
  if s.remoteIdentityPublic.length = 0 then .ok none
  else do
    let k ← newIdentityKey s.remoteIdentityPublic
    return some k

/-- protocol/session/state.go:77-79 — `LocalIdentityKey`. -/
def localIdentityKey (s : SState) : Res PubKey := newIdentityKey s.localIdentityPublic

/-- protocol/session/state.go:81-96 — `SessionWithSelf`. -/
def sessionWithSelf (s : SState) : Res Bool := do
  match ← s.remoteIdentityKey with
  | some remote =>
    let loc ← s.localIdentityKey
    return remote.equal loc
  | none => return false

/-- protocol/session/state.go:110-112 — `RootKey`. -/
def getRootKey (s : SState) : Res RootKey := newRootKey s.rootKey

/-- protocol/session/state.go:114-126 — `SenderRatchetPrivateKey`. -/
def senderRatchetPrivateKey (s : SState) : Res PrivKey :=
  match s.senderChain with
  | none => .err .missingSenderChain
  | some c => newPrivateKey c.senderRatchetKeyPrivate

/-- protocol/session/state.go:128-140 — `SenderRatchetKey`. -/
def senderRatchetKey (s : SState) : Res PubKey :=
  match s.senderChain with
  | none => .err .missingSenderChain
  | some c => newPublicKey c.senderRatchetKey

/-- The loop of protocol/session/state.go:144-148: position and value of the first chain with this key. -/
def findChain (key : Bytes) : List PBChain → Nat → Option (Nat × PBChain)
  | [], _ => none
  | c :: cs, i => if c.senderRatchetKey = key then some (i, c) else findChain key cs (i + 1)

/-- protocol/session/state.go:142-151 — `ReceiverChain`; `none` is index -1. -/
def receiverChain (s : SState) (sender : PubKey) : Option (Nat × PBChain) :=
  findChain sender.bytes s.receiverChains 0

/-- protocol/session/state.go:153-167 — `SetReceiverChainKey`. -/
def setReceiverChainKey (s : SState) (sender : PubKey) (chainKey : ChainKey) : Res SState :=
  match s.receiverChain sender with
  | none => .err .missingReceiverChain
  | some (idx, chain) =>
    .ok { s with receiverChains :=
      s.receiverChains.set idx { chain with chainKey := some { index := chainKey.index, key := chainKey.key } } }

/-- protocol/session/state.go:169-181 — `ReceiverChainKey`; `none` is `exists == false`. A missing `ChainKey`
message reads as an empty key with index 0. -/
def receiverChainKey (s : SState) (sender : PubKey) : Res (Option ChainKey) :=
  match s.receiverChain sender with
  | none => .ok none
  | some (_, chain) => do
    let ck := chain.chainKey.getD {}
    let k ← newChainKey ck.key ck.index
    return some k

/-- protocol/session/state.go:183-197 — `AddReceiverChain`. -/
def addReceiverChain (s : SState) (sender : PubKey) (chainKey : ChainKey) : SState :=
  let chains := s.receiverChains ++
    [{ senderRatchetKey := sender.bytes, chainKey := some { index := chainKey.index, key := chainKey.key } }]
  if chains.length > maxReceiverChains then { s with receiverChains := chains.drop 1 }
  else { s with receiverChains := chains }

/-- protocol/session/state.go:199-208 — `SetSenderChain`. -/
def setSenderChain (s : SState) (sender : KeyPair) (nextChainKey : ChainKey) : SState :=
  let chain : PBChain :=
    { senderRatchetKey := sender.pub.bytes, senderRatchetKeyPrivate := sender.priv.bytes,
      chainKey := some { index := nextChainKey.index, key := nextChainKey.key } }
  { s with senderChain := some chain }

/-- protocol/session/state.go:210-222 — `SenderChainKey`. -/
def senderChainKey (s : SState) : Res ChainKey :=
  match s.senderChain with
  | none => .err .missingSenderChain
  | some c =>
    match c.chainKey with
    | none => .err .missingSenderChainKey
    | some ck => newChainKey ck.key ck.index

/-- protocol/session/state.go:224-239 — `SetSenderChainKey`. -/
def setSenderChainKey (s : SState) (next : ChainKey) : SState :=
  match s.senderChain with
  | some c => { s with senderChain := some { c with chainKey := some { index := next.index, key := next.key } } }
  | none => { s with senderChain := some { chainKey := some { index := next.index, key := next.key } } }

/-- protocol/session/state.go:241-262 — `SetMessageKeys`. -/
def setMessageKeys (s : SState) (sender : PubKey) (mk : MessageKeys) : Res SState :=
  match s.receiverChain sender with
  | none => .err .missingReceiverChain
  | some (idx, chain) =>
    let keys := chain.messageKeys ++
      [{ index := mk.counter, cipherKey := mk.cipherKey, macKey := mk.macKey, iv := mk.iv }]
    let keys := if keys.length > maxMessageKeys then keys.drop 1 else keys
    .ok { s with receiverChains := s.receiverChains.set idx { chain with messageKeys := keys } }

/-- protocol/session/state.go:264-288 — `MessageKeys`: take out every stored key with this counter; the last one
(and its error) is returned. On an error Go has mutated the state too; every caller then drops that state. -/
def takeMessageKeys (s : SState) (sender : PubKey) (counter : UInt32) : Res (Option MessageKeys × SState) :=
  match s.receiverChain sender with
  | none => .ok (none, s)
  | some (idx, chain) =>
    let s' := { s with receiverChains :=
      s.receiverChains.set idx { chain with messageKeys := chain.messageKeys.filter fun k => k.index ≠ counter } }
    match (chain.messageKeys.filter fun k => k.index = counter).getLast? with
    | none => .ok (none, s')
    | some k => do
      let mk ← newMessageKeys k.cipherKey k.macKey k.iv counter
      return (some mk, s')

/-- protocol/session/state.go:290-300 — `SetUnacknowledgedPreKeyMessage`. -/
def setUnacknowledgedPreKeyMessage (s : SState) (preKeyID : Option UInt32) (signedPreKeyID : UInt32)
    (baseKey : PubKey) : SState :=
  { s with pendingPreKey := some { signedPreKeyId := Int32.ofUInt32 signedPreKeyID, baseKey := baseKey.bytes, preKeyId := preKeyID.getD 0 } }

/-- protocol/session/state.go:302-304 — `ClearUnacknowledgedPreKeyMessage`. -/
def clearUnacknowledgedPreKeyMessage (s : SState) : SState := { s with pendingPreKey := none }

end SState

/-- protocol/session/state.go:306-310, with the getters at protocol/session/state.go:312-322. -/
structure PendingItems where
  preKeyID : Option UInt32
  signedPreKeyID : UInt32
  baseKey : PubKey
deriving DecidableEq

/-- protocol/session/state.go:324-345 — `UnacknowledgedPreKeyMessages`; a stored id 0 reads as "no pre-key". -/
def SState.unacknowledgedPreKeyMessages (s : SState) : Res (Option PendingItems) :=
  match s.pendingPreKey with
  | none => .ok none
  | some p => do
    let key ← newPublicKey p.baseKey
    return some { preKeyID := if p.preKeyId ≠ 0 then some p.preKeyId else none,
                  signedPreKeyID := p.signedPreKeyId.toUInt32, baseKey := key }

/-- protocol/session/record.go:17-20 — `Record`. `Version` (protocol/session/record.go:47-54) reads the version of `current`. -/
structure Record where
  current : Option SState := none
  previous : List Bytes := []
deriving DecidableEq

namespace Record

/-- protocol/session/record.go:31-41 — `NewRecordBytes`. -/
def ofBytes (bytes : Bytes) : Res Record := do
  let s ← SState.unmarshal bytes
  return { current := some s }

/-- The loop of protocol/session/record.go:58-65. -/
def parseAll : List Bytes → Res (List SState)
  | [] => .ok []
  | b :: bs => do
    let s ← SState.unmarshal b
    let ss ← parseAll bs
    return s :: ss

/-- protocol/session/record.go:56-67 — `PreviousStates`. -/
def previousStates (r : Record) : Res (List SState) := parseAll r.previous

/-- protocol/session/record.go:73-91 — `HasSessionState`. `subtle.ConstantTimeCompare` is 1 exactly for equal
byte strings. -/
def hasSessionState (r : Record) (version : UInt32) (aliceBaseKey : Bytes) : Res Bool :=
  let inCurrent := match r.current with
    | some s => version == s.version && aliceBaseKey == s.aliceBaseKey
    | none => false
  if inCurrent then .ok true
  else do
    let prev ← r.previousStates
    return prev.any fun s => version == s.version && aliceBaseKey == s.aliceBaseKey

/-- protocol/session/record.go:107-118 — `ArchiveCurrentState`. -/
def archiveCurrentState (r : Record) : Record :=
  match r.current with
  | none => r
  | some s =>
    let prev := if r.previous.length ≥ maxArchivedStates then r.previous.drop 1 else r.previous
    { r with previous := prev ++ [s.marshal] }

/-- protocol/session/record.go:102-105 — `PromoteState`. -/
def promoteState (r : Record) (s : SState) : Record := { r.archiveCurrentState with current := some s }

/-- protocol/session/record.go:93-100 — `PromoteOldState`. -/
def promoteOldState (r : Record) (idx : Nat) (s : SState) : Record :=
  if idx ≥ r.previous.length then r
  else ({ r with previous := r.previous.take idx ++ r.previous.drop (idx + 1) } : Record).promoteState s

/-- protocol/session/record.go:69-71 — `SetSessionState`. -/
def setSessionState (r : Record) (s : SState) : Record := { r with current := some s }

end Record

end Verif
