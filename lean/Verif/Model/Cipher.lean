import Verif.Model.State
import Verif.Model.Aes

/-!
# Session set-up and the message cipher on states and records
(`protocol/session/session.go`, `protocol/session/cipher.go`, the parts that do not touch a store)

The Go code runs these functions on a private copy of a state (`Clone`, or a freshly parsed archive entry) and drops
the copy when they fail, so they return the new state only on success. The random reader is the state of `M Bytes`.
-/

namespace Verif

/-- protocol/session/state.go:24-28. -/
def discontinuityBytes : Bytes := List.replicate 32 0xFF

/-- protocol/message/ciphertext.go:17-18 — `CiphertextVersion`. -/
def ciphertextVersion : UInt32 := 3

/-- protocol/session/cipher.go:20. -/
def maxJumps : UInt32 := 25000

/-- protocol/ratchet/params.go:11-19 — `AliceParameters`. -/
structure AliceParameters where
  ourIdentityKeyPair : KeyPair
  ourBaseKeyPair : KeyPair
  theirIdentityKey : PubKey
  theirSignedPreKey : PubKey
  theirOneTimePreKey : Option PubKey
  theirRatchetKey : PubKey

/-- protocol/session/session.go:206-264 — `initializeAliceSession`. -/
def initializeAliceSession (C : Crypto) (p : AliceParameters) : M Bytes SState := do
  let sendingRatchetKeyPair ← generateKeyPair C
  M.lift do
    let dh1 ← p.ourIdentityKeyPair.priv.agreement C p.theirSignedPreKey
    let dh2 ← p.ourBaseKeyPair.priv.agreement C p.theirIdentityKey
    let dh3 ← p.ourBaseKeyPair.priv.agreement C p.theirSignedPreKey
    let dh4 ← match p.theirOneTimePreKey with
      | some k => p.ourBaseKeyPair.priv.agreement C k
      | none => .ok []
    let (rootKey, chainKey) ← deriveKeys C (discontinuityBytes ++ dh1 ++ dh2 ++ dh3 ++ dh4)
    let (sendingRoot, sendingChain) ← rootKey.createChain C sendingRatchetKeyPair.priv p.theirRatchetKey
    let s : SState :=
      { sessionVersion := ciphertextVersion, localIdentityPublic := p.ourIdentityKeyPair.pub.bytes,
        remoteIdentityPublic := p.theirIdentityKey.bytes, rootKey := sendingRoot.key }
    return (s.addReceiverChain p.theirRatchetKey chainKey).setSenderChain sendingRatchetKeyPair sendingChain

/-- protocol/session/session.go:197-204 — `InitializeAliceSessionRecord`. -/
def initializeAliceSessionRecord (C : Crypto) (p : AliceParameters) : M Bytes Record := do
  let s ← initializeAliceSession C p
  return { current := some s }

/-- protocol/ratchet/params.go:24-32 — `BobParameters`. The signed and ratchet key pairs may be nil pointers. -/
structure BobParameters where
  ourIdentityKeyPair : KeyPair
  ourSignedPreKeyPair : Option KeyPair
  ourOneTimePreKeyPair : Option KeyPair
  ourRatchetKeyPair : Option KeyPair
  theirIdentityKey : PubKey
  theirBaseKey : PubKey

/-- Method call through a possibly nil pointer: nil dereference panics.
(protocol/session/session.go:278 when line 77 found no signed pre-key.) -/
def deref {α} : Option α → Res α
  | some a => .ok a
  | none => .panic

/-- protocol/session/session.go:275-320 — `initializeBobSession`. The unchecked error of `DeriveKeys` (line 309)
cannot occur (`deriveKeys_ok`). -/
def initializeBobSession (C : Crypto) (p : BobParameters) : Res SState := do
  let signed ← deref p.ourSignedPreKeyPair
  let dh1 ← signed.priv.agreement C p.theirIdentityKey
  let dh2 ← p.ourIdentityKeyPair.priv.agreement C p.theirBaseKey
  let dh3 ← signed.priv.agreement C p.theirBaseKey
  let dh4 ← match p.ourOneTimePreKeyPair with
    | some k => k.priv.agreement C p.theirBaseKey
    | none => .ok []
  let (rootKey, chainKey) ← deriveKeys C (discontinuityBytes ++ dh1 ++ dh2 ++ dh3 ++ dh4)
  let s : SState :=
    { sessionVersion := ciphertextVersion, localIdentityPublic := p.ourIdentityKeyPair.pub.bytes,
      remoteIdentityPublic := p.theirIdentityKey.bytes, rootKey := rootKey.key }
  let ratchet ← deref p.ourRatchetKeyPair
  return s.setSenderChain ratchet chainKey

/-- protocol/session/session.go:266-273 — `InitializeBobSessionRecord`. -/
def initializeBobSessionRecord (C : Crypto) (p : BobParameters) : Res Record := do
  let s ← initializeBobSession C p
  return { current := some s }

/-- What protocol/session/cipher.go:35-105 computes from the current state before any store is written:
the message, the state with the advanced chain key, and the remote identity. -/
def encryptState (C : Crypto) (state : SState) (plaintext : Bytes) : Res (Ciphertext × SState × PubKey) := do
  let chainKey ← state.senderChainKey
  let messageKeys := chainKey.messageKeys C
  let senderEphemeral ← state.senderRatchetKey
  let version := state.version.toUInt8
  let localIdentityKey ← state.localIdentityKey
  match ← state.remoteIdentityKey with
  | none => .err .noRemoteIdentity
  | some theirIdentityKey =>
    let ciphertext ← cbcEncrypt C messageKeys.cipherKey messageKeys.iv plaintext
    let msg ← newSignal C version messageKeys.macKey senderEphemeral state.previousCounter chainKey.index ciphertext
      localIdentityKey theirIdentityKey
    let items ← state.unacknowledgedPreKeyMessages
    let out := match items with
      | some u => Ciphertext.preKey (newPreKey version state.localRegistrationId u.preKeyID u.signedPreKeyID u.baseKey
          localIdentityKey msg)
      | none => Ciphertext.signal msg
    return (out, state.setSenderChainKey (chainKey.next C), theirIdentityKey)

/-- protocol/session/cipher.go:325-376 — `chainKey`: the receiving chain for a ratchet key, ratcheting if it is
new. -/
def chainKeyFor (C : Crypto) (state : SState) (theirEphemeral : PubKey) : M Bytes (ChainKey × SState) := do
  match ← M.lift (state.receiverChainKey theirEphemeral) with
  | some chain => return (chain, state)
  | none =>
    let rootKey ← M.lift state.getRootKey
    let ourEphemeral ← M.lift state.senderRatchetPrivateKey
    let (receiverRootKey, receiverChainKey) ← M.lift (rootKey.createChain C ourEphemeral theirEphemeral)
    let ourNewEphemeral ← generateKeyPair C
    let (senderRootKey, senderChainKey) ← M.lift (receiverRootKey.createChain C ourNewEphemeral.priv theirEphemeral)
    let currentSenderChainKey ← M.lift state.senderChainKey
    let s := { state with rootKey := senderRootKey.key }
    let s := s.addReceiverChain theirEphemeral receiverChainKey
    let currentIdx := currentSenderChainKey.index
    let previousIdx := if currentIdx > 0 then currentIdx - 1 else 0
    let s := { s with previousCounter := previousIdx }
    return (receiverChainKey, s.setSenderChain ourNewEphemeral senderChainKey)

/-- The loop of protocol/session/cipher.go:405-414. `fuel` bounds the iterations; `counter - chainIdx` is enough
because the index grows by one per iteration (`skipLoop_spec`). -/
def skipLoop (C : Crypto) (theirEphemeral : PubKey) (counter : UInt32) : Nat → ChainKey → SState → Res (ChainKey × SState)
  | 0, ck, s => .ok (ck, s)
  | fuel + 1, ck, s =>
    if ck.index < counter then do
      let s' ← s.setMessageKeys theirEphemeral (ck.messageKeys C)
      skipLoop C theirEphemeral counter fuel (ck.next C) s'
    else .ok (ck, s)

/-- protocol/session/cipher.go:378-422 — `messageKeys`. -/
def messageKeysFor (C : Crypto) (state : SState) (theirEphemeral : PubKey) (chainKey : ChainKey) (counter : UInt32) :
    Res (MessageKeys × SState) :=
  if chainKey.index > counter then do
    let (keys, s) ← state.takeMessageKeys theirEphemeral counter
    match keys with
    | some k => return (k, s)
    | none => .err .duplicateMessage
  else do
    let jump := counter - chainKey.index
    if jump > maxJumps then
      let withSelf ← state.sessionWithSelf
      if withSelf then pure () else .err .tooFarInFuture
    let (ck, s) ← skipLoop C theirEphemeral counter (counter.toNat - chainKey.index.toNat) chainKey state
    let s ← s.setReceiverChainKey theirEphemeral ck
    return (ck.messageKeys C, s)

/-- protocol/session/cipher.go:273-323 — `decryptMessageSession`. -/
def decryptMessageSession (C : Crypto) (state : SState) (ciphertext : Signal) : M Bytes (Bytes × SState) := do
  match state.senderChain with
  | none => M.throw .noSession
  | some _ =>
    if ciphertext.version.toUInt32 ≠ state.version then M.throw .unsupportedVersion
    else
      let theirEphemeral := ciphertext.senderRatchetKey
      let (chainKey, s) ← chainKeyFor C state theirEphemeral
      M.lift do
        let (messageKeys, s) ← messageKeysFor C s theirEphemeral chainKey ciphertext.counter
        match ← s.remoteIdentityKey with
        | none => .err .noRemoteIdentity
        | some theirIdentityKey =>
          let localIdentityKey ← s.localIdentityKey
          let valid ← ciphertext.verifyMAC C messageKeys.macKey theirIdentityKey localIdentityKey
          if valid then
            let plaintext ← cbcDecrypt C messageKeys.cipherKey messageKeys.iv ciphertext.ciphertext
            return (plaintext, s.clearUnacknowledgedPreKeyMessage)
          else .err .badMAC

/-- The loop of protocol/session/cipher.go:242-257. The `break` leaves only the `switch`: a later success replaces
an earlier one, and a later duplicate turns the whole call into an error. -/
def tryPrevious (C : Crypto) (ciphertext : Signal) :
    List SState → Nat → Option (Nat × SState × Bytes) → M Bytes (Option (Nat × SState × Bytes))
  | [], _, found => return found
  | s :: ss, i, found => do
    match ← M.attempt (decryptMessageSession C s ciphertext) with
    | .ok (plaintext, s') => tryPrevious C ciphertext ss (i + 1) (some (i, s', plaintext))
    | .error .duplicateMessage => M.throw .duplicateMessage
    | .error _ => tryPrevious C ciphertext ss (i + 1) found

/-- protocol/session/cipher.go:235-270 — the part of `decryptMessage` that tries the archived states. -/
def decryptPrevious (C : Crypto) (record : Record) (ciphertext : Signal) : M Bytes (Bytes × Record) := do
  let previous ← M.lift record.previousStates
  match ← tryPrevious C ciphertext previous 0 none with
  | some (idx, s, plaintext) => return (plaintext, record.promoteOldState idx s)
  | none => M.throw .decryptionFailed

/-- protocol/session/cipher.go:220-271 — `decryptMessage`: returns the plaintext and the updated record. On an error
the record is not modified. -/
def decryptRecord (C : Crypto) (record : Record) (ciphertext : Signal) : M Bytes (Bytes × Record) :=
  match record.current with
  | some current => do
    match ← M.attempt (decryptMessageSession C current ciphertext) with
    | .ok (plaintext, s) => return (plaintext, record.setSessionState s)
    | .error .duplicateMessage => M.throw .duplicateMessage
    | .error _ => decryptPrevious C record ciphertext
  | none => decryptPrevious C record ciphertext

end Verif
