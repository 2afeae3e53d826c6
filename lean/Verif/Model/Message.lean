import Verif.Model.Wire
import Verif.Model.Keys
import Verif.Model.Uuid

/-!
# Protocol messages (`protocol/message`)

The generated protobuf structures of `protocol/proto/v1/wire.proto` (proto2: every field is optional, `none` is
an absent field) and the four message types built on them.
-/

namespace Verif

open Wire (Field Val encFields parseFields)

/-- Field that is present. (proto2-style `optional` of protocol/proto/v1/wire.proto:12-40.) -/
def optVarint (num : Nat) : Option UInt32 → List Field
  | some v => [⟨num, .varint v.toNat⟩]
  | none => []
/-- Field that is present. (proto2-style `optional` of protocol/proto/v1/wire.proto:12-40.) -/
def optLen (num : Nat) : Option Bytes → List Field
  | some v => [⟨num, .len v⟩]
  | none => []

/-- protocol/proto/v1/wire.proto:12-17. -/
structure PBSignal where
  ratchetKey : Option Bytes := none
  counter : Option UInt32 := none
  previousCounter : Option UInt32 := none
  ciphertext : Option Bytes := none
deriving DecidableEq

/-- proto.Marshal of a `SignalMessage`: fields in ascending field number. (protocol/message/signal.go:43.) -/
def PBSignal.marshal (m : PBSignal) : Bytes :=
  encFields (optLen 1 m.ratchetKey ++ optVarint 2 m.counter ++ optVarint 3 m.previousCounter ++ optLen 4 m.ciphertext)

/-- proto.Unmarshal: one field. A known number with a foreign wire type is skipped like an unknown field, a
`uint32` is the varint truncated to 32 bits, later occurrences overwrite earlier ones.
(protocol/message/signal.go:86.) -/
def PBSignal.field (m : PBSignal) (f : Field) : PBSignal :=
  match f.num, f.val with
  | 1, .len b => { m with ratchetKey := some b }
  | 2, .varint v => { m with counter := some (UInt32.ofNat v) }
  | 3, .varint v => { m with previousCounter := some (UInt32.ofNat v) }
  | 4, .len b => { m with ciphertext := some b }
  | _, _ => m

/-- proto.Unmarshal of a `SignalMessage`. (protocol/message/signal.go:85-89.) -/
def PBSignal.unmarshal (bs : Bytes) : Res PBSignal :=
  Res.ofOption .proto ((parseFields bs).map fun fs => fs.foldl PBSignal.field {})

/-- protocol/proto/v1/wire.proto:19-26. -/
structure PBPreKey where
  preKeyId : Option UInt32 := none
  baseKey : Option Bytes := none
  identityKey : Option Bytes := none
  message : Option Bytes := none
  registrationId : Option UInt32 := none
  signedPreKeyId : Option UInt32 := none
deriving DecidableEq

/-- proto.Marshal of a `PreKeySignalMessage`. (protocol/message/prekey.go:43.) -/
def PBPreKey.marshal (m : PBPreKey) : Bytes :=
  encFields (optVarint 1 m.preKeyId ++ optLen 2 m.baseKey ++ optLen 3 m.identityKey ++ optLen 4 m.message ++
    optVarint 5 m.registrationId ++ optVarint 6 m.signedPreKeyId)

/-- proto.Unmarshal of one field of a `PreKeySignalMessage`. (protocol/message/prekey.go:84.) -/
def PBPreKey.field (m : PBPreKey) (f : Field) : PBPreKey :=
  match f.num, f.val with
  | 1, .varint v => { m with preKeyId := some (UInt32.ofNat v) }
  | 2, .len b => { m with baseKey := some b }
  | 3, .len b => { m with identityKey := some b }
  | 4, .len b => { m with message := some b }
  | 5, .varint v => { m with registrationId := some (UInt32.ofNat v) }
  | 6, .varint v => { m with signedPreKeyId := some (UInt32.ofNat v) }
  | _, _ => m

/-- proto.Unmarshal of a `PreKeySignalMessage`. (protocol/message/prekey.go:83-87.) -/
def PBPreKey.unmarshal (bs : Bytes) : Res PBPreKey :=
  Res.ofOption .proto ((parseFields bs).map fun fs => fs.foldl PBPreKey.field {})

/-- protocol/proto/v1/wire.proto:28-33. -/
structure PBSenderKey where
  distributionUuid : Option Bytes := none
  chainId : Option UInt32 := none
  iteration : Option UInt32 := none
  ciphertext : Option Bytes := none
deriving DecidableEq

/-- proto.Marshal of a `SenderKeyMessage`. (protocol/message/senderkey.go:41.) -/
def PBSenderKey.marshal (m : PBSenderKey) : Bytes :=
  encFields (optLen 1 m.distributionUuid ++ optVarint 2 m.chainId ++ optVarint 3 m.iteration ++ optLen 4 m.ciphertext)

/-- proto.Unmarshal of one field of a `SenderKeyMessage`. (protocol/message/senderkey.go:84.) -/
def PBSenderKey.field (m : PBSenderKey) (f : Field) : PBSenderKey :=
  match f.num, f.val with
  | 1, .len b => { m with distributionUuid := some b }
  | 2, .varint v => { m with chainId := some (UInt32.ofNat v) }
  | 3, .varint v => { m with iteration := some (UInt32.ofNat v) }
  | 4, .len b => { m with ciphertext := some b }
  | _, _ => m

/-- proto.Unmarshal of a `SenderKeyMessage`. (protocol/message/senderkey.go:83-87.) -/
def PBSenderKey.unmarshal (bs : Bytes) : Res PBSenderKey :=
  Res.ofOption .proto ((parseFields bs).map fun fs => fs.foldl PBSenderKey.field {})

/-- protocol/proto/v1/wire.proto:35-41. -/
structure PBDistribution where
  distributionUuid : Option Bytes := none
  chainId : Option UInt32 := none
  iteration : Option UInt32 := none
  chainKey : Option Bytes := none
  signingKey : Option Bytes := none
deriving DecidableEq

/-- proto.Marshal of a `SenderKeyDistributionMessage`. (protocol/message/senderkey.go:163.) -/
def PBDistribution.marshal (m : PBDistribution) : Bytes :=
  encFields (optLen 1 m.distributionUuid ++ optVarint 2 m.chainId ++ optVarint 3 m.iteration ++ optLen 4 m.chainKey ++
    optLen 5 m.signingKey)

/-- proto.Unmarshal of one field of a `SenderKeyDistributionMessage`. (protocol/message/senderkey.go:203.) -/
def PBDistribution.field (m : PBDistribution) (f : Field) : PBDistribution :=
  match f.num, f.val with
  | 1, .len b => { m with distributionUuid := some b }
  | 2, .varint v => { m with chainId := some (UInt32.ofNat v) }
  | 3, .varint v => { m with iteration := some (UInt32.ofNat v) }
  | 4, .len b => { m with chainKey := some b }
  | 5, .len b => { m with signingKey := some b }
  | _, _ => m

/-- proto.Unmarshal of a `SenderKeyDistributionMessage`. (protocol/message/senderkey.go:202-206.) -/
def PBDistribution.unmarshal (bs : Bytes) : Res PBDistribution :=
  Res.ofOption .proto ((parseFields bs).map fun fs => fs.foldl PBDistribution.field {})

/-- protocol/message/signal.go:53 and prekey.go:55, senderkey.go:51,174 — the version byte; both version
constants are 3 (protocol/message/ciphertext.go:16-21). -/
def versionPrefix (version : UInt8) : UInt8 := ((version &&& 0xF) <<< 4) ||| 3

/-- protocol/message/mac.go:18-30 — `mac`: the first 8 bytes of HMAC-SHA256 over both identities and the message. -/
def messageMac (C : Crypto) (macKey : Bytes) (sender receiver : PubKey) (message : Bytes) : Res Bytes :=
  if macKey.length ≠ 32 then .err (.invalidKeyLength 32 macKey.length)
  else .ok ((C.hmac macKey (sender.bytes ++ receiver.bytes ++ message)).take 8)

/-- protocol/message/signal.go:21-28 — a Signal message. -/
structure Signal where
  version : UInt8
  senderRatchetKey : PubKey
  previousCounter : UInt32
  counter : UInt32
  ciphertext : Bytes
  serialized : Bytes
deriving DecidableEq

/-- protocol/message/signal.go:42-73 — `NewSignal`. A `nil` ciphertext slice is not distinguished from an empty
one (the session cipher never passes either). -/
def newSignal (C : Crypto) (version : UInt8) (macKey : Bytes) (senderRatchetKey : PubKey)
    (previousCounter counter : UInt32) (ciphertext : Bytes) (senderIdentity receiverIdentity : PubKey) : Res Signal := do
  let message := PBSignal.marshal
    { ratchetKey := some senderRatchetKey.bytes, counter := some counter,
      previousCounter := some previousCounter, ciphertext := some ciphertext }
  let body := versionPrefix version :: message
  let mac ← messageMac C macKey senderIdentity receiverIdentity body
  return { version := version, senderRatchetKey := senderRatchetKey, previousCounter := previousCounter,
           counter := counter, ciphertext := ciphertext, serialized := body ++ mac }

/-- protocol/message/signal.go:75-104 — `NewSignalFromBytes`. The slice expression `bytes[1:len(bytes)-8]` panics
when `len(bytes)-8 < 1`. -/
def newSignalFromBytes (bytes : Bytes) : Res Signal :=
  match bytes with
  | [] => .err .messageTooShort
  | b :: rest =>
    let version := b >>> 4
    if version ≠ 3 then .err .unsupportedVersion
    else if bytes.length < 9 then .panic
    else do
      let message ← PBSignal.unmarshal (rest.take (rest.length - 8))
      let senderRatchetKey ← newPublicKey (message.ratchetKey.getD [])
      return { version := version, senderRatchetKey := senderRatchetKey,
               previousCounter := message.previousCounter.getD 0, counter := message.counter.getD 0,
               ciphertext := message.ciphertext.getD [], serialized := bytes }

/-- protocol/message/signal.go:134-146 — `VerifyMAC`. Slicing a serialisation shorter than 8 bytes would panic. -/
def Signal.verifyMAC (C : Crypto) (s : Signal) (macKey : Bytes) (sender receiver : PubKey) : Res Bool :=
  if s.serialized.length < 8 then .panic
  else do
    let ours ← messageMac C macKey sender receiver (s.serialized.take (s.serialized.length - 8))
    let theirs := s.serialized.drop (s.serialized.length - 8)
    return ours == theirs

/-- protocol/message/prekey.go:20-29 — a pre-key message. -/
structure PreKeyMsg where
  version : UInt8
  registrationID : UInt32
  preKeyID : Option UInt32
  signedPreKeyID : UInt32
  baseKey : PubKey
  identityKey : PubKey
  message : Signal
  serialized : Bytes
deriving DecidableEq

/-- protocol/message/prekey.go:42-71 — `NewPreKey`; it cannot fail. -/
def newPreKey (version : UInt8) (registrationID : UInt32) (preKeyID : Option UInt32) (signedPreKeyID : UInt32)
    (baseKey identityKey : PubKey) (message : Signal) : PreKeyMsg :=
  let body := PBPreKey.marshal
    { registrationId := some registrationID, preKeyId := preKeyID, signedPreKeyId := some signedPreKeyID,
      baseKey := some baseKey.bytes, identityKey := some identityKey.bytes, message := some message.serialized }
  { version := version, registrationID := registrationID, preKeyID := preKeyID, signedPreKeyID := signedPreKeyID,
    baseKey := baseKey, identityKey := identityKey, message := message,
    serialized := versionPrefix version :: body }

/-- protocol/message/prekey.go:73-117 — `NewPreKeyFromBytes`. -/
def newPreKeyFromBytes (bytes : Bytes) : Res PreKeyMsg :=
  match bytes with
  | [] => .err .messageTooShort
  | b :: rest =>
    let version := b >>> 4
    if version ≠ 3 then .err .unsupportedVersion
    else do
      let message ← PBPreKey.unmarshal rest
      let baseKey ← newPublicKey (message.baseKey.getD [])
      let identityKey ← newIdentityKey (message.identityKey.getD [])
      let msg ← newSignalFromBytes (message.message.getD [])
      return { version := version, registrationID := message.registrationId.getD 0, preKeyID := message.preKeyId,
               signedPreKeyID := message.signedPreKeyId.getD 0, baseKey := baseKey, identityKey := identityKey,
               message := msg, serialized := bytes }

/-- protocol/message/senderkey.go:21-28 — a sender-key (group) message. -/
structure SenderKeyMsg where
  version : UInt8
  distID : DistId
  chainID : UInt32
  iteration : UInt32
  ciphertext : Bytes
  serialized : Bytes
deriving DecidableEq

/-- protocol/message/senderkey.go:40-71 — `NewSenderKey`. The returned object always has version 3
(`SenderKeyVersion`), whatever the configured version. -/
def newSenderKey (C : Crypto) (version : UInt8) (distID : DistId) (chainID iteration : UInt32) (ciphertext : Bytes)
    (signatureKey : PrivKey) : M Bytes SenderKeyMsg := do
  let message := PBSenderKey.marshal
    { distributionUuid := some distID.string, chainId := some chainID, iteration := some iteration,
      ciphertext := some ciphertext }
  let body := versionPrefix version :: message
  let signature ← signatureKey.sign C [body]
  return { version := 3, distID := distID, chainID := chainID, iteration := iteration, ciphertext := ciphertext,
           serialized := body ++ signature }

/-- protocol/message/senderkey.go:73-102 — `NewSenderKeyFromBytes`. The slice expression `bytes[1:len(bytes)-64]` would panic
if `len(bytes)-64 < 1`. -/
def newSenderKeyFromBytes (bytes : Bytes) : Res SenderKeyMsg :=
  if bytes.length < 1 + 64 then .err .messageTooShort
  else match bytes with
  | [] => .panic
  | b :: rest =>
    let version := b >>> 4
    if version ≠ 3 then .err .unsupportedVersion
    else if rest.length < 64 then .panic
    else do
      let message ← PBSenderKey.unmarshal (rest.take (rest.length - 64))
      let distID ← parseDistId (message.distributionUuid.getD [])
      return { version := version, distID := distID, chainID := message.chainId.getD 0,
               iteration := message.iteration.getD 0, ciphertext := message.ciphertext.getD [], serialized := bytes }

/-- protocol/message/senderkey.go:134-137 — `VerifySignature`: slicing panics below 64 bytes. -/
def SenderKeyMsg.verifySignature (C : Crypto) (s : SenderKeyMsg) (signatureKey : PubKey) : Res Bool :=
  if s.serialized.length < 64 then .panic
  else
    let idx := s.serialized.length - 64
    signatureKey.verifySignature C (s.serialized.drop idx) [s.serialized.take idx]

/-- protocol/message/senderkey.go:141-149 — a sender-key distribution message. -/
structure DistributionMsg where
  version : UInt8
  distID : DistId
  chainID : UInt32
  iteration : UInt32
  chainKey : Bytes
  signingKey : PubKey
  serialized : Bytes
deriving DecidableEq

/-- protocol/message/senderkey.go:162-189 — `NewSenderKeyDistribution`; it cannot fail. -/
def newDistribution (version : UInt8) (distID : DistId) (chainID iteration : UInt32) (chainKey : Bytes)
    (signingKey : PubKey) : DistributionMsg :=
  let message := PBDistribution.marshal
    { distributionUuid := some distID.string, chainId := some chainID, iteration := some iteration,
      chainKey := some chainKey, signingKey := some signingKey.bytes }
  { version := version, distID := distID, chainID := chainID, iteration := iteration, chainKey := chainKey,
    signingKey := signingKey, serialized := versionPrefix version :: message }

/-- protocol/message/senderkey.go:191-232 — `NewSenderKeyDistributionFromBytes`. -/
def newDistributionFromBytes (bytes : Bytes) : Res DistributionMsg :=
  if bytes.length < 1 + 32 + 32 then .err .messageTooShort
  else match bytes with
  | [] => .panic
  | b :: rest =>
    let version := b >>> 4
    if version ≠ 3 then .err .unsupportedVersion
    else do
      let message ← PBDistribution.unmarshal rest
      let distID ← parseDistId (message.distributionUuid.getD [])
      let chainKey := message.chainKey.getD []
      if chainKey.length ≠ 32 then Res.err (.invalidKeyLength 32 chainKey.length)
      else
        let signingKey ← newPublicKey (message.signingKey.getD [])
        return { version := version, distID := distID, chainID := message.chainId.getD 0,
                 iteration := message.iteration.getD 0, chainKey := chainKey, signingKey := signingKey,
                 serialized := bytes }

/-- protocol/message/plaintext.go:18-20; its type is protocol/message/plaintext.go:36-38. -/
structure PlaintextMsg where
  serialized : Bytes
deriving DecidableEq

/-- protocol/message/plaintext.go:22-34 — `NewPlaintextFromBytes`. -/
def newPlaintextFromBytes (bytes : Bytes) : Res PlaintextMsg :=
  match bytes with
  | [] => .err .messageTooShort
  | b :: _ => if b ≠ 0xC0 then .err .unsupportedVersion else .ok ⟨bytes⟩

/-- protocol/message/plaintext.go:44-46 — `Message`: slicing an empty serialisation would panic. -/
def PlaintextMsg.message (p : PlaintextMsg) : Res Bytes :=
  match p.serialized with
  | [] => .panic
  | _ :: rest => .ok rest

/-- protocol/message/ciphertext.go:24-29 — the values that implement `message.Ciphertext`. -/
inductive Ciphertext where
  | signal (m : Signal)
  | preKey (m : PreKeyMsg)
  | senderKey (m : SenderKeyMsg)
  | plaintext (m : PlaintextMsg)
deriving DecidableEq

/-- `Ciphertext.Bytes` of the four message types (signal.go:110, prekey.go:123, senderkey.go:108, plaintext.go:40). -/
def Ciphertext.bytes : Ciphertext → Bytes
  | .signal m => m.serialized
  | .preKey m => m.serialized
  | .senderKey m => m.serialized
  | .plaintext m => m.serialized

/-! ## Facts -/

theorem ofNat_toNat32 (v : UInt32) : UInt32.ofNat v.toNat = v := by simp

theorem optVarint_ok (n : Nat) (h1 : 1 ≤ n) (h2 : n < 536870912) (v : Option UInt32) : ∀ f ∈ optVarint n v, f.Ok := by
  cases v with
  | none => simp [optVarint]
  | some v =>
    simp only [optVarint, List.mem_singleton]
    rintro f rfl
    refine ⟨h1, h2, ?_⟩
    have := v.toNat_lt
    simp only
    omega

theorem optLen_ok (n : Nat) (h1 : 1 ≤ n) (h2 : n < 536870912) (v : Option Bytes) (hv : (v.getD []).length < 2 ^ 64) :
    ∀ f ∈ optLen n v, f.Ok := by
  cases v with
  | none => simp [optLen]
  | some v =>
    simp only [optLen, List.mem_singleton]
    rintro f rfl
    exact ⟨h1, h2, hv⟩

theorem PBSignal.unmarshal_marshal (m : PBSignal) (h1 : (m.ratchetKey.getD []).length < 2 ^ 64)
    (h2 : (m.ciphertext.getD []).length < 2 ^ 64) : PBSignal.unmarshal m.marshal = .ok m := by
  have hok : ∀ f ∈ optLen 1 m.ratchetKey ++ optVarint 2 m.counter ++ optVarint 3 m.previousCounter ++ optLen 4 m.ciphertext,
      f.Ok := by
    intro f hf
    simp only [List.mem_append] at hf
    rcases hf with ((hf | hf) | hf) | hf
    · exact optLen_ok 1 (by omega) (by omega) _ h1 f hf
    · exact optVarint_ok 2 (by omega) (by omega) _ f hf
    · exact optVarint_ok 3 (by omega) (by omega) _ f hf
    · exact optLen_ok 4 (by omega) (by omega) _ h2 f hf
  rw [PBSignal.unmarshal, PBSignal.marshal, Wire.parseFields_enc _ hok]
  obtain ⟨a, b, c, d⟩ := m
  cases a <;> cases b <;> cases c <;> cases d <;>
    simp [optLen, optVarint, PBSignal.field]

theorem PBPreKey.unmarshal_marshal (m : PBPreKey) (h1 : (m.baseKey.getD []).length < 2 ^ 64)
    (h2 : (m.identityKey.getD []).length < 2 ^ 64) (h3 : (m.message.getD []).length < 2 ^ 64) :
    PBPreKey.unmarshal m.marshal = .ok m := by
  have hok : ∀ f ∈ optVarint 1 m.preKeyId ++ optLen 2 m.baseKey ++ optLen 3 m.identityKey ++ optLen 4 m.message ++
      optVarint 5 m.registrationId ++ optVarint 6 m.signedPreKeyId, f.Ok := by
    intro f hf
    simp only [List.mem_append] at hf
    rcases hf with ((((hf | hf) | hf) | hf) | hf) | hf
    · exact optVarint_ok 1 (by omega) (by omega) _ f hf
    · exact optLen_ok 2 (by omega) (by omega) _ h1 f hf
    · exact optLen_ok 3 (by omega) (by omega) _ h2 f hf
    · exact optLen_ok 4 (by omega) (by omega) _ h3 f hf
    · exact optVarint_ok 5 (by omega) (by omega) _ f hf
    · exact optVarint_ok 6 (by omega) (by omega) _ f hf
  rw [PBPreKey.unmarshal, PBPreKey.marshal, Wire.parseFields_enc _ hok]
  obtain ⟨a, b, c, d, e, g⟩ := m
  cases a <;> cases b <;> cases c <;> cases d <;> cases e <;> cases g <;>
    simp [optLen, optVarint, PBPreKey.field]

theorem PBSenderKey.unmarshal_marshal (m : PBSenderKey) (h1 : (m.distributionUuid.getD []).length < 2 ^ 64)
    (h2 : (m.ciphertext.getD []).length < 2 ^ 64) : PBSenderKey.unmarshal m.marshal = .ok m := by
  have hok : ∀ f ∈ optLen 1 m.distributionUuid ++ optVarint 2 m.chainId ++ optVarint 3 m.iteration ++ optLen 4 m.ciphertext,
      f.Ok := by
    intro f hf
    simp only [List.mem_append] at hf
    rcases hf with ((hf | hf) | hf) | hf
    · exact optLen_ok 1 (by omega) (by omega) _ h1 f hf
    · exact optVarint_ok 2 (by omega) (by omega) _ f hf
    · exact optVarint_ok 3 (by omega) (by omega) _ f hf
    · exact optLen_ok 4 (by omega) (by omega) _ h2 f hf
  rw [PBSenderKey.unmarshal, PBSenderKey.marshal, Wire.parseFields_enc _ hok]
  obtain ⟨a, b, c, d⟩ := m
  cases a <;> cases b <;> cases c <;> cases d <;>
    simp [optLen, optVarint, PBSenderKey.field]

theorem PBDistribution.unmarshal_marshal (m : PBDistribution) (h1 : (m.distributionUuid.getD []).length < 2 ^ 64)
    (h2 : (m.chainKey.getD []).length < 2 ^ 64) (h3 : (m.signingKey.getD []).length < 2 ^ 64) :
    PBDistribution.unmarshal m.marshal = .ok m := by
  have hok : ∀ f ∈ optLen 1 m.distributionUuid ++ optVarint 2 m.chainId ++ optVarint 3 m.iteration ++ optLen 4 m.chainKey ++
      optLen 5 m.signingKey, f.Ok := by
    intro f hf
    simp only [List.mem_append] at hf
    rcases hf with (((hf | hf) | hf) | hf) | hf
    · exact optLen_ok 1 (by omega) (by omega) _ h1 f hf
    · exact optVarint_ok 2 (by omega) (by omega) _ f hf
    · exact optVarint_ok 3 (by omega) (by omega) _ f hf
    · exact optLen_ok 4 (by omega) (by omega) _ h2 f hf
    · exact optLen_ok 5 (by omega) (by omega) _ h3 f hf
  rw [PBDistribution.unmarshal, PBDistribution.marshal, Wire.parseFields_enc _ hok]
  obtain ⟨a, b, c, d, e⟩ := m
  cases a <;> cases b <;> cases c <;> cases d <;> cases e <;>
    simp [optLen, optVarint, PBDistribution.field]

theorem versionPrefix_shift (v : UInt8) : versionPrefix v >>> 4 = v &&& 0xF := by
  have h : ∀ n : Fin 256, versionPrefix (UInt8.ofNat n.1) >>> 4 = (UInt8.ofNat n.1) &&& 0xF := by decide +kernel
  have := h ⟨v.toNat, v.toNat_lt⟩
  simpa using this

end Verif
