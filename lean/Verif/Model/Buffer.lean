import Verif.Model.Slice
import Verif.Model.Message

/-!
# Parsed messages and the buffer they were parsed from

`Model/Message.lean` treats a parsed message as a value. Here a message holds slices: which of its parts are copies and
which part is the caller's own slice. The fields themselves are computed by the parsers of `Model/Message.lean`;
this file adds where they live. Public keys stay values: `curve.NewPublicKey` copies its argument
(protocol/curve/public.go:40-41) and every method that returns key bytes returns a copy
(protocol/curve/djb_public.go:32-43).
-/

namespace Verif

/-- A fresh array: `proto.Unmarshal` copies every `bytes` field. (protocol/message/signal.go:86, prekey.go:84,
senderkey.go:84, senderkey.go:203.) -/
def allocBytes (b : Bytes) : M Heap Slice := fun h => (.ok ⟨h.length, 0, b.length, b.length⟩, h ++ [b])

/-- protocol/message/signal.go:21-28 — `Signal` with its slices. -/
structure SignalRef where
  version : UInt8
  senderRatchetKey : PubKey
  previousCounter : UInt32
  counter : UInt32
  ciphertext : Slice
  serialized : Slice
deriving DecidableEq

/-- What the methods of a `Signal` see when the memory is `h`. (protocol/message/signal.go:106-146.) -/
def SignalRef.seen (r : SignalRef) (h : Heap) : Signal :=
  { version := r.version, senderRatchetKey := r.senderRatchetKey, previousCounter := r.previousCounter,
    counter := r.counter, ciphertext := h.read r.ciphertext, serialized := h.read r.serialized }

/-- protocol/message/signal.go:75-104 — `NewSignalFromBytes` on a slice: `serialized` is the slice itself (line 102). -/
def signalFromSlice (s : Slice) : M Heap SignalRef := do
  let h ← M.get
  let m ← M.lift (newSignalFromBytes (h.read s))
  let ciphertext ← allocBytes m.ciphertext
  return { version := m.version, senderRatchetKey := m.senderRatchetKey, previousCounter := m.previousCounter,
           counter := m.counter, ciphertext := ciphertext, serialized := s }

/-- protocol/message/prekey.go:20-29 — `PreKey` with its slices. -/
structure PreKeyRef where
  version : UInt8
  registrationID : UInt32
  preKeyID : Option UInt32
  signedPreKeyID : UInt32
  baseKey : PubKey
  identityKey : PubKey
  message : SignalRef
  serialized : Slice
deriving DecidableEq

/-- What the methods of a `PreKey` see when the memory is `h`. (protocol/message/prekey.go:119-153.) -/
def PreKeyRef.seen (r : PreKeyRef) (h : Heap) : PreKeyMsg :=
  { version := r.version, registrationID := r.registrationID, preKeyID := r.preKeyID, signedPreKeyID := r.signedPreKeyID,
    baseKey := r.baseKey, identityKey := r.identityKey, message := r.message.seen h, serialized := h.read r.serialized }

/-- protocol/message/prekey.go:73-117 — `NewPreKeyFromBytes` on a slice. The inner message is parsed from the copy
that `proto.Unmarshal` made (line 97); `serialized` is the caller's slice (line 115). -/
def preKeyFromSlice (s : Slice) : M Heap PreKeyRef := do
  let h ← M.get
  let m ← M.lift (newPreKeyFromBytes (h.read s))
  let inner ← allocBytes m.message.serialized
  let message ← signalFromSlice inner
  return { version := m.version, registrationID := m.registrationID, preKeyID := m.preKeyID,
           signedPreKeyID := m.signedPreKeyID, baseKey := m.baseKey, identityKey := m.identityKey,
           message := message, serialized := s }

/-- protocol/message/senderkey.go:21-28 — `SenderKey` with its slices (a distribution id is an array, a value). -/
structure SenderKeyRef where
  version : UInt8
  distID : DistId
  chainID : UInt32
  iteration : UInt32
  ciphertext : Slice
  serialized : Slice
deriving DecidableEq

/-- What the methods of a `SenderKey` see when the memory is `h`. (protocol/message/senderkey.go:104-137.) -/
def SenderKeyRef.seen (r : SenderKeyRef) (h : Heap) : SenderKeyMsg :=
  { version := r.version, distID := r.distID, chainID := r.chainID, iteration := r.iteration,
    ciphertext := h.read r.ciphertext, serialized := h.read r.serialized }

/-- protocol/message/senderkey.go:73-102 — `NewSenderKeyFromBytes` on a slice: `serialized` is the slice itself
(line 100). -/
def senderKeyFromSlice (s : Slice) : M Heap SenderKeyRef := do
  let h ← M.get
  let m ← M.lift (newSenderKeyFromBytes (h.read s))
  let ciphertext ← allocBytes m.ciphertext
  return { version := m.version, distID := m.distID, chainID := m.chainID, iteration := m.iteration,
           ciphertext := ciphertext, serialized := s }

/-- protocol/message/senderkey.go:141-149 — `SenderKeyDistribution` with its slices. -/
structure DistributionRef where
  version : UInt8
  distID : DistId
  chainID : UInt32
  iteration : UInt32
  chainKey : Slice
  signingKey : PubKey
  serialized : Slice
deriving DecidableEq

/-- What the methods of a `SenderKeyDistribution` see when the memory is `h`. (protocol/message/senderkey.go:234-260.) -/
def DistributionRef.seen (r : DistributionRef) (h : Heap) : DistributionMsg :=
  { version := r.version, distID := r.distID, chainID := r.chainID, iteration := r.iteration,
    chainKey := h.read r.chainKey, signingKey := r.signingKey, serialized := h.read r.serialized }

/-- protocol/message/senderkey.go:191-232 — `NewSenderKeyDistributionFromBytes` on a slice. -/
def distributionFromSlice (s : Slice) : M Heap DistributionRef := do
  let h ← M.get
  let m ← M.lift (newDistributionFromBytes (h.read s))
  let chainKey ← allocBytes m.chainKey
  return { version := m.version, distID := m.distID, chainID := m.chainID, iteration := m.iteration,
           chainKey := chainKey, signingKey := m.signingKey, serialized := s }

end Verif
