import Verif.Model.StateUse
import Verif.Model.Buffer

/-!
# Messages that are made, with their slices

`Model/Buffer.lean` has the messages that are parsed. Here are those that the library makes, and plaintext messages.
-/

namespace Verif

/-- protocol/message/signal.go:42-73 — `NewSignal`: the ciphertext is the caller's slice, the serialised message is a new array. -/
def newSignalSlices (C : Crypto) (version : UInt8) (macKey : Bytes) (senderRatchetKey : PubKey) (previousCounter counter : UInt32) (ciphertext : Slice)
    (senderIdentity receiverIdentity : PubKey) : M Heap SignalRef := do
  let h ← M.get
  let m ← M.lift (newSignal C version macKey senderRatchetKey previousCounter counter (h.read ciphertext) senderIdentity receiverIdentity)
  let serialized ← allocBytes m.serialized
  return { version := m.version, senderRatchetKey := m.senderRatchetKey, previousCounter := m.previousCounter,
           counter := m.counter, ciphertext := ciphertext, serialized := serialized }

/-- protocol/message/prekey.go:42-71 — `NewPreKey`: the inner message is kept, the serialised message is a new array. -/
def newPreKeySlices (version : UInt8) (registrationID : UInt32) (preKeyID : Option UInt32) (signedPreKeyID : UInt32)
    (baseKey identityKey : PubKey) (message : SignalRef) : M Heap PreKeyRef := do
  let h ← M.get
  let m := newPreKey version registrationID preKeyID signedPreKeyID baseKey identityKey (message.seen h)
  let serialized ← allocBytes m.serialized
  return { version := m.version, registrationID := m.registrationID, preKeyID := m.preKeyID, signedPreKeyID := m.signedPreKeyID,
           baseKey := m.baseKey, identityKey := m.identityKey, message := message, serialized := serialized }

/-- protocol/message/senderkey.go:40-71 — `NewSenderKey`: the ciphertext is the caller's slice, the serialised message is a new array. -/
def newSenderKeySlices (C : Crypto) (version : UInt8) (distID : DistId) (chainID iteration : UInt32) (ciphertext : Slice)
    (signatureKey : PrivKey) : M RMem SenderKeyRef := do
  let mem ← M.get
  let m ← onRand (newSenderKey C version distID chainID iteration (mem.heap.read ciphertext) signatureKey)
  let serialized ← onMem (allocBytes m.serialized)
  return { version := m.version, distID := m.distID, chainID := m.chainID, iteration := m.iteration,
           ciphertext := ciphertext, serialized := serialized }

/-- protocol/message/plaintext.go:18-20 — `Plaintext` with its slice. -/
structure PlaintextRef where
  serialized : Slice
deriving DecidableEq

/-- What the methods of a `Plaintext` see when the memory is `h`. (protocol/message/plaintext.go:36-46.) -/
def PlaintextRef.seen (r : PlaintextRef) (h : Heap) : PlaintextMsg := ⟨h.read r.serialized⟩

/-- protocol/message/plaintext.go:22-34 — `NewPlaintextFromBytes` on a slice, which it keeps. -/
def plaintextFromSlice (s : Slice) : M Heap PlaintextRef := do
  let h ← M.get
  let _ ← M.lift (newPlaintextFromBytes (h.read s))
  return ⟨s⟩

/-- protocol/message/plaintext.go:44-46 — `Message`: the slice without its first byte. -/
def PlaintextRef.message (r : PlaintextRef) : Res Slice :=
  if r.serialized.len = 0 then .panic
  else .ok ⟨r.serialized.arr, r.serialized.off + 1, r.serialized.len - 1, r.serialized.cap - 1⟩

end Verif
