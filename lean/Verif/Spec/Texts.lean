import Verif.Spec.Fields
import Verif.Spec.Ids
import Verif.Model.Message

/-!
# Which byte strings are messages

For each message type: the byte strings that are a message of that type, and what they say. A later field of the same
number and type replaces an earlier one; fields with other numbers or types say nothing.
-/

namespace Verif.Grammar

/-- A public key inside a message: type byte 5 and 32 bytes; more bytes may follow. -/
def KeyText (text : Option Bytes) (k : PubKey) : Prop := ∃ more, text = some (5 :: k.key ++ more)

/-- A pairwise message: a version byte, the fields, 8 bytes of MAC. -/
def SignalText (bytes : Bytes) (m : Signal) : Prop :=
  ∃ v body mac fs, bytes = v :: (body ++ mac) ∧ v.toNat / 16 = 3 ∧ mac.length = 8 ∧ Fields body fs ∧
    KeyText (lastBytes 1 fs) m.senderRatchetKey ∧ m.counter = (lastNumber 2 fs).getD 0 ∧
    m.previousCounter = (lastNumber 3 fs).getD 0 ∧ m.ciphertext = (lastBytes 4 fs).getD [] ∧ m.version = 3 ∧
    m.serialized = bytes

/-- A pre-key message: a version byte and the fields; one of them is a pairwise message. -/
def PreKeyText (bytes : Bytes) (m : PreKeyMsg) : Prop :=
  ∃ v body fs text, bytes = v :: body ∧ v.toNat / 16 = 3 ∧ Fields body fs ∧
    m.preKeyID = lastNumber 1 fs ∧ KeyText (lastBytes 2 fs) m.baseKey ∧ KeyText (lastBytes 3 fs) m.identityKey ∧
    lastBytes 4 fs = some text ∧ SignalText text m.message ∧ m.registrationID = (lastNumber 5 fs).getD 0 ∧
    m.signedPreKeyID = (lastNumber 6 fs).getD 0 ∧ m.version = 3 ∧ m.serialized = bytes

/-- A group message: a version byte, the fields, 64 bytes of signature. -/
def SenderKeyText (bytes : Bytes) (m : SenderKeyMsg) : Prop :=
  ∃ v body signature fs text, bytes = v :: (body ++ signature) ∧ v.toNat / 16 = 3 ∧ signature.length = 64 ∧
    Fields body fs ∧ lastBytes 1 fs = some text ∧ Writes m.distID text ∧ m.chainID = (lastNumber 2 fs).getD 0 ∧
    m.iteration = (lastNumber 3 fs).getD 0 ∧ m.ciphertext = (lastBytes 4 fs).getD [] ∧ m.version = 3 ∧
    m.serialized = bytes

/-- A sender-key distribution message: a version byte and the fields, 65 bytes or more. -/
def DistributionText (bytes : Bytes) (m : DistributionMsg) : Prop :=
  ∃ v body fs text, bytes = v :: body ∧ 65 ≤ bytes.length ∧ v.toNat / 16 = 3 ∧ Fields body fs ∧
    lastBytes 1 fs = some text ∧ Writes m.distID text ∧ m.chainID = (lastNumber 2 fs).getD 0 ∧
    m.iteration = (lastNumber 3 fs).getD 0 ∧ lastBytes 4 fs = some m.chainKey ∧ m.chainKey.length = 32 ∧
    KeyText (lastBytes 5 fs) m.signingKey ∧ m.version = 3 ∧ m.serialized = bytes

end Verif.Grammar
