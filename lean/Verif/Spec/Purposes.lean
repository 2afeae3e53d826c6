import Verif.Spec.Protocol
import Verif.Model.World

/-! # What is signed, and what for -/

namespace Verif.Doc

/-- The text signed to vouch for another identity key of the same user: 32 times 0xFF, a label and the key. -/
def alternateText (other : PubKey) : Bytes := List.replicate 32 0xFF ++ ascii "Signal_PNI_Signature" ++ wireKey other

/-- The signature is valid under the key for two different texts. -/
def TwoTexts (C : Crypto) (k : PubKey) (signature : Bytes) : Prop :=
  ∃ t t', t ≠ t' ∧ C.verify k.key t signature = some true ∧ C.verify k.key t' signature = some true

end Verif.Doc
