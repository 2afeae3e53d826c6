import Verif.Spec.Session
import Verif.Spec.Group

/-!
# Vocabulary for which calls can panic and when calls succeed

Nothing here is used by the model.
-/

namespace Verif

/-- Any call of the session API but DecryptMessage on a pre-key message; a plain message comes from the parser. -/
def Op.NotPreKey : Op → Prop
  | .decrypt _ (.preKey _) => False
  | .decrypt _ c => c.Parsed
  | _ => True

/-- A sender-key message that is decrypted comes from the parser. -/
def GOp.FromWire : GOp → Prop
  | .decrypt _ m => ∃ bytes, newSenderKeyFromBytes bytes = .ok m
  | _ => True

/-- The pre-keys that the message names can be read, as far as they are in the store. -/
def PreKeyMsg.KeysReadable (m : PreKeyMsg) (w : World) : Prop :=
  (∀ p, w.signedPreKeys m.signedPreKeyID = some p → ∃ k, p.keyPair = .ok k) ∧
  ∀ id p, m.preKeyID = some id → w.preKeys id = some p → ∃ k, p.keyPair = .ok k

/-- The private key that 32 random bytes give has a shared secret with this public key. -/
def SharesSecret (C : Crypto) (secret : Bytes) (k : PubKey) : Prop := (C.dh (clamp secret) k.keyBytes).isSome

/-- The user has a shared secret with each key of the bundle, for the two keys that are drawn from these random bytes. -/
structure Bundle.Usable (b : Bundle) (C : Crypto) (w : World) (random : Bytes) : Prop where
  identity : (C.dh w.identity.priv.key b.signedPreKeyPublic.keyBytes).isSome
  base : SharesSecret C (random.take 32) b.identityKey
  signed : SharesSecret C (random.take 32) b.signedPreKeyPublic
  oneTime : ∀ k, b.preKeyPublic = some k → SharesSecret C (random.take 32) k
  ratchet : SharesSecret C ((random.drop 32).take 32) b.signedPreKeyPublic

end Verif
