import Verif.Spec.Reading
import Verif.Spec.Group

/-!
# What a group session can read

The sender-key messages a stored state is entitled to read, in terms of `Verif.Spec.Protocol` and of the contents of the state.
-/

namespace Verif

open Doc

/-- The 48 secret bytes that a state has for iteration `n`: IV (16 bytes) and cipher key (32). -/
inductive GState.Secrets (C : Crypto) (s : GState) (n : UInt32) : Bytes → Prop
  /-- from the seed kept when the message was skipped (the oldest, if there were several) -/
  | stored (before after : List SKChainKey) (k : SKChainKey) (hs : s.messageKeys = before ++ k :: after) (hn : k.iteration = n)
      (hb : ∀ x ∈ before, x.iteration ≠ n) (hp : n.toNat < s.chainKey.iteration.toNat) :
      GState.Secrets C s n (C.hkdf k.seed [] (ascii "WhisperGroup") 48)
  /-- ahead on the chain, by at most 25000 messages -/
  | ahead (hn : s.chainKey.iteration.toNat ≤ n.toNat) (hj : n.toNat ≤ s.chainKey.iteration.toNat + 25000) :
      GState.Secrets C s n (groupSecrets C s.chainKey.seed (n.toNat - s.chainKey.iteration.toNat))

/-- The state can read the plaintext `p` out of the message: the message is for its chain and of its version, it ends with a signature
of all bytes before under the signing key of the state, and its ciphertext is the AES-CBC encryption of the padded plaintext. -/
structure GState.CanRead (C : Crypto) (s : GState) (m : SenderKeyMsg) (p : Bytes) : Prop where
  chain : s.chainId = m.chainID
  version : m.version.toUInt32 = if s.messageVersion = 0 then 3 else s.messageVersion
  signed : ∃ (key : PubKey) (body sig : Bytes), s.signingPublic = wireKey key ∧ m.serialized = body ++ sig ∧ sig.length = 64 ∧
    C.verify key.key body sig = some true
  text : ∃ secrets padded, s.Secrets C m.iteration secrets ∧ Padded p padded ∧
    m.ciphertext = Doc.chain C (secrets.drop 16) (secrets.take 16) (blocks padded)

end Verif
