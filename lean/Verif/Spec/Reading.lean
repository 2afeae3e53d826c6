import Verif.Spec.Protocol
import Verif.Spec.Session

/-!
# What a session can read

The messages a session state is entitled to read, in terms of `Verif.Spec.Protocol` and of the contents of the stored state.
-/

namespace Verif

open Doc

/-- A plaintext with 1 to 16 bytes of padding that fill the last block; the last byte is their number. (PKCS#7 asks all of them to
be; a reader that is sent something else cannot be told apart here.) -/
def Doc.Padded (p padded : Bytes) : Prop :=
  ∃ junk : Bytes, padded = p ++ junk ∧ junk.length ≤ 16 ∧ (∃ b, junk.getLast? = some b ∧ b.toNat = junk.length) ∧ padded.length % 16 = 0

/-- The message carries this plaintext from `sender` to `receiver` under these 80 secret bytes: it ends with the MAC of both
identities and of all bytes before, and its ciphertext is the AES-CBC encryption of the padded plaintext. -/
structure Signal.Carries (C : Crypto) (secrets : Bytes) (sender receiver : PubKey) (m : Signal) (p : Bytes) : Prop where
  version : m.version = 3
  mac : ∃ body, m.serialized = body ++ (C.hmac ((secrets.drop 32).take 32) (wireKey sender ++ wireKey receiver ++ body)).take 8
  text : ∃ padded, Padded p padded ∧ m.ciphertext = chain C (secrets.take 32) (secrets.drop 64) (blocks padded)

/-- The secret bytes that a state has for message `n` under the ratchet key `k`. -/
inductive SState.Secrets (C : Crypto) (s : SState) (k : PubKey) (n : UInt32) : Bytes → Prop
  /-- kept when the message was skipped -/
  | stored (c : PBChain) (x : PBMessageKey) (hc : c ∈ s.receiverChains) (hk : c.senderRatchetKey = wireKey k) (hx : x ∈ c.messageKeys)
      (hn : x.index = n) : SState.Secrets C s k n (x.cipherKey ++ x.macKey ++ x.iv)
  /-- ahead on a known chain, by at most 25000 messages -/
  | ahead (c : PBChain) (ck : PBChainKey) (hc : c ∈ s.receiverChains) (hk : c.senderRatchetKey = wireKey k) (hck : c.chainKey = some ck)
      (hn : ck.index.toNat ≤ n.toNat) (hj : n.toNat ≤ ck.index.toNat + 25000 ∨ s.WithSelf) :
      SState.Secrets C s k n (messageSecrets C ck.key (n.toNat - ck.index.toNat))
  /-- on the chain that begins with a new ratchet key -/
  | ratchet (hk : ∀ c ∈ s.receiverChains, c.senderRatchetKey ≠ wireKey k) (sc : PBChain) (hs : s.senderChain = some sc) (ours : PrivKey)
      (ho : sc.senderRatchetKeyPrivate = ours.bytes) (d : Bytes) (hd : C.dh ours.key k.key = some d) (hj : n.toNat ≤ 25000 ∨ s.WithSelf) :
      SState.Secrets C s k n (messageSecrets C (derive C d s.rootKey (ascii "WhisperRatchet")).chain n.toNat)

/-- The state can read the plaintext `p` out of the message. -/
def SState.CanRead (C : Crypto) (s : SState) (m : Signal) (p : Bytes) : Prop :=
  ∃ sender receiver secrets, s.remoteIdentityPublic = wireKey sender ∧ s.localIdentityPublic = wireKey receiver ∧
    s.Secrets C m.senderRatchetKey m.counter secrets ∧ m.Carries C secrets sender receiver p

/-- The state that X3DH prescribes for the receiver of a pre-key message: both identities, no receiving chain, the signed pre-key as
ratchet key, and the root key that comes from the Diffie-Hellman values of Alice's identity with our signed pre-key, of Alice's base
key with our identity, with our signed pre-key and with our one-time pre-key (if the message names one that we have). -/
structure SState.Answers (C : Crypto) (w : World) (m : PreKeyMsg) (s : SState) : Prop where
  ours : s.localIdentityPublic = wireKey w.identity.pub
  theirs : s.remoteIdentityPublic = wireKey m.identityKey
  fresh : s.receiverChains = []
  keys : ∃ (rec : PreKeyRec) (signed : KeyPair) (oneTime : Option KeyPair) (d1 d2 d3 d4 : Bytes),
    w.signedPreKeys m.signedPreKeyID = some rec ∧ rec.keyPair = .ok signed ∧
    (oneTime = none ∧ (m.preKeyID.bind w.preKeys = none) ∨ ∃ r k, m.preKeyID.bind w.preKeys = some r ∧ r.keyPair = .ok k ∧ oneTime = some k) ∧
    C.dh signed.priv.key m.identityKey.key = some d1 ∧ C.dh w.identity.priv.key m.baseKey.key = some d2 ∧
    C.dh signed.priv.key m.baseKey.key = some d3 ∧
    (match oneTime with
     | some k => C.dh k.priv.key m.baseKey.key = some d4
     | none => d4 = []) ∧
    s.rootKey = (derive C (List.replicate 32 0xFF ++ d1 ++ d2 ++ d3 ++ d4) [] (ascii "WhisperText")).root ∧
    ∃ sc, s.senderChain = some sc ∧ sc.senderRatchetKeyPrivate = signed.priv.bytes

/-- The states that may read a message from `a`: those stored for `a`, and, for a pre-key message with a base key that none of these
knows, the state that X3DH prescribes for it. -/
inductive World.Reader (C : Crypto) (w : World) (a : Address) : Ciphertext → SState → Prop
  | stored (c : Ciphertext) (r : Record) (s : SState) (h : w.sessions a = some r) (hs : r.HasState s) : World.Reader C w a c s
  | fresh (m : PreKeyMsg) (s : SState) (h : ∀ r, w.sessions a = some r → ¬ r.Knows m.version.toUInt32 m.baseKey) (hs : s.Answers C w m) :
      World.Reader C w a (.preKey m) s

end Verif
