import Verif.Spec.Purposes
import Verif.Props.Stores
import Verif.Proofs.Encoding

/-!
# C127: a signature made for one purpose does not serve another
-/

namespace Verif

open Doc

theorem alternate_flatten (other : PubKey) :
    [alternatePrefix1, alternatePrefix2, other.bytes].flatten = alternateText other := by
  have : alternatePrefix2 = ascii "Signal_PNI_Signature" := by decide +kernel
  simp only [List.flatten_cons, List.flatten_nil, List.append_nil, alternatePrefix1, this, alternateText, wireKey, PubKey.bytes,
    List.append_assoc]

theorem verifySignature_accepts (C : Crypto) (k : PubKey) (sig : Bytes) (ts : List Bytes) :
    k.verifySignature C sig ts = .ok true ↔ sig.length = 64 ∧ C.verify k.key ts.flatten sig = some true := by
  unfold PubKey.verifySignature
  by_cases h : sig.length = 64
  · simp only [h, ne_eq, not_true_eq_false, if_false, true_and]
    cases C.verify k.key ts.flatten sig <;> simp [Res.ofOption]
  · simp [h]

/-- C127: SignAlternateIdentity signs exactly the text that names the other key. -/
theorem C127_alternate_signed (C : Crypto) (k : KeyPair) (other : PubKey) (rand : Bytes) (hr : 64 ≤ rand.length) :
    k.signAlternateIdentity C other rand = (.ok (C.sign k.priv.key (rand.take 64) (alternateText other)), rand.drop 64) := by
  simp only [KeyPair.signAlternateIdentity, PrivKey.sign, M.bind_run, readFull_ok 64 rand hr, M.pure_run, alternate_flatten]

/-- C127: VerifyAlternateIdentity accepts exactly the signatures of this text, and different keys have different texts. -/
theorem C127_alternate_verified (C : Crypto) (k : PubKey) (sig : Bytes) (other : PubKey) :
    (k.verifyAlternateIdentity C sig other = .ok true ↔ sig.length = 64 ∧ C.verify k.key (alternateText other) sig = some true) ∧
    ∀ other', alternateText other' = alternateText other → other' = other := by
  refine ⟨?_, fun other' h => ?_⟩
  · rw [PubKey.verifyAlternateIdentity, verifySignature_accepts, alternate_flatten]
  · have := List.append_cancel_left h
    simp only [wireKey, List.cons.injEq, true_and] at this
    obtain ⟨k1, _⟩ := other
    obtain ⟨k2, _⟩ := other'
    cases this
    rfl

theorem alternateText_head (other : PubKey) : (alternateText other).head? = some 0xFF := by
  simp [alternateText, List.replicate_succ]

/-- C127: a signature that vouches for an identity key and is also accepted with a pre-key bundle of the same identity is
valid for two different texts. -/
theorem C127_alternate_and_bundle (E : Env) (w : World) (a : Address) (b : Bundle) (other : PubKey)
    (h1 : (processPreKeyBundle E a b w).1 = .ok ())
    (h2 : b.identityKey.verifyAlternateIdentity E.C b.signedPreKeySignature other = .ok true) :
    TwoTexts E.C b.identityKey b.signedPreKeySignature := by
  have h3 := ((verifySignature_accepts ..).1 (C10_bundle_is_authenticated E w a b h1).2).2
  have h4 := ((C127_alternate_verified ..).1.1 h2).2
  refine ⟨_, _, fun e => ?_, h3, h4⟩
  have := congrArg List.head? e
  rw [alternateText_head] at this
  simp [PubKey.bytes] at this

theorem senderKey_text_head {bytes : Bytes} {m : SenderKeyMsg} (hm : newSenderKeyFromBytes bytes = .ok m) :
    ∃ v rest, m.serialized.take (m.serialized.length - 64) = v :: rest ∧ v.toNat / 16 = 3 := by
  obtain ⟨b, rest, pb, rfl, hb, hl, _, _, _, _, _, _, hs⟩ := newSenderKeyFromBytes_ok hm
  simp only [List.length_cons] at hl
  rw [hs]
  refine ⟨b, rest.take (rest.length - 64), ?_, (u8_shift4 b).1 hb⟩
  rw [List.length_cons, show rest.length + 1 - 64 = (rest.length - 64) + 1 by omega, List.take_succ_cons]

/-- C127: the signature of a group message that is also accepted as vouching for an identity key, or with a bundle, by the
same key, is valid for two different texts. -/
theorem C127_group_and_others (E : Env) (w : World) (a : Address) (k : PubKey) (bytes sig : Bytes) (m : SenderKeyMsg)
    (hm : newSenderKeyFromBytes bytes = .ok m) (hsig : m.serialized.drop (m.serialized.length - 64) = sig)
    (h1 : m.verifySignature E.C k = .ok true)
    (h2 : (∃ other, k.verifyAlternateIdentity E.C sig other = .ok true) ∨
      (∃ b : Bundle, b.identityKey = k ∧ b.signedPreKeySignature = sig ∧ (processPreKeyBundle E a b w).1 = .ok ())) :
    TwoTexts E.C k sig := by
  obtain ⟨v, rest, ht, hv⟩ := senderKey_text_head hm
  have h3 : E.C.verify k.key (v :: rest) sig = some true := by
    unfold SenderKeyMsg.verifySignature at h1
    split at h1
    · cases h1
    · have := ((verifySignature_accepts ..).1 h1).2
      rw [hsig, ht] at this
      simpa using this
  rcases h2 with ⟨other, h2⟩ | ⟨b, rfl, rfl, h2⟩
  · refine ⟨_, _, fun e => ?_, h3, ((C127_alternate_verified ..).1.1 h2).2⟩
    have := congrArg List.head? e
    rw [alternateText_head] at this
    simp only [List.head?_cons, Option.some.injEq] at this
    subst this
    revert hv; decide
  · refine ⟨_, _, fun e => ?_, h3, ((verifySignature_accepts ..).1 (C10_bundle_is_authenticated E w a b h2).2).2⟩
    simp only [PubKey.bytes, List.flatten_cons, List.cons_append, List.cons.injEq] at e
    rw [e.1] at hv
    revert hv; decide

/-! ## The hypotheses can be met -/

namespace Ex

/-- Primitives with a broken signature scheme: every signature is valid for every text. -/
def lax : Crypto := { toy with verify := fun _ _ _ => some true, verify_sign := fun _ _ _ _ _ _ => rfl }

/-- Only with such a scheme does one signature serve two purposes. -/
example : (processPreKeyBundle ⟨lax, false, tofu⟩ bob bundle alice0).1 = .ok () ∧
    bundle.identityKey.verifyAlternateIdentity lax bundle.signedPreKeySignature bundle.signedPreKeyPublic = .ok true ∧
    bundle.identityKey.verifyAlternateIdentity toy bundle.signedPreKeySignature bundle.signedPreKeyPublic = .ok false := by
  decide +kernel

/-- A group message with a signature of the right length. -/
example : ∃ m, newSenderKeyFromBytes (0x33 :: [0x0a, 36] ++ (⟨List.replicate 16 7, by decide⟩ : DistId).string ++ List.replicate 64 1) = .ok m ∧
    m.serialized.drop (m.serialized.length - 64) = List.replicate 64 1 ∧
    m.verifySignature lax bundle.identityKey = .ok true ∧
    bundle.identityKey.verifyAlternateIdentity lax (List.replicate 64 1) bundle.signedPreKeyPublic = .ok true := by
  refine ⟨_, rfl, ?_⟩
  decide +kernel

end Ex

end Verif
