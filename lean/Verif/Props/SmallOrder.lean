import Verif.Proofs.SmallOrder
import Verif.Props.Agreement
import Verif.Props.Unrandom
import Verif.Props.Failures

/-!
# C79, C108, C129: exactly which public keys are refused
-/

namespace Verif

/-- **C79**, which keys are refused: with every private key, Agreement refuses exactly the public keys that stand for one of the five
numbers of small order. For every other key, on the curve or on its twist, it returns a secret. -/
theorem C79_refused_exactly (C : Crypto) (k : PrivKey) (p : PubKey) :
    k.agreement C.onCurve p = .err .lowOrderPoint ↔ p.number ∈ smallOrder := by
  rw [mem_smallOrder]
  obtain ⟨m, hm, h0, hlt⟩ := leNat_clamp k.len
  constructor
  · intro h
    rcases curve_or_twist (feOfBytes p.key) with ⟨P, hP⟩ | ⟨P, hP⟩
    · have h2 : 2 • leNat k.key • P = 0 := by
        refine Classical.byContradiction fun hc => ?_
        rw [(C79_multiplies C k p P hP).2 hc] at h
        cases h
      rw [k.clamped] at hm
      rw [← hP]
      rcases EdPoint.eight_smul_u ((EdPoint.smul_clamped hm h0 hlt P).1 h2) with h | h | h | h <;> simp [h]
    · by_cases hu : P.u = 0
      · exact .inl (by rw [← hP, hu])
      have hx : (x25519 k.key p.key).all (· == 0) = true := by
        have e : k.agreement C.onCurve p = Res.ofOption .lowOrderPoint (curveDh k.key p.key) := rfl
        rw [e] at h
        unfold curveDh at h
        simp only at h
        split at h
        · assumption
        · cases h
      have hz : (leNat (clamp k.key) • P).u = 0 := by
        have := feBytes_all_zero hx
        rw [← hP, (TwPoint.Mont.ladder hu 255 _ (by omega)).1.value] at this
        exact this
      have h2 := TwPoint.two_smul_eq_zero _ ((TwPoint.u_eq_zero_iff _).1 hz)
      rcases TwPoint.eight_smul P (TwPoint.smul_clamped hm h0 hlt P h2) with h | h
      · exact absurd h hu
      · rw [← hP, h]; simp
  · have small : ∀ P : EdPoint, P.u = feOfBytes p.key → 8 • P = 0 → k.agreement C.onCurve p = .err .lowOrderPoint :=
      fun P hP h8 => C79_small_order_refused C k p P hP h8
    have h8 : 8 • EdPoint.eighth = 0 := by
      rw [← EdPoint.order_eighth]; exact addOrderOf_nsmul_eq_zero _
    rintro (h | h | h | h | h)
    · exact small 0 (by rw [h]; exact EdPoint.u_zero) (nsmul_zero _)
    · refine small EdPoint.quarter (by rw [h]; simp [EdPoint.u, EdPoint.quarter]) ?_
      have h2 : (2 • EdPoint.quarter).x = 0 := (EdPoint.double_x _).2 (.inr rfl)
      have h4 := EdPoint.eq_zero_of_u (EdPoint.x_of_u_zero h2)
      rw [show 8 = 2 * 2 * 2 from rfl, mul_nsmul, mul_nsmul, h4, nsmul_zero]
    · refine small EdPoint.eighth' ?_ EdPoint.eight_eighth'
      rw [h]
      refine EdPoint.u_of_y (by rw [EdPoint.eighth'_y, sub_neg_eq_add]; exact EdPoint.eighth_y_ne.2) ?_
      rw [EdPoint.eighth'_y, sub_neg_eq_add, EdPoint.small1_eq]
      ring
    · refine small EdPoint.eighth ?_ h8
      rw [h]
      exact EdPoint.u_of_y EdPoint.eighth_y_ne.1 EdPoint.small2_eq
    · exact C79_minus_one_refused C k p h

theorem dh_isSome_iff (C : Crypto) (k : PrivKey) (q : PubKey) : (C.onCurve.dh k.key q.key).isSome = true ↔ q.number ∉ smallOrder := by
  have h := C79_refused_exactly C k q
  have e : k.agreement C.onCurve q = Res.ofOption .lowOrderPoint (C.onCurve.dh k.key q.key) := rfl
  rw [e] at h
  cases hd : C.onCurve.dh k.key q.key with
  | none =>
    rw [hd] at h
    simpa using h.1 rfl
  | some s =>
    rw [hd] at h
    have : q.number ∉ smallOrder := fun hc => by cases h.2 hc
    simp [this]

/-- **C108** on Curve25519: a pre-key message makes DecryptMessage panic exactly if the sender's identity is trusted, no session was set up
with the base key yet, the named pre-keys can be read as far as they exist, and the signed pre-key does not exist or the message's identity
key or base key stands for a number of small order. The sender can see to the last: no secret of the receiver matters. -/
theorem C108_panics_exactly_on_curve (E : Env) (C : Crypto) (hE : E.C = C.onCurve) (w : World) (hw : Reachable E w) (hf : w.faults = [])
    (a : Address) (m : PreKeyMsg) (hm : (Ciphertext.preKey m).Parsed) :
    (decryptMessage E a (.preKey m) w).1 = .panic ↔
      E.trusted w.known a m.identityKey .receiving = true ∧ (∀ r, w.sessions a = some r → ¬ r.Knows m.version.toUInt32 m.baseKey) ∧
      m.KeysReadable w ∧
      (w.signedPreKeys m.signedPreKeyID = none ∨ m.identityKey.number ∈ smallOrder ∨ m.baseKey.number ∈ smallOrder) := by
  rw [C108_pre_key_message_panics_exactly E w hw hf a m hm]
  refine and_congr_right fun _ => and_congr_right fun _ => and_congr_right fun hr => ?_
  rw [hE]
  constructor
  · intro h
    refine Classical.byContradiction fun hn => h ?_
    have h1 : w.signedPreKeys m.signedPreKeyID ≠ none := fun hc => hn (.inl hc)
    have h2 : m.identityKey.number ∉ smallOrder := fun hc => hn (.inr (.inl hc))
    have h3 : m.baseKey.number ∉ smallOrder := fun hc => hn (.inr (.inr hc))
    exact ⟨Option.isSome_iff_ne_none.2 h1, fun _ k _ _ => ⟨(dh_isSome_iff C k.priv _).2 h2, (dh_isSome_iff C k.priv _).2 h3⟩,
      (dh_isSome_iff C w.identity.priv _).2 h3, fun _ _ k _ _ _ => (dh_isSome_iff C k.priv _).2 h3⟩
  · rintro h ⟨h1, h2, h3, -⟩
    have hb := (dh_isSome_iff C w.identity.priv _).1 h3
    rcases h with h | h | h
    · rw [h] at h1; cases h1
    · obtain ⟨p, hp⟩ := Option.isSome_iff_exists.1 h1
      obtain ⟨k, hk⟩ := hr.1 p hp
      exact (dh_isSome_iff C k.priv _).1 (h2 p k hp hk).1 h
    · exact hb h

theorem sharesSecret_iff (C : Crypto) (secret : Bytes) (h : secret.length = 32) (q : PubKey) :
    SharesSecret C.onCurve secret q ↔ q.number ∉ smallOrder := dh_isSome_iff C ⟨clamp secret, by simp [h], clamp_idem _⟩ q

/-- **C109** on Curve25519: with a store that does not fail, ProcessPreKeyBundle succeeds exactly if the identity key is trusted, the
signature on the signed pre-key verifies, there are 64 random bytes, and no key of the bundle stands for a number of small order. -/
theorem C109_bundle_on_curve (E : Env) (C : Crypto) (hE : E.C = C.onCurve) (w : World) (hf : w.faults = []) (a : Address) (b : Bundle) :
    (processPreKeyBundle E a b w).1 = .ok () ↔
      E.trusted w.known a b.identityKey .sending = true ∧
      b.identityKey.verifySignature E.C b.signedPreKeySignature [b.signedPreKeyPublic.bytes] = .ok true ∧
      64 ≤ w.rand.length ∧ b.identityKey.number ∉ smallOrder ∧ b.signedPreKeyPublic.number ∉ smallOrder ∧
      ∀ k, b.preKeyPublic = some k → k.number ∉ smallOrder := by
  rw [C109_bundle E w hf a b]
  refine and_congr_right fun _ => and_congr_right fun _ => and_congr_right fun hl => ?_
  have h1 : (w.rand.take 32).length = 32 := by rw [List.length_take]; omega
  have h2 : ((w.rand.drop 32).take 32).length = 32 := by rw [List.length_take, List.length_drop]; omega
  rw [hE]
  constructor
  · rintro ⟨-, hb, hs, ho, -⟩
    exact ⟨(sharesSecret_iff C _ h1 _).1 hb, (sharesSecret_iff C _ h1 _).1 hs, fun k hk => (sharesSecret_iff C _ h1 _).1 (ho k hk)⟩
  · rintro ⟨hb, hs, ho⟩
    exact ⟨(dh_isSome_iff C w.identity.priv _).2 hs, (sharesSecret_iff C _ h1 _).2 hb, (sharesSecret_iff C _ h1 _).2 hs,
      fun k hk => (sharesSecret_iff C _ h1 _).2 (ho k hk), (sharesSecret_iff C _ h2 _).2 hs⟩

/-- C129: on Curve25519 the hypothesis about the ratchet key holds of every key. -/
theorem C129_every_key (C : Crypto) (q : PubKey) : OrderOfKey C.onCurve q := by
  have key : ∀ k : PrivKey, (C.onCurve.dh k.key q.key).isSome = !decide (q.number ∈ smallOrder) := fun k => by
    rw [Bool.eq_iff_iff, dh_isSome_iff]; simp
  exact fun k k' => (key k).trans (key k').symm

/-- **C129** on Curve25519, without any hypothesis on the message. -/
theorem C129_decrypt_on_curve (E : Env) (C : Crypto) (hE : E.C = C.onCurve) (a : Address) (c : Ciphertext) (w w' : World) (hw : OnlyRand w w') :
    (decryptMessage E a c w').1 = (decryptMessage E a c w).1 ∧
    World.SameButOwnKeys a (decryptMessage E a c w).2 (decryptMessage E a c w').2 :=
  C129_decrypt E a c (fun _ _ => hE ▸ C129_every_key C _) w w' hw

/-! ## The hypotheses can be met -/

/-- A key of small order that is also given the top bit, which does not count. -/
example : (⟨0xE0 :: 0xEB :: 0x7A :: 0x7C :: 0x3B :: 0x41 :: 0xB8 :: 0xAE :: 0x16 :: 0x56 :: 0xE3 :: 0xFA :: 0xF1 :: 0x9F :: 0xC4 :: 0x6A ::
    0xDA :: 0x09 :: 0x8D :: 0xEB :: 0x9C :: 0x32 :: 0xB1 :: 0xFD :: 0x86 :: 0x62 :: 0x05 :: 0x16 :: 0x5F :: 0x49 :: 0xB8 :: [0x80],
    by decide⟩ : PubKey).number ∈ smallOrder := by decide +kernel

/-- The keys 2 and 3 are accepted by every private key. -/
example (C : Crypto) (k : PrivKey) : k.agreement C.onCurve ⟨2 :: List.replicate 31 0, by simp⟩ ≠ .err .lowOrderPoint ∧
    k.agreement C.onCurve ⟨3 :: List.replicate 31 0, by simp⟩ ≠ .err .lowOrderPoint := by
  rw [Ne, C79_refused_exactly, Ne, C79_refused_exactly]
  decide +kernel

/-- With every private key of the receiver: 32 zero bytes as base key make DecryptMessage panic. -/
example (C : Crypto) (identity : KeyPair) : ∃ m, (Ciphertext.preKey m).Parsed ∧
    (decryptMessage ⟨C.onCurve, false, tofu⟩ Ex.alice (.preKey m) { Ex.bob0 with identity := identity }).1 = .panic := by
  have h : (match Ex.m1 with
    | .preKey m => match newPreKeyFromBytes (newPreKey 3 11 none 6 ⟨List.replicate 32 0, by simp⟩ m.identityKey m.message).serialized with
      | .ok m' => decide (m'.baseKey.key = List.replicate 32 0 ∧ m'.preKeyID = none ∧ m'.signedPreKeyID = 6)
      | _ => false
    | _ => false) = true := by decide +kernel
  split at h
  · split at h
    · rename_i m' hm'
      simp only [decide_eq_true_eq] at h
      obtain ⟨h1, h2, h3⟩ := h
      refine ⟨m', ⟨_, hm'⟩, (C108_panics_exactly_on_curve _ C rfl _ (Reachable.start fun _ => rfl) rfl _ _ ⟨_, hm'⟩).2 ?_⟩
      refine ⟨rfl, by rintro r ⟨⟩, ⟨fun p hp => ?_, by rw [h2]; rintro id p ⟨⟩⟩, .inr (.inr ?_)⟩
      · rw [h3] at hp
        cases hp
        exact ⟨Ex.pair 4, by simp [PreKeyRec.new, PreKeyRec.keyPair, newKeyPair]⟩
      · rw [PubKey.number, h1]
        decide +kernel
    · simp at h
  · simp at h

end Verif
