import Verif.Spec.Damaged
import Verif.Proofs.Failures
import Verif.Proofs.Encoding
import Verif.Proofs.Reading

/-!
# Helper lemmas for records of any content
-/

namespace Verif

theorem newChainKey_no_panic (k : Bytes) (i : UInt32) : newChainKey k i ≠ .panic := by unfold newChainKey; split <;> simp
theorem newRootKey_no_panic (k : Bytes) : newRootKey k ≠ .panic := by unfold newRootKey; split <;> simp
theorem newMessageKeys_no_panic (a b c : Bytes) (i : UInt32) : newMessageKeys a b c i ≠ .panic := by
  unfold newMessageKeys; (repeat' split) <;> simp
theorem messageMac_no_panic (C : Crypto) (k : Bytes) (p q : PubKey) (m : Bytes) : messageMac C k p q m ≠ .panic := by
  unfold messageMac; split <;> simp
theorem SState.unmarshal_no_panic (b : Bytes) : SState.unmarshal b ≠ .panic := Res.ofOption_ne_panic _ _

theorem SState.remoteIdentityKey_no_panic (s : SState) : s.remoteIdentityKey ≠ .panic := by
  unfold SState.remoteIdentityKey
  split
  · simp
  · exact Res.bind_no_panic (newIdentityKey_ne_panic _) fun _ _ => by simp

theorem SState.senderChainKey_no_panic (s : SState) : s.senderChainKey ≠ .panic := by
  unfold SState.senderChainKey
  split
  · simp
  · split
    · simp
    · exact newChainKey_no_panic _ _

theorem SState.senderRatchetKey_no_panic (s : SState) : s.senderRatchetKey ≠ .panic := by
  unfold SState.senderRatchetKey
  split
  · simp
  · exact newPublicKey_no_panic _

theorem SState.senderRatchetPrivateKey_no_panic (s : SState) : s.senderRatchetPrivateKey ≠ .panic := by
  unfold SState.senderRatchetPrivateKey
  split
  · simp
  · exact newPrivateKey_no_panic _

theorem SState.unacknowledged_no_panic (s : SState) : s.unacknowledgedPreKeyMessages ≠ .panic := by
  unfold SState.unacknowledgedPreKeyMessages
  split
  · simp
  · exact Res.bind_no_panic (newPublicKey_no_panic _) fun _ _ => by simp

theorem SState.receiverChainKey_no_panic (s : SState) (k : PubKey) : s.receiverChainKey k ≠ .panic := by
  unfold SState.receiverChainKey
  split
  · simp
  · exact Res.bind_no_panic (newChainKey_no_panic _ _) fun _ _ => by simp

theorem SState.takeMessageKeys_no_panic (s : SState) (k : PubKey) (n : UInt32) : s.takeMessageKeys k n ≠ .panic := by
  unfold SState.takeMessageKeys
  split
  · simp
  · split
    · simp
    · exact Res.bind_no_panic (newMessageKeys_no_panic _ _ _ _) fun _ _ => by simp

theorem SState.setMessageKeys_no_panic (s : SState) (k : PubKey) (mk : MessageKeys) : s.setMessageKeys k mk ≠ .panic := by
  unfold SState.setMessageKeys; split <;> simp

theorem SState.setReceiverChainKey_no_panic (s : SState) (k : PubKey) (c : ChainKey) : s.setReceiverChainKey k c ≠ .panic := by
  unfold SState.setReceiverChainKey; split <;> simp

theorem SState.sessionWithSelf_no_panic (s : SState) : s.sessionWithSelf ≠ .panic := by
  unfold SState.sessionWithSelf
  refine Res.bind_no_panic s.remoteIdentityKey_no_panic fun o _ => ?_
  cases o with
  | none => simp
  | some k => exact Res.bind_no_panic (newIdentityKey_ne_panic _) fun _ _ => by simp

theorem encryptState_no_panic (C : Crypto) (s : SState) (pt : Bytes) : encryptState C s pt ≠ .panic := by
  unfold encryptState
  refine Res.bind_no_panic s.senderChainKey_no_panic fun ck _ => ?_
  refine Res.bind_no_panic s.senderRatchetKey_no_panic fun eph _ => ?_
  refine Res.bind_no_panic (newIdentityKey_ne_panic _) fun lk _ => ?_
  refine Res.bind_no_panic s.remoteIdentityKey_no_panic fun o _ => ?_
  cases o with
  | none => simp
  | some rk =>
    refine Res.bind_no_panic (cbcEncrypt_no_panic _ _ _ _) fun ct _ => ?_
    refine Res.bind_no_panic ?_ fun msg _ => ?_
    · unfold newSignal
      exact Res.bind_no_panic (messageMac_no_panic _ _ _ _ _) fun _ _ => by simp
    refine Res.bind_no_panic s.unacknowledged_no_panic fun items _ => ?_
    simp

theorem lift_no_panic {σ α} {x : Res α} {s : σ} (h : x ≠ .panic) : (M.lift x s).1 ≠ .panic := by rw [M.lift_run]; exact h

theorem chainKeyFor_no_panic (C : Crypto) (s : SState) (k : PubKey) (rd : Bytes) : (chainKeyFor C s k rd).1 ≠ .panic := by
  unfold chainKeyFor
  refine bind_no_panic (lift_no_panic (s.receiverChainKey_no_panic k)) fun o rd1 _ => ?_
  cases o with
  | some c => simp
  | none =>
    refine bind_no_panic (lift_no_panic (newRootKey_no_panic _)) fun _ _ _ => ?_
    refine bind_no_panic (lift_no_panic s.senderRatchetPrivateKey_no_panic) fun _ _ _ => ?_
    refine bind_no_panic (lift_no_panic (createChain_no_panic _ _ _ _)) fun ⟨_, _⟩ _ _ => ?_
    refine bind_no_panic (generateKeyPair_no_panic _ _) fun _ _ _ => ?_
    refine bind_no_panic (lift_no_panic (createChain_no_panic _ _ _ _)) fun ⟨_, _⟩ _ _ => ?_
    refine bind_no_panic (lift_no_panic s.senderChainKey_no_panic) fun _ _ _ => ?_
    simp

theorem skipLoop_no_panic (C : Crypto) (k : PubKey) (n : UInt32) (fuel : Nat) (ck : ChainKey) (s : SState) :
    skipLoop C k n fuel ck s ≠ .panic := by
  induction fuel generalizing ck s with
  | zero => simp [skipLoop]
  | succ fuel ih =>
    unfold skipLoop
    split
    · exact Res.bind_no_panic (s.setMessageKeys_no_panic _ _) fun _ _ => ih _ _
    · simp

theorem messageKeysFor_no_panic (C : Crypto) (s : SState) (k : PubKey) (ck : ChainKey) (n : UInt32) : messageKeysFor C s k ck n ≠ .panic := by
  have rest : (do
      let (ck, s) ← skipLoop C k n (n.toNat - ck.index.toNat) ck s
      let s ← s.setReceiverChainKey k ck
      (pure (ck.messageKeys C, s) : Res (MessageKeys × SState))) ≠ .panic :=
    Res.bind_no_panic (skipLoop_no_panic _ _ _ _ _ _) fun ⟨_, _⟩ _ =>
      Res.bind_no_panic (SState.setReceiverChainKey_no_panic _ _ _) fun _ _ => by simp
  unfold messageKeysFor
  split
  · refine Res.bind_no_panic (s.takeMessageKeys_no_panic _ _) fun ⟨o, _⟩ _ => ?_
    cases o <;> simp
  · simp only
    split
    · refine Res.bind_no_panic s.sessionWithSelf_no_panic fun b _ => ?_
      cases b with
      | false => simp
      | true => exact rest
    · exact rest

theorem decryptMessageSession_no_panic (C : Crypto) (s : SState) {m : Signal} (hm : 8 ≤ m.serialized.length) (rd : Bytes) :
    (decryptMessageSession C s m rd).1 ≠ .panic := by
  unfold decryptMessageSession
  generalize hsc : s.senderChain = sc
  rcases sc with _ | c
  · simp
  simp only
  split
  · simp
  refine bind_no_panic (chainKeyFor_no_panic _ _ _ _) fun ⟨ck, s1⟩ rd1 _ => ?_
  refine lift_no_panic ?_
  refine Res.bind_no_panic (messageKeysFor_no_panic _ _ _ _ _) fun ⟨mk, s2⟩ _ => ?_
  refine Res.bind_no_panic s2.remoteIdentityKey_no_panic fun o _ => ?_
  cases o with
  | none => simp
  | some rk =>
    refine Res.bind_no_panic (newIdentityKey_ne_panic _) fun lk _ => ?_
    refine Res.bind_no_panic ?_ fun valid _ => ?_
    · unfold Signal.verifyMAC
      rw [if_neg (by omega)]
      exact Res.bind_no_panic (messageMac_no_panic _ _ _ _ _) fun _ _ => by simp
    cases valid with
    | false => simp
    | true => exact Res.bind_no_panic (cbcDecrypt_no_panic _ _ _ _) fun _ _ => by simp

theorem tryPrevious_no_panic' (C : Crypto) {m : Signal} (hm : 8 ≤ m.serialized.length) (l : List SState) (i : Nat)
    (f : Option (Nat × SState × Bytes)) (rd : Bytes) : (tryPrevious C m l i f rd).1 ≠ .panic := by
  induction l generalizing i f rd with
  | nil => simp [tryPrevious]
  | cons s l ih =>
    unfold tryPrevious
    refine bind_no_panic (attempt_no_panic (decryptMessageSession_no_panic C s hm rd)) fun o rd' _ => ?_
    cases o with
    | ok o => obtain ⟨_, _⟩ := o; exact ih _ _ _
    | error er => cases er <;> first | exact ih _ _ _ | simp

theorem parseAll_no_panic (l : List Bytes) : Record.parseAll l ≠ .panic := by
  induction l with
  | nil => simp [Record.parseAll]
  | cons b l ih =>
    unfold Record.parseAll
    exact Res.bind_no_panic (SState.unmarshal_no_panic _) fun _ _ => Res.bind_no_panic ih fun _ _ => by simp

theorem decryptRecord_no_panic (C : Crypto) (r : Record) {m : Signal} (hm : 8 ≤ m.serialized.length) (rd : Bytes) :
    (decryptRecord C r m rd).1 ≠ .panic := by
  have hp : ∀ rd, (decryptPrevious C r m rd).1 ≠ .panic := by
    intro rd
    unfold decryptPrevious
    refine bind_no_panic (lift_no_panic (parseAll_no_panic _)) fun l _ _ => ?_
    refine bind_no_panic (tryPrevious_no_panic' C hm l _ _ _) fun o _ _ => ?_
    cases o with
    | none => simp
    | some o => obtain ⟨_, _, _⟩ := o; simp
  unfold decryptRecord
  cases r.current with
  | none => exact hp rd
  | some s =>
    refine bind_no_panic (attempt_no_panic (decryptMessageSession_no_panic C s hm rd)) fun o rd' _ => ?_
    cases o with
    | ok o => obtain ⟨_, _⟩ := o; simp
    | error er => cases er <;> first | exact hp _ | simp

theorem encrypt_never_panics (E : Env) (a : Address) (pt : Bytes) (w : World) : (encryptMessage E a pt w).1 ≠ .panic := by
  unfold encryptMessage
  refine bind_no_panic (storeCall_no_panic _ _) fun o w1 _ => ?_
  cases o with
  | none => simp
  | some r =>
    simp only
    cases r.current with
    | none => simp
    | some s =>
      refine bind_no_panic (lift_no_panic (encryptState_no_panic _ _ _)) fun ⟨msg, s', k⟩ _ _ => ?_
      refine bind_no_panic (by rw [touch_run]; simp) fun _ _ _ => ?_
      refine bind_no_panic (storeCall_no_panic _ _) fun t _ _ => ?_
      split
      · refine bind_no_panic (storeCall_no_panic _ _) fun _ _ _ => ?_
        refine bind_no_panic (storeCall_no_panic _ _) fun _ _ _ => ?_
        simp
      · simp

theorem decryptSignal_never_panics (E : Env) (a : Address) {m : Signal} (hm : 8 ≤ m.serialized.length) (w : World) :
    (decryptSignal E a m w).1 ≠ .panic := by
  unfold decryptSignal
  refine bind_no_panic (storeCall_no_panic _ _) fun o w1 _ => ?_
  cases o with
  | none => simp
  | some r =>
    refine bind_no_panic (attempt_no_panic (by rw [withRand_run]; exact decryptRecord_no_panic _ _ hm _)) fun o w2 _ => ?_
    have tail : ∀ (pt : Option Bytes) (r : Record), ((do
        touch E a true r
        match r.current with
        | none => (M.throw .mustHaveState : M World (Option Bytes))
        | some state =>
          match state.remoteIdentityKey with
          | .ok (some theirIdentityKey) => do
            let trusted ← isTrusted E a theirIdentityKey .receiving
            if trusted then do
              storeIdentity a theirIdentityKey
              storeSession a r
              return pt
            else M.throw (.untrustedIdentity a)
          | .panic => M.panic
          | _ => M.throw .mustHaveIdentity) w2).1 ≠ .panic := by
      intro pt r
      refine bind_no_panic (by rw [touch_run]; simp) fun _ w3 _ => ?_
      cases r.current with
      | none => simp
      | some st =>
        simp only
        cases hk : st.remoteIdentityKey with
        | panic => exact absurd hk st.remoteIdentityKey_no_panic
        | err e => simp
        | ok o =>
          cases o with
          | none => simp
          | some k =>
            refine bind_no_panic (storeCall_no_panic _ _) fun b w4 _ => ?_
            cases b with
            | false => simp
            | true =>
              simp only [if_true]
              refine bind_no_panic (storeCall_no_panic _ _) fun _ _ _ => ?_
              refine bind_no_panic (storeCall_no_panic _ _) fun _ _ _ => ?_
              simp
    cases o with
    | ok o => exact tail _ _
    | error e => exact tail _ _

theorem newPublicKey_iff (b : Bytes) (k : PubKey) : newPublicKey b = .ok k ↔ BeginsWithKey b ∧ b.take 33 = k.bytes := by
  unfold newPublicKey newDJBPublicKey BeginsWithKey
  by_cases hl : b.length < 1 + 32
  · simp only [hl, if_true]
    constructor
    · intro h; cases h
    · rintro ⟨⟨h, _⟩, _⟩; omega
  by_cases hh : b.head? = some 5
  · cases b with
    | nil => simp at hl
    | cons x b =>
      simp only [List.head?_cons, Option.some.injEq] at hh
      subst hh
      simp only [List.length_cons] at hl
      simp only [List.length_cons, if_neg hl, List.head?_cons, if_true, List.drop_succ_cons, List.drop_zero, and_true,
        List.take_succ_cons, PubKey.bytes, List.cons.injEq, true_and]
      rw [dif_pos (by rw [List.length_take]; omega)]
      simp only [Res.ok.injEq]
      constructor
      · rintro rfl; exact ⟨by omega, rfl⟩
      · rintro ⟨_, h⟩
        obtain ⟨k, hk⟩ := k
        simp only at h
        subst h
        rfl
  · simp only [hl, hh, if_false]
    constructor
    · intro h; cases h
    · rintro ⟨⟨_, h⟩, _⟩; exact h.elim

theorem newPublicKey_exists {b : Bytes} (h : BeginsWithKey b) : ∃ k, newPublicKey b = .ok k := by
  obtain ⟨hl, hh⟩ := h
  cases b with
  | nil => simp at hl
  | cons x b =>
    simp only [List.head?_cons, Option.some.injEq] at hh
    subst hh
    simp only [List.length_cons] at hl
    exact ⟨⟨b.take 32, by rw [List.length_take]; omega⟩, (newPublicKey_iff _ _).2 ⟨⟨by simp only [List.length_cons]; omega, rfl⟩, rfl⟩⟩

theorem remoteIdentityKey_iff (s : SState) (k : PubKey) :
    s.remoteIdentityKey = .ok (some k) ↔ BeginsWithKey s.remoteIdentityPublic ∧ s.remoteIdentityPublic.take 33 = k.bytes := by
  rw [← newPublicKey_iff]
  unfold SState.remoteIdentityKey newIdentityKey
  split
  · rename_i h
    have : s.remoteIdentityPublic = [] := List.length_eq_zero_iff.1 h
    rw [this]
    constructor <;> intro h <;> cases h
  · simp [Res.bind_eq_ok]

theorem encryptState_sendable {C : Crypto} {s : SState} {pt : Bytes} {x : Ciphertext × SState × PubKey} (h : encryptState C s pt = .ok x) :
    s.Sendable ∧ s.remoteIdentityKey = .ok (some x.2.2) := by
  unfold encryptState at h
  simp only [Res.bind_eq_ok] at h
  obtain ⟨ck, h1, eph, h2, lk, h3, o, h4, h⟩ := h
  cases o with
  | none => simp at h
  | some rk =>
    simp only [Res.bind_eq_ok] at h
    obtain ⟨ct, h5, msg, h6, items, h7, h⟩ := h
    simp only [Res.pure_eq, Res.ok.injEq] at h
    subst h
    refine ⟨⟨?_, ((newPublicKey_iff _ _).1 h3).1, ((remoteIdentityKey_iff _ _).1 h4).1, fun p hp => ?_⟩, h4⟩
    · unfold SState.senderChainKey at h1
      unfold SState.senderRatchetKey at h2
      cases hc : s.senderChain with
      | none => rw [hc] at h1; simp at h1
      | some c =>
        rw [hc] at h1 h2
        simp only at h1 h2
        cases hk : c.chainKey with
        | none => rw [hk] at h1; simp at h1
        | some k =>
          rw [hk] at h1
          simp only [newChainKey] at h1
          refine ⟨c, k, rfl, hk, ?_, ((newPublicKey_iff _ _).1 h2).1⟩
          split at h1
          · cases h1
          · rename_i h; exact Decidable.not_not.1 h
    · unfold SState.unacknowledgedPreKeyMessages at h7
      rw [hp] at h7
      simp only [Res.bind_eq_ok] at h7
      obtain ⟨k, hk, _⟩ := h7
      exact ((newPublicKey_iff _ _).1 hk).1

theorem encryptState_of_sendable (C : Crypto) {s : SState} (h : s.Sendable) (pt : Bytes) : ∃ x, encryptState C s pt = .ok x := by
  obtain ⟨c, k, hc, hk, hl, hr⟩ := h.chain
  obtain ⟨eph, h2⟩ := newPublicKey_exists hr
  obtain ⟨lk, h3⟩ := newPublicKey_exists h.us
  obtain ⟨rk, h4⟩ := newPublicKey_exists h.them
  have h4' := (remoteIdentityKey_iff s rk).2 ((newPublicKey_iff _ _).1 h4)
  have h1 : s.senderChainKey = .ok ⟨k.key, k.index⟩ := by simp [SState.senderChainKey, hc, hk, newChainKey, hl]
  have h2' : s.senderRatchetKey = .ok eph := by simp [SState.senderRatchetKey, hc, h2]
  obtain ⟨items, h7⟩ : ∃ o, s.unacknowledgedPreKeyMessages = .ok o := by
    unfold SState.unacknowledgedPreKeyMessages
    cases hp : s.pendingPreKey with
    | none => exact ⟨_, rfl⟩
    | some p =>
      obtain ⟨bk, hb⟩ := newPublicKey_exists (h.pending p hp)
      simp [hb]
  have hlen := messageKeys_lengths C ⟨k.key, k.index⟩
  obtain ⟨ct, h5, _⟩ := cbcEncrypt_ok C ((⟨k.key, k.index⟩ : ChainKey).messageKeys C).cipherKey ((⟨k.key, k.index⟩ : ChainKey).messageKeys C).iv pt
    (by simp [aesKeyOk, hlen.1]) hlen.2.2
  unfold encryptState
  rw [h1]
  simp only [Res.bind_ok]
  rw [h2']
  simp only [Res.bind_ok, SState.localIdentityKey, newIdentityKey]
  rw [h3]
  simp only [Res.bind_ok]
  rw [h4']
  simp only [Res.bind_ok]
  rw [h5]
  simp only [Res.bind_ok, newSignal, messageMac]
  rw [if_neg (by rw [hlen.2.1]; simp)]
  simp only [Res.bind_ok]
  rw [h7]
  exact ⟨_, rfl⟩

theorem parseAll_iff (l : List Bytes) : (∃ ss, Record.parseAll l = .ok ss) ↔ ∀ b ∈ l, ∃ s, SState.unmarshal b = .ok s := by
  induction l with
  | nil => simp [Record.parseAll]
  | cons b l ih =>
    unfold Record.parseAll
    simp only [List.mem_cons, forall_eq_or_imp, ← ih]
    constructor
    · rintro ⟨ss, h⟩
      simp only [Res.bind_eq_ok] at h
      obtain ⟨s, h1, ss', h2, _⟩ := h
      exact ⟨⟨s, h1⟩, ⟨ss', h2⟩⟩
    · rintro ⟨⟨s, h1⟩, ⟨ss, h2⟩⟩
      rw [h1, h2]
      exact ⟨_, rfl⟩

theorem archived_mem {l : List Bytes} {ss : List SState} (h : Record.parseAll l = .ok ss) (s : SState) :
    s ∈ ss ↔ ∃ b ∈ l, SState.unmarshal b = .ok s := by
  induction l generalizing ss with
  | nil => simp [Record.parseAll] at h; subst h; simp
  | cons b l ih =>
    unfold Record.parseAll at h
    simp only [Res.bind_eq_ok, Res.pure_eq, Res.ok.injEq] at h
    obtain ⟨t, h1, ts, h2, rfl⟩ := h
    simp only [List.mem_cons, ih h2, exists_eq_or_imp, h1, Res.ok.injEq]
    constructor
    · rintro (rfl | h)
      · exact .inl rfl
      · exact .inr h
    · rintro (rfl | h)
      · exact .inl rfl
      · exact .inr h

theorem hasSessionState_eq (r : Record) (v : UInt32) (k : Bytes) :
    r.hasSessionState v k = if (r.current.any fun s => v == s.version && k == s.aliceBaseKey) = true then .ok true else
      r.previousStates >>= fun prev => pure (prev.any fun s => v == s.version && k == s.aliceBaseKey) := by
  unfold Record.hasSessionState
  cases r.current <;> rfl

/-- The record has no session with this base key, and says so, exactly if no session of it has the key and the archive parses. -/
theorem hasSessionState_false_iff (r : Record) (v : UInt32) (k : PubKey) :
    r.hasSessionState v k.bytes = .ok false ↔ ¬ r.Knows v k ∧ r.ArchiveParses := by
  rw [hasSessionState_eq]
  unfold Record.Knows Record.ArchiveParses
  have hcur : (r.current.any fun s => v == s.version && k.bytes == s.aliceBaseKey) = true ↔
      ∃ s, r.current = some s ∧ s.version = v ∧ s.aliceBaseKey = k.bytes := by
    cases r.current with
    | none => simp
    | some s =>
      simp only [Option.any_some, Bool.and_eq_true, beq_iff_eq, Option.some.injEq]
      constructor
      · rintro ⟨h1, h2⟩; exact ⟨s, rfl, h1.symm, h2.symm⟩
      · rintro ⟨_, rfl, h1, h2⟩; exact ⟨h1.symm, h2.symm⟩
  by_cases hc : ∃ s, r.current = some s ∧ s.version = v ∧ s.aliceBaseKey = k.bytes
  · rw [if_pos (hcur.2 hc)]
    obtain ⟨s, h1, h2⟩ := hc
    constructor
    · intro h; cases h
    · rintro ⟨h, _⟩; exact absurd ⟨s, .inl h1, h2⟩ h
  · rw [if_neg (fun h => hc (hcur.1 h))]
    constructor
    · intro h
      simp only [Res.bind_eq_ok, Res.pure_eq, Res.ok.injEq] at h
      obtain ⟨ss, h1, h2⟩ := h
      refine ⟨?_, (parseAll_iff _).1 ⟨ss, h1⟩⟩
      rintro ⟨s, hs | ⟨b, hb, hu⟩, h3, h4⟩
      · exact hc ⟨s, hs, h3, h4⟩
      · have := (archived_mem h1 s).2 ⟨b, hb, hu⟩
        rw [List.any_eq_false] at h2
        have := h2 s this
        simp [h3, h4] at this
    · rintro ⟨h1, h2⟩
      obtain ⟨ss, h3⟩ := (parseAll_iff _).2 h2
      simp only [Record.previousStates, h3, Res.bind_ok, Res.pure_eq, Res.ok.injEq]
      rw [List.any_eq_false]
      intro s hs h
      simp only [Bool.and_eq_true, beq_iff_eq] at h
      obtain ⟨b, hb, hu⟩ := (archived_mem h3 s).1 hs
      exact h1 ⟨s, .inr ⟨b, hb, hu⟩, h.1.symm, h.2.symm⟩

theorem hasSessionState_no_panic (r : Record) (v : UInt32) (k : Bytes) : r.hasSessionState v k ≠ .panic := by
  rw [hasSessionState_eq]
  split
  · simp
  · exact Res.bind_no_panic (parseAll_no_panic _) fun _ _ => by simp

theorem readable_of_loadsPair {m : UInt32 → Option PreKeyRec} {id : UInt32} {o : Option KeyPair} (h : LoadsPair m id o) (p : PreKeyRec)
    (hp : m id = some p) : ∃ k, p.keyPair = .ok k := by
  rcases h with ⟨h, _⟩ | ⟨p', k', h, h', _⟩
  · rw [hp] at h; cases h
  · rw [hp] at h; cases h; exact ⟨k', h'⟩

theorem preKey_panic_only {E : Env} {w : World} {a : Address} {m : PreKeyMsg} (hm : 8 ≤ m.message.serialized.length)
    (h : (decryptMessage E a (.preKey m) w).1 = .panic) :
    E.trusted w.known a m.identityKey .receiving = true ∧
    ((w.sessions a).getD {}).hasSessionState m.version.toUInt32 m.baseKey.bytes = .ok false ∧ m.KeysReadable w ∧ ¬ m.Acceptable E.C w := by
  refine Classical.byContradiction fun hn => ?_
  refine absurd h ?_
  simp only [decryptMessage]
  refine bind_no_panic ?_ (by simp)
  unfold decryptPreKey
  refine storeCall_bind (fun r _ => r ≠ .panic) (fun fs hfs => ?_) (fun _ _ => by simp) (fun _ _ => by simp)
  simp only
  refine bind_no_panic ?_ fun x w1 hx => ?_
  · unfold processPreKey
    refine storeCall_bind (fun r _ => r ≠ .panic) (fun fs1 _ => ?_) (fun _ _ => by simp) (fun _ _ => by simp)
    simp only
    by_cases ht : E.trusted w.known a m.identityKey .receiving = true
    rotate_left
    · rw [if_neg ht]; simp
    rw [if_pos ht]
    refine bind_no_panic ?_ fun _ _ _ => bind_no_panic (storeCall_no_panic _ _) fun _ _ _ => by simp
    unfold processPreKeyV3
    refine bind_no_panic (lift_no_panic (hasSessionState_no_panic _ _ _)) fun found w2 hw2 => ?_
    rw [M.lift_run] at hw2
    have e2 : w2 = { w with faults := fs1 } := (congrArg Prod.snd hw2).symm
    have e1 := congrArg Prod.fst hw2
    subst e2
    simp only at e1
    cases found with
    | true => simp
    | false =>
      simp only [Bool.false_eq_true, if_false]
      have hlast : ∀ signed oneTime, LoadsPair w.signedPreKeys m.signedPreKeyID signed →
          (match m.preKeyID with | none => oneTime = none | some id => LoadsPair w.preKeys id oneTime) →
          (orPanic (initializeBobSession E.C ⟨w.identity, signed, oneTime, signed, m.identityKey, m.baseKey⟩)) ≠ .panic := by
        intro signed oneTime hs ho
        have hr : m.KeysReadable w := by
          refine ⟨fun p hp => readable_of_loadsPair hs p hp, fun id p hid hp => ?_⟩
          rw [hid] at ho
          exact readable_of_loadsPair ho p hp
        have ha : m.Acceptable E.C w := Classical.byContradiction fun ha => hn ⟨ht, e1, hr, ha⟩
        obtain ⟨s, hi⟩ := initializeBob_some ha hs ho
        rw [hi]
        simp [orPanic]
      refine load_bind_no_panic fun fs2 signed hs => ?_
      cases hid : m.preKeyID with
      | none =>
        simp only [hid] at hlast
        refine bind_no_panic (by simp) fun o w3 hw3 => ?_
        rw [M.pure_run] at hw3
        cases hw3
        refine bind_no_panic (by rw [M.get_run]; simp) fun v w4 hw4 => ?_
        rw [M.get_run] at hw4
        cases hw4
        refine bind_no_panic (lift_no_panic (hlast signed none hs rfl)) fun s w5 _ => ?_
        refine bind_no_panic (by rw [touch_run]; simp) fun _ _ _ => ?_
        simp
      | some i =>
        simp only [hid] at hlast
        refine load_bind_no_panic fun fs3 one ho => ?_
        refine bind_no_panic (by rw [M.get_run]; simp) fun v w4 hw4 => ?_
        rw [M.get_run] at hw4
        cases hw4
        refine bind_no_panic (lift_no_panic (hlast signed one hs ho)) fun s w5 _ => ?_
        refine bind_no_panic (by rw [touch_run]; simp) fun _ _ _ => ?_
        simp
  · obtain ⟨id, rec⟩ := x
    refine bind_no_panic ?_ fun y w2 _ => ?_
    · rw [withRand_run]; exact decryptRecord_no_panic _ _ hm _
    obtain ⟨p, r⟩ := y
    refine bind_no_panic (by rw [touch_run]; simp) fun _ w3 _ => ?_
    refine bind_no_panic (storeCall_no_panic _ _) fun _ w4 _ => ?_
    cases id with
    | none => simp
    | some i => exact bind_no_panic (storeCall_no_panic _ _) fun _ _ _ => by simp

theorem preKey_panics_any {E : Env} {w : World} (hf : w.faults = []) {a : Address} {m : PreKeyMsg}
    (ht : E.trusted w.known a m.identityKey .receiving = true)
    (hh : ((w.sessions a).getD {}).hasSessionState m.version.toUInt32 m.baseKey.bytes = .ok false)
    (hr : m.KeysReadable w) (ha : ¬ m.Acceptable E.C w) : (decryptMessage E a (.preKey m) w).1 = .panic := by
  obtain ⟨signed, hs⟩ := loadsPair_of_readable hr.1
  obtain ⟨oneTime, ho⟩ : ∃ o : Option KeyPair, match m.preKeyID with | none => o = none | some id => LoadsPair w.preKeys id o := by
    cases hid : m.preKeyID with
    | none => exact ⟨none, rfl⟩
    | some id => exact loadsPair_of_readable fun p hp => hr.2 id p hid hp
  have hi : orPanic (initializeBobSession E.C ⟨w.identity, signed, oneTime, signed, m.identityKey, m.baseKey⟩) = .panic := by
    cases hb : initializeBobSession E.C ⟨w.identity, signed, oneTime, signed, m.identityKey, m.baseKey⟩ with
    | ok s => exact absurd (acceptable_of_initializeBob hs ho hb) ha
    | err e => rfl
    | panic => rfl
  have hv3 : (processPreKeyV3 E a (w.sessions a).isSome ((w.sessions a).getD {}) m w).1 = .panic := by
    unfold processPreKeyV3
    have hl : M.lift (((w.sessions a).getD {}).hasSessionState m.version.toUInt32 m.baseKey.bytes) w = (.ok false, w) := by
      rw [M.lift_run, hh]
    rw [M.bind_ok_run hl]
    simp only [Bool.false_eq_true, if_false]
    have h1 : (loadSignedPreKey m.signedPreKeyID >>= optKeyPair) w = (.ok signed, w) := by
      rw [M.bind_ok_run (x := loadSignedPreKey _) (storeCall_nil _ w hf)]
      exact optKeyPair_run hs w
    rw [M.bind_ok_run h1]
    cases hid : m.preKeyID with
    | none =>
      rw [hid] at ho
      simp only at ho
      subst ho
      simp only
      rw [M.bind_ok_run (M.pure_run _ w), M.bind_ok_run (M.get_run w)]
      refine bind_panic ?_
      rw [M.lift_run]
      exact hi
    | some i =>
      rw [hid] at ho
      simp only at ho
      have h2 : (loadPreKey i >>= optKeyPair) w = (.ok oneTime, w) := by
        rw [M.bind_ok_run (x := loadPreKey _) (storeCall_nil _ w hf)]
        exact optKeyPair_run ho w
      simp only
      rw [M.bind_ok_run h2, M.bind_ok_run (M.get_run w)]
      refine bind_panic ?_
      rw [M.lift_run]
      exact hi
  simp only [decryptMessage]
  refine bind_panic ?_
  unfold decryptPreKey
  rw [M.bind_ok_run (x := loadSession a) (storeCall_nil _ w hf)]
  simp only
  refine bind_panic ?_
  unfold processPreKey
  rw [M.bind_ok_run (x := isTrusted E a _ .receiving) (storeCall_nil _ w hf)]
  simp only [ht, if_true]
  exact bind_panic hv3

end Verif
