import Verif.Proofs.Cipher
import Verif.Spec.Example

/-!
# What the session operations leave in the stores: C05, C06, C08, C09, C10, C13, C17, C54, C57
-/

namespace Verif

open Ex

/-! ## C05 -/

/-- C05 does not hold for the library's own in-memory store: a forged pre-key message replaces the current session,
although DecryptMessage returns an error and no store call fails. -/
theorem C05_failed_decrypt_keeps_session_false :
    ∃ (E : Env) (w : World) (a : Address) (c : Ciphertext) (e : Err), E.aliased = true ∧ Reachable E w ∧ w.faults = [] ∧
      (decryptMessage E a c w).1 = .err e ∧ (decryptMessage E a c w).2.sessions a ≠ w.sessions a :=
  ⟨sharing, (decryptMessage sharing alice m1 bob0).2, alice, withBaseKey (pair 7).pub (badMAC m1), .decryptionFailed, rfl,
    Reachable.decrypt (.start fun _ => rfl) _ _, by decide +kernel, by decide +kernel, by decide +kernel⟩

/-- C05 does not hold for a copying store either when the pre-key store fails: the session is written before the
one-time pre-key is deleted. -/
theorem C05_failed_delete_false :
    ∃ (E : Env) (w : World) (a : Address) (c : Ciphertext), E.aliased = false ∧ Reachable E w ∧ w.CleanFailures ∧
      (decryptMessage E a c w).1 = .err .store ∧ (decryptMessage E a c w).2.sessions a ≠ w.sessions a :=
  ⟨copying, { bob0 with faults := List.replicate 6 .none ++ [.before] }, alice, m1, rfl, .start fun _ => rfl,
    by unfold World.CleanFailures; decide +kernel, by decide +kernel, by decide +kernel⟩

/-- C05, for copying stores that do not fail: when DecryptMessage does not return a plaintext, no session of any
address has changed. Missing from the full claim: the in-memory store, and failing stores (next theorem). -/
theorem C05_failed_decrypt_keeps_session_partial (E : Env) (hE : E.aliased = false) (w : World) (hw : w.Reliable)
    (a : Address) (c : Ciphertext) (h : ∀ p, (decryptMessage E a c w).1 ≠ .ok (some p)) :
    (decryptMessage E a c w).2.sessions = w.sessions :=
  decrypt_unchanged E hE a c w hw h

/-- C05, for copying stores that may fail at any call, before or after taking effect: the stored sessions are either
unchanged, or exactly those that the same call leaves when nothing fails, in which case that call returns a plaintext.
There is never a half-written session. -/
theorem C05_all_or_nothing_partial (E : Env) (hE : E.aliased = false) (w : World) (a : Address) (c : Ciphertext) :
    (decryptMessage E a c w).2.sessions = w.sessions ∨
    ∃ p, (decryptMessage E a c w.calm).1 = .ok (some p) ∧
      (decryptMessage E a c w).2.sessions = (decryptMessage E a c w.calm).2.sessions := by
  cases decrypt_stored E hE a c w with
  | nothing h => exact .inl h
  | all p h0 h => exact .inr ⟨p, h0, h⟩

/-- C05, for both kinds of store and any failure: a Signal message that is not decrypted but still reported as a
success (nil plaintext, see C04) has changed no session. -/
theorem C05_nil_plaintext_partial (E : Env) (w : World) (a : Address) (c : Ciphertext)
    (h : (decryptMessage E a c w).1 = .ok none) : (decryptMessage E a c w).2.sessions = w.sessions := by
  cases c with
  | preKey m =>
    rw [decryptMessage_preKey] at h
    cases hr : (decryptPreKey E a m w).1 <;> simp [hr] at h
  | signal m =>
    simp only [decryptMessage] at h ⊢
    have ho := signal_outcome E a m w
    generalize decryptSignal E a m w = x at ho h ⊢
    obtain ⟨r, w'⟩ := x
    simp only at ho h ⊢
    subst h
    cases ho with
    | early _ fs rd hr => exact absurd rfl (hr none)
    | stopped _ fs hr => exact absurd rfl (hr none)
    | done fs rec rec' pt rd st k h1 h2 h3 h4 ht =>
      cases h2 with
      | failed e _ hd => exact upd_self _ _ _ h1
  | senderKey m => simp [decryptMessage] at h
  | plaintext m => simp [decryptMessage] at h

example : bob2.Reliable ∧ (∀ p, (decryptMessage copying alice (badMAC m2) bob2).1 ≠ .ok (some p)) := by
  refine ⟨by unfold World.Reliable; decide +kernel, ?_⟩
  have h : (decryptMessage copying alice (badMAC m2) bob2).1 = .err .decryptionFailed := by decide +kernel
  intro p; rw [h]; simp

example : (decryptMessage copying alice (badMAC m3) bob2).1 = .ok none := by decide +kernel

/-! ## C06 -/

/-- C06 does not hold: a forged pre-key message from an unknown address is rejected, but the identity key named in it
is stored. -/
theorem C06_failed_decrypt_keeps_trust_false :
    ∃ (E : Env) (w : World) (a : Address) (c : Ciphertext) (e : Err), E.aliased = false ∧ Reachable E w ∧ w.faults = [] ∧
      (decryptMessage E a c w).1 = .err e ∧ w.known a = none ∧ (decryptMessage E a c w).2.known a ≠ none :=
  ⟨copying, bob0, alice, withIdentity (pair 7).pub (badMAC m1), .decryptionFailed, rfl, bob0_reachable, rfl,
    by decide +kernel, rfl, by decide +kernel⟩

/-- C06, with the in-memory identity store's trust rule: once an identity key is recorded for an address, no history of
session operations, with any messages, outcomes and store failures, changes it. Missing from the full claim: for an
address without a recorded key a failed call may record one. -/
theorem C06_known_identity_is_kept_partial (E : Env) (hE : E.trusted = tofu) (cs : List Call) (w : World) (a : Address)
    (k : PubKey) (h : w.known a = some k) : (after E cs w).known a = some k := by
  induction cs generalizing w with
  | nil => exact h
  | cons c cs ih =>
    refine ih (w := (c.run E w).2) ?_
    rcases known_after E w c with hk | ⟨b, k', d, ht, hk⟩
    · rw [hk]; exact h
    · rw [hk]
      by_cases hb : a = b
      · subst hb
        rw [hE] at ht
        simp only [tofu, h, PubKey.equal_iff] at ht
        rw [upd_same, ht]
      · rw [upd_ne _ _ hb]; exact h

example : bob1.known alice = some (pair 1).pub := by decide +kernel

/-! ## C08 -/

/-- C08 does not hold for the in-memory store: when the identity store refuses the recipient, the stored chain has
advanced although EncryptMessage returns an error. -/
theorem C08_failed_encrypt_keeps_session_false :
    ∃ (E : Env) (w : World) (a : Address) (pt : Bytes) (e : Err), E.aliased = true ∧ Reachable E w ∧ w.faults = [] ∧
      (encryptMessage E a pt w).1 = .err e ∧ (encryptMessage E a pt w).2.sessions a ≠ w.sessions a :=
  ⟨⟨toy, true, fun known a _ _ => (known a).isNone⟩,
    (processPreKeyBundle ⟨toy, true, fun known a _ _ => (known a).isNone⟩ bob bundle alice0).2, bob, [1], .untrustedIdentity bob, rfl,
    Reachable.bundle (.start fun _ => rfl) _ _, by decide +kernel, by decide +kernel, by decide +kernel⟩

/-- C08, for copying stores whose failing calls have no effect: when EncryptMessage fails, no session has changed.
Missing from the full claim: the in-memory store. -/
theorem C08_failed_encrypt_keeps_session_partial (E : Env) (hE : E.aliased = false) (w : World) (hw : w.CleanFailures)
    (a : Address) (pt : Bytes) (h : ∀ c, (encryptMessage E a pt w).1 ≠ .ok c) :
    (encryptMessage E a pt w).2.sessions = w.sessions := by
  have ho := encrypt_outcome E a pt w
  generalize encryptMessage E a pt w = x at ho h ⊢
  obtain ⟨r, w'⟩ := x
  simp only at ho h ⊢
  cases ho with
  | early => rfl
  | stopped _ fs hr rec st st' msg k h1 h2 h3 ss kn hs hk =>
    rcases hs with rfl | ⟨_, hf, _⟩
    · exact mid_of_copying hE ..
    · exact absurd hf hw
  | done fs rec st st' msg k h1 h2 h3 ht => exact absurd rfl (h msg)

/-- C08, both kinds of store and every failure: a failed EncryptMessage leaves each stored session either unchanged, or
as a successful encryption of the same plaintext would have left it. -/
theorem C08_all_or_nothing_partial (E : Env) (w : World) (a : Address) (pt : Bytes) :
    (encryptMessage E a pt w).2.sessions = w.sessions ∨
    ∃ rec st st' msg k, w.sessions a = some rec ∧ rec.current = some st ∧ encryptState E.C st pt = .ok (msg, st', k) ∧
      (encryptMessage E a pt w).2.sessions = upd w.sessions a (some { rec with current := some st' }) := by
  have ho := encrypt_outcome E a pt w
  generalize encryptMessage E a pt w = x at ho ⊢
  obtain ⟨r, w'⟩ := x
  simp only at ho ⊢
  cases ho with
  | early => exact .inl rfl
  | stopped _ fs hr rec st st' msg k h1 h2 h3 ss kn hs hk =>
    rcases hs with rfl | ⟨rfl, hf, _⟩
    · unfold mid
      split
      · exact .inr ⟨rec, st, st', msg, k, h1, h2, h3, rfl⟩
      · exact .inl rfl
    · exact .inr ⟨rec, st, st', msg, k, h1, h2, h3, rfl⟩
  | done fs rec st st' msg k h1 h2 h3 ht => exact .inr ⟨rec, st, st', msg, k, h1, h2, h3, rfl⟩

example : World.CleanFailures { alice3 with faults := [.none, .none, .none, .before] } ∧
    (∀ c, (encryptMessage copying bob [1] { alice3 with faults := [.none, .none, .none, .before] }).1 ≠ .ok c) := by
  refine ⟨by unfold World.CleanFailures; decide +kernel, ?_⟩
  have h : (encryptMessage copying bob [1] { alice3 with faults := [.none, .none, .none, .before] }).1 = .err .store := by
    decide +kernel
  intro p; rw [h]; simp

/-! ## C09 -/

/-- C09 for EncryptMessage: a ciphertext is returned only if the identity key of the current session is trusted for
sending. -/
theorem C09_encrypt_only_to_trusted (E : Env) (w : World) (a : Address) (pt : Bytes) (c : Ciphertext)
    (h : (encryptMessage E a pt w).1 = .ok c) : ∃ k, w.peer a = some k ∧ E.trusted w.known a k .sending = true := by
  have ho := encrypt_outcome E a pt w
  generalize encryptMessage E a pt w = x at ho h
  obtain ⟨r, w'⟩ := x
  simp only at ho h
  subst h
  cases ho with
  | early _ fs hr => exact absurd rfl (hr c)
  | stopped _ fs hr => exact absurd rfl (hr c)
  | done fs rec st st' msg k h1 h2 h3 ht =>
    refine ⟨k, ?_, ht⟩
    have hk : st.remoteIdentityKey = .ok (some k) := by
      unfold encryptState at h3
      simp only [Res.bind_eq_ok] at h3
      obtain ⟨ck, _, eph, _, lk, _, o, ho, h3⟩ := h3
      cases o with
      | none => simp at h3
      | some rk =>
        simp only [Res.bind_eq_ok, Res.pure_eq, Res.ok.injEq, Prod.mk.injEq] at h3
        obtain ⟨_, _, _, _, _, _, _, _, rfl⟩ := h3
        exact ho
    simp [World.peer, h1, h2, SState.peer, hk]

/-- C09 for DecryptMessage on Signal messages: a result is returned only if the identity key of the session that is
current afterwards (the one that decrypted the message, see C15) is trusted for receiving. -/
theorem C09_decrypt_signal_only_from_trusted (E : Env) (w : World) (a : Address) (m : Signal) (o : Option Bytes)
    (h : (decryptMessage E a (.signal m) w).1 = .ok o) :
    ∃ k, (decryptMessage E a (.signal m) w).2.peer a = some k ∧ E.trusted w.known a k .receiving = true := by
  simp only [decryptMessage] at h ⊢
  have ho := signal_outcome E a m w
  generalize decryptSignal E a m w = x at ho h ⊢
  obtain ⟨r, w'⟩ := x
  simp only at ho h ⊢
  subst h
  cases ho with
  | early _ fs rd hr => exact absurd rfl (hr o)
  | stopped _ fs hr => exact absurd rfl (hr o)
  | done fs rec rec' pt rd st k h1 h2 h3 h4 ht =>
    exact ⟨k, by simp [World.peer, h3, SState.peer, h4], ht⟩

/-- C09 does not hold for pre-key messages: only the identity key in the envelope is checked, and it need not be the
one of the session that decrypts the message. -/
theorem C09_decrypt_preKey_false :
    ∃ (E : Env) (w : World) (a : Address) (c : Ciphertext) (p : Bytes) (k : PubKey), Reachable E w ∧ w.faults = [] ∧
      (decryptMessage E a c w).1 = .ok (some p) ∧ w.peer a = some k ∧ (decryptMessage E a c w).2.peer a = some k ∧
      E.trusted w.known a k .receiving = false :=
  ⟨⟨toy, false, fun known a k _ => (known a).isNone || decide (k = (pair 9).pub)⟩,
    (decryptMessage ⟨toy, false, fun known a k _ => (known a).isNone || decide (k = (pair 9).pub)⟩ alice m1 bob0).2,
    alice, withIdentity (pair 9).pub m2, [4], (pair 1).pub, Reachable.decrypt (.start fun _ => rfl) _ _, by decide +kernel, by decide +kernel, by decide +kernel, by decide +kernel, by decide +kernel⟩

/-- C09 for pre-key messages, what holds: a plaintext is returned only if the identity key in the envelope is trusted,
and only that key is remembered. Missing: that it is the key of the session used, which is true only of sessions set
up by this very message. -/
theorem C09_decrypt_preKey_partial (E : Env) (w : World) (a : Address) (m : PreKeyMsg) (o : Option Bytes)
    (h : (decryptMessage E a (.preKey m) w).1 = .ok o) :
    E.trusted w.known a m.identityKey .receiving = true ∧
    (decryptMessage E a (.preKey m) w).2.known = upd w.known a (some m.identityKey) := by
  rw [decryptMessage_preKey] at h ⊢
  have ho := preKey_outcome E a m w
  generalize decryptPreKey E a m w = x at ho h ⊢
  obtain ⟨r, w'⟩ := x
  simp only at ho h ⊢
  cases ho with
  | early _ fs hr => cases r with
    | ok p => exact absurd rfl (hr p)
    | err e => simp at h
    | panic => simp at h
  | processed _ fs hr => cases r with
    | ok p => exact absurd rfl (hr p)
    | err e => simp at h
    | panic => simp at h
  | decrypted _ fs hr => cases r with
    | ok p => exact absurd rfl (hr p)
    | err e => simp at h
    | panic => simp at h
  | done fs id rec rec' p rd ht hp hd => exact ⟨ht, rfl⟩

/-! ## C10 -/

/-- C10: ProcessPreKeyBundle succeeds only for a trusted identity key and a signature over the signed pre-key that
verifies under it. -/
theorem C10_bundle_is_authenticated (E : Env) (w : World) (a : Address) (b : Bundle)
    (h : (processPreKeyBundle E a b w).1 = .ok ()) :
    E.trusted w.known a b.identityKey .sending = true ∧
    b.identityKey.verifySignature E.C b.signedPreKeySignature [b.signedPreKeyPublic.bytes] = .ok true := by
  have ho := bundle_outcome E a b w
  generalize processPreKeyBundle E a b w = x at ho h
  obtain ⟨r, w'⟩ := x
  simp only at ho h
  subst h
  cases ho with
  | early _ fs rd hr => exact absurd rfl (hr ())
  | stopped _ fs hr => exact absurd rfl (hr ())
  | done fs s rd ht hv h => exact ⟨ht, hv⟩

/-- C10: otherwise it returns an error, for every kind of store, and neither the sessions nor the identities have
changed. -/
theorem C10_rejected_bundle_changes_nothing (E : Env) (w : World) (a : Address) (b : Bundle)
    (h : ¬ (E.trusted w.known a b.identityKey .sending = true ∧
      b.identityKey.verifySignature E.C b.signedPreKeySignature [b.signedPreKeyPublic.bytes] = .ok true)) :
    (∃ e, (processPreKeyBundle E a b w).1 = .err e) ∧
    (processPreKeyBundle E a b w).2.sessions = w.sessions ∧ (processPreKeyBundle E a b w).2.known = w.known := by
  constructor
  · unfold processPreKeyBundle isTrusted
    refine storeCall_bind (fun r _ => ∃ e, r = .err e) (fun f1 _ => ?_) (fun fs _ => ⟨_, rfl⟩) (fun fs _ => ⟨_, rfl⟩)
    simp only
    by_cases ht : E.trusted w.known a b.identityKey .sending = true
    · rw [if_pos ht]
      have hv : b.identityKey.verifySignature E.C b.signedPreKeySignature [b.signedPreKeyPublic.bytes] ≠ .ok true :=
        fun hv => h ⟨ht, hv⟩
      rw [M.bind_run, M.lift_run]
      have hp : b.identityKey.verifySignature E.C b.signedPreKeySignature [b.signedPreKeyPublic.bytes] ≠ .panic := by
        unfold PubKey.verifySignature
        split
        · simp
        · cases E.C.verify b.identityKey.key [b.signedPreKeyPublic.bytes].flatten b.signedPreKeySignature <;> simp
      cases hr : b.identityKey.verifySignature E.C b.signedPreKeySignature [b.signedPreKeyPublic.bytes] with
      | ok v =>
        cases v with
        | true => exact absurd hr hv
        | false => exact ⟨_, rfl⟩
      | err e => exact ⟨_, rfl⟩
      | panic => exact absurd hr hp
    · rw [if_neg ht]; exact ⟨_, rfl⟩
  · have ho := bundle_outcome E a b w
    generalize processPreKeyBundle E a b w = x at ho ⊢
    obtain ⟨r, w'⟩ := x
    simp only at ho ⊢
    cases ho with
    | early _ fs rd hr => exact ⟨rfl, rfl⟩
    | stopped _ fs hr s rd ht hv => exact absurd ⟨ht, hv⟩ h
    | done fs s rd ht hv => exact absurd ⟨ht, hv⟩ h

example : (processPreKeyBundle copying bob bundle alice0).1 = .ok () := by decide +kernel
example : (processPreKeyBundle copying bob { bundle with signedPreKeyPublic := (pair 8).pub } alice0).1 = .err .badBundleSignature := by
  decide +kernel

/-! ## C13 -/

/-- C13: when a pre-key message that sets up a new session decrypts, the one-time pre-key it names is gone from the
store and all others are still there. -/
theorem C13_success_consumes_the_named_preKey (E : Env) (w : World) (hw : Reachable E w) (a : Address) (m : PreKeyMsg) (p : Bytes)
    (h : (decryptMessage E a (.preKey m) w).1 = .ok (some p))
    (hnew : ∀ r, w.sessions a = some r → ¬ r.Knows m.version.toUInt32 m.baseKey) (id : UInt32) :
    (decryptMessage E a (.preKey m) w).2.preKeys id = if m.preKeyID = some id then none else w.preKeys id := by
  have hfalse : ∀ b, ((w.sessions a).getD {}).hasSessionState m.version.toUInt32 m.baseKey.bytes = .ok b → b = false := by
    intro b hb
    rcases (hw.WF.getD a).hasSessionState m.version.toUInt32 m.baseKey with ⟨hk, _⟩ | ⟨_, hf⟩
    · cases hs : w.sessions a with
      | none =>
        rw [hs] at hk
        obtain ⟨s, hs', _⟩ := hk
        simp [Record.HasState] at hs'
      | some r => rw [hs] at hk; exact absurd hk (hnew r hs)
    · rw [hf] at hb; simpa using hb.symm
  rw [decryptMessage_preKey] at h ⊢
  have ho := preKey_outcome E a m w
  generalize decryptPreKey E a m w = x at ho h ⊢
  obtain ⟨r, w'⟩ := x
  cases r with
  | err e => simp at h
  | panic => simp at h
  | ok q =>
  simp only at ho h ⊢
  cases ho with
  | early _ fs hr => exact absurd rfl (hr q)
  | processed _ fs hr => exact absurd rfl (hr q)
  | decrypted _ fs hr => exact absurd rfl (hr q)
  | done fs id' rec rec' p rd ht hp hd =>
    simp only
    cases hp with
    | found h1 => exact absurd (hfalse _ h1) (by simp)
    | fresh h1 signed oneTime s hs ho hi s' hs' =>
      cases hid : m.preKeyID with
      | none => simp [dropPreKey]
      | some i =>
        simp only [dropPreKey, upd, Option.some.injEq]
        by_cases hi : id = i
        · simp [hi]
        · simp [hi, Ne.symm hi]

/-- C13: when DecryptMessage does not return a plaintext, no pre-key is removed; failing store calls are assumed to have
no effect. -/
theorem C13_failure_consumes_nothing (E : Env) (w : World) (hw : w.CleanFailures) (a : Address) (c : Ciphertext)
    (h : ∀ p, (decryptMessage E a c w).1 ≠ .ok (some p)) : (decryptMessage E a c w).2.preKeys = w.preKeys := by
  cases c with
  | preKey m =>
    rw [decryptMessage_preKey] at h ⊢
    have ho := preKey_outcome E a m w
    generalize decryptPreKey E a m w = x at ho h ⊢
    obtain ⟨r, w'⟩ := x
    simp only at ho h ⊢
    cases ho with
    | early _ fs hr => rfl
    | processed _ fs hr id rec rd ht hp kn hk => rfl
    | decrypted _ fs hr id rec rec' p rd ht hp hd ss pk hs =>
      rcases hs with ⟨_, rfl, _⟩ | ⟨_, rfl, _⟩ | ⟨_, _, hf⟩
      · rfl
      · rfl
      · exact absurd hf hw
    | done fs id rec rec' p rd ht hp hd => exact absurd rfl (h p)
  | signal m =>
    simp only [decryptMessage]
    have ho := signal_outcome E a m w
    generalize decryptSignal E a m w = x at ho ⊢
    obtain ⟨r, w'⟩ := x
    simp only at ho ⊢
    cases ho <;> rfl
  | senderKey m => rfl
  | plaintext m => rfl

/-- C13: with any store failures, the pre-keys afterwards are those before, or those that the same call leaves when
nothing fails. -/
theorem C13_all_or_nothing (E : Env) (w : World) (a : Address) (c : Ciphertext) :
    (decryptMessage E a c w).2.preKeys = w.preKeys ∨
    ∃ p, (decryptMessage E a c w.calm).1 = .ok (some p) ∧
      (decryptMessage E a c w).2.preKeys = (decryptMessage E a c w.calm).2.preKeys := by
  cases c with
  | preKey m =>
    rw [decryptMessage_preKey, decryptMessage_preKey]
    have run : ∀ id rec rec' p rd, E.trusted w.known a m.identityKey .receiving = true →
        Processed E w ((w.sessions a).getD {}) m id rec → decryptRecord E.C rec m.message w.rand = (.ok (p, rec'), rd) → _ :=
      fun id rec rec' p rd ht hp hd => preKey_run (E := E) (a := a) (w := w.calm) rfl ht hp.calm hd
    have ho := preKey_outcome E a m w
    generalize decryptPreKey E a m w = x at ho ⊢
    obtain ⟨r, w'⟩ := x
    simp only at ho ⊢
    cases ho with
    | early _ fs hr => exact .inl rfl
    | processed _ fs hr id rec rd ht hp kn hk => exact .inl rfl
    | decrypted _ fs hr id rec rec' p rd ht hp hd ss pk hs =>
      rcases hs with ⟨_, rfl, _⟩ | ⟨_, rfl, _⟩ | ⟨_, rfl, hf⟩
      · exact .inl rfl
      · exact .inl rfl
      · rw [run id rec rec' p rd ht hp hd]; exact .inr ⟨p, rfl, rfl⟩
    | done fs id rec rec' p rd ht hp hd => rw [run id rec rec' p rd ht hp hd]; exact .inr ⟨p, rfl, rfl⟩
  | signal m =>
    refine .inl ?_
    simp only [decryptMessage]
    have ho := signal_outcome E a m w
    generalize decryptSignal E a m w = x at ho ⊢
    obtain ⟨r, w'⟩ := x
    simp only at ho ⊢
    cases ho <;> rfl
  | senderKey m => exact .inl rfl
  | plaintext m => exact .inl rfl

example : Reachable copying bob0 ∧ (decryptMessage copying alice m1 bob0).1 = .ok (some [1, 2, 3]) ∧ bob0.preKeys 5 ≠ none ∧
    (decryptMessage copying alice m1 bob0).2.preKeys 5 = none := ⟨bob0_reachable, by decide +kernel⟩

/-! ## C57 -/

/-- C57 does not hold: when deleting the one-time pre-key fails, a second delivery of the same message succeeds and the
pre-key stays in the store. -/
theorem C57_retry_deletes_preKey_false :
    ∃ (E : Env) (w : World) (a : Address) (m : PreKeyMsg) (p : Bytes) (id : UInt32), m.preKeyID = some id ∧
      E.aliased = false ∧ Reachable E w ∧ w.CleanFailures ∧ (decryptMessage E a (.preKey m) w).1 = .err .store ∧
      (decryptMessage E a (.preKey m) (decryptMessage E a (.preKey m) w).2.calm).1 = .ok (some p) ∧
      (decryptMessage E a (.preKey m) (decryptMessage E a (.preKey m) w).2.calm).2.preKeys id ≠ none := by
  have hm : ∃ m, m1 = .preKey m ∧ m.preKeyID = some 5 := by
    have : (match m1 with | .preKey m => decide (m.preKeyID = some 5) | _ => false) = true := by decide +kernel
    cases hm : m1 with
    | preKey m => rw [hm] at this; exact ⟨m, rfl, by simpa using this⟩
    | signal m => rw [hm] at this; simp at this
    | senderKey m => rw [hm] at this; simp at this
    | plaintext m => rw [hm] at this; simp at this
  obtain ⟨m, hm, hid⟩ := hm
  refine ⟨copying, { bob0 with faults := List.replicate 6 .none ++ [.before] }, alice, m, [1, 2, 3], 5, hid, rfl, .start fun _ => rfl,
    by unfold World.CleanFailures; decide +kernel, ?_⟩
  rw [← hm]
  decide +kernel

/-- C57, when the first attempt failed before the session was written: a retry that succeeds deletes the pre-key.
Missing: the case where the first attempt wrote the session and then failed to delete the pre-key. -/
theorem C57_retry_deletes_preKey_partial (E : Env) (w : World) (hw : Reachable E w) (a : Address) (m : PreKeyMsg) (p : Bytes) (id : UInt32)
    (hid : m.preKeyID = some id) (hnew : ∀ r, w.sessions a = some r → ¬ r.Knows m.version.toUInt32 m.baseKey)
    (hfirst : (decryptMessage E a (.preKey m) w).2.sessions a = w.sessions a) (rd : Bytes) (fs : List Fault)
    (h : (decryptMessage E a (.preKey m) { (decryptMessage E a (.preKey m) w).2 with rand := rd, faults := fs }).1 = .ok (some p)) :
    (decryptMessage E a (.preKey m) { (decryptMessage E a (.preKey m) w).2 with rand := rd, faults := fs }).2.preKeys id = none := by
  rw [C13_success_consumes_the_named_preKey E _ ((hw.decrypt a (.preKey m)).other rd fs) a m p h (by
    intro r hr; exact hnew r (hfirst ▸ hr)) id, if_pos hid]

example : (decryptMessage copying alice m1 { bob0 with faults := List.replicate 5 .none ++ [.before] }).1 = .err .store ∧
    (decryptMessage copying alice m1 { bob0 with faults := List.replicate 5 .none ++ [.before] }).2.sessions alice = bob0.sessions alice ∧
    (decryptMessage copying alice m1 (decryptMessage copying alice m1 { bob0 with faults := List.replicate 5 .none ++ [.before] }).2.calm).1 =
      .ok (some [1, 2, 3]) := by decide +kernel

/-! ## C17 -/

/-- C17: no call, whatever its arguments, outcome or store failures, touches the session or the remembered identity of
another address. -/
theorem C17_operations_are_isolated (E : Env) (w : World) (c : Call) (b : Address) (h : c.op.address ≠ some b) :
    (c.run E w).2.sessions b = w.sessions b ∧ (c.run E w).2.known b = w.known b := by
  obtain ⟨op, rd, fs⟩ := c
  cases op with
  | encrypt a pt =>
    have hb : b ≠ a := fun hb => h (by simp [Op.address, hb])
    simp only [Call.run]
    have ho := encrypt_outcome E a pt { w with rand := rd, faults := fs }
    generalize encryptMessage E a pt { w with rand := rd, faults := fs } = x at ho ⊢
    obtain ⟨r, w'⟩ := x
    simp only at ho ⊢
    cases ho with
    | early => exact ⟨rfl, rfl⟩
    | stopped _ fs hr rec st st' msg k h1 h2 h3 ss kn hs hk =>
      constructor
      · rcases hs with rfl | ⟨rfl, _⟩
        · exact mid_ne _ hb _ _ _
        · exact upd_ne _ _ hb
      · rcases hk with rfl | ⟨rfl, ht⟩
        · rfl
        · exact upd_ne _ _ hb
    | done fs rec st st' msg k h1 h2 h3 ht => exact ⟨upd_ne _ _ hb, upd_ne _ _ hb⟩
  | decrypt a m =>
    have hb : b ≠ a := fun hb => h (by simp [Op.address, hb])
    simp only [Call.run]
    cases m with
    | preKey m =>
      rw [decryptMessage_preKey]
      have ho := preKey_outcome E a m { w with rand := rd, faults := fs }
      generalize decryptPreKey E a m { w with rand := rd, faults := fs } = x at ho ⊢
      obtain ⟨r, w'⟩ := x
      simp only at ho ⊢
      cases ho with
      | early => exact ⟨rfl, rfl⟩
      | processed _ fs hr id rec rd ht hp kn hk =>
        refine ⟨mid_ne _ hb _ _ _, ?_⟩
        rcases hk with rfl | rfl
        · rfl
        · exact upd_ne _ _ hb
      | decrypted _ fs hr id rec rec' p rd ht hp hd ss pk hs =>
        refine ⟨?_, upd_ne _ _ hb⟩
        rcases hs with ⟨rfl, _⟩ | ⟨rfl, _⟩ | ⟨rfl, _⟩
        · exact mid_ne _ hb _ _ _
        · exact upd_ne _ _ hb
        · exact upd_ne _ _ hb
      | done fs id rec rec' p rd ht hp hd => exact ⟨upd_ne _ _ hb, upd_ne _ _ hb⟩
    | signal m =>
      simp only [decryptMessage]
      have ho := signal_outcome E a m { w with rand := rd, faults := fs }
      generalize decryptSignal E a m { w with rand := rd, faults := fs } = x at ho ⊢
      obtain ⟨r, w'⟩ := x
      simp only at ho ⊢
      cases ho with
      | early => exact ⟨rfl, rfl⟩
      | stopped _ fs hr rec rec' pt rd h1 h2 ss kn hs hk =>
        constructor
        · rcases hs with rfl | ⟨rfl, _⟩
          · exact mid_ne _ hb _ _ _
          · exact upd_ne _ _ hb
        · rcases hk with rfl | ⟨st, k, _, _, ht, rfl⟩
          · rfl
          · exact upd_ne _ _ hb
      | done fs rec rec' pt rd st k h1 h2 h3 h4 ht => exact ⟨upd_ne _ _ hb, upd_ne _ _ hb⟩
    | senderKey m => exact ⟨rfl, rfl⟩
    | plaintext m => exact ⟨rfl, rfl⟩
  | bundle a b' =>
    have hb : b ≠ a := fun hb => h (by simp [Op.address, hb])
    simp only [Call.run]
    have ho := bundle_outcome E a b' { w with rand := rd, faults := fs }
    generalize processPreKeyBundle E a b' { w with rand := rd, faults := fs } = x at ho ⊢
    obtain ⟨r, w'⟩ := x
    simp only at ho ⊢
    cases ho with
    | early => exact ⟨rfl, rfl⟩
    | stopped _ fs hr s rd ht hv h ss kn hk =>
      rcases hk with ⟨rfl, rfl⟩ | ⟨rfl, rfl | rfl | ⟨rfl, _⟩⟩
      · exact ⟨rfl, rfl⟩
      · exact ⟨rfl, upd_ne _ _ hb⟩
      · exact ⟨mid_ne _ hb _ _ _, upd_ne _ _ hb⟩
      · exact ⟨upd_ne _ _ hb, upd_ne _ _ hb⟩
    | done fs s rd ht hv h => exact ⟨upd_ne _ _ hb, upd_ne _ _ hb⟩
  | addPreKey id k => exact ⟨rfl, rfl⟩
  | addSignedPreKey id k => exact ⟨rfl, rfl⟩

/-- C17 over histories: calls about other addresses leave a session and an identity alone. -/
theorem C17_histories_are_isolated (E : Env) (w : World) (cs : List Call) (b : Address) (h : ∀ c ∈ cs, c.op.address ≠ some b) :
    (after E cs w).sessions b = w.sessions b ∧ (after E cs w).known b = w.known b := by
  induction cs generalizing w with
  | nil => exact ⟨rfl, rfl⟩
  | cons c cs ih =>
    obtain ⟨h1, h2⟩ := C17_operations_are_isolated E w c b (h c (by simp))
    obtain ⟨h3, h4⟩ := ih (c.run E w).2 (fun d hd => h d (by simp [hd]))
    exact ⟨h3.trans h1, h4.trans h2⟩

example : (Op.encrypt bob [1]).address ≠ some alice := by decide

/-! ## C54 -/

theorem ciphertext_only_after_store {E : Env} {w : World} (hwf : w.WF) (a : Address) (pt : Bytes) (c : Ciphertext)
    (h : (encryptMessage E a pt w).1 = .ok c) :
    (encryptMessage E a pt w.calm).1 = .ok c ∧
    (encryptMessage E a pt w).2.sessions = (encryptMessage E a pt w.calm).2.sessions ∧
    ∃ k n, c.position = some (k, n) ∧ w.sendPosition a = some (k.bytes, n) ∧
      (encryptMessage E a pt w).2.sendPosition a = some (k.bytes, n + 1) := by
  have ho := encrypt_outcome E a pt w
  generalize encryptMessage E a pt w = x at ho h ⊢
  obtain ⟨r, w'⟩ := x
  simp only at ho h ⊢
  subst h
  cases ho with
  | early _ fs hr => exact absurd rfl (hr c)
  | stopped _ fs hr => exact absurd rfl (hr c)
  | done fs rec st st' msg k h1 h2 h3 ht =>
    rw [encrypt_run (w := w.calm) rfl h1 h2 h3 ht]
    refine ⟨rfl, rfl, ?_⟩
    obtain ⟨ch, ck, eph, lk, rk, m, hch, hck, hl, heph, _, _, _, hm1, hm2, _, _, out, ho, hout⟩ := ((hwf a rec h1).current st h2).encrypts E.C pt
    rw [ho] at h3
    simp only [Res.ok.injEq, Prod.mk.injEq] at h3
    obtain ⟨rfl, rfl, rfl⟩ := h3
    refine ⟨eph, ck.index, ?_, ?_, ?_⟩
    · rcases hout with ⟨_, rfl⟩ | ⟨p, base, _, _, rfl⟩
      · simp [Ciphertext.position, hm1, hm2]
      · simp [Ciphertext.position, newPreKey, hm1, hm2]
    · simp [World.sendPosition, h1, h2, SState.sendPosition, hch, hck, heph, ChainKey.toPB]
    · simp [World.sendPosition, Record.setSessionState, SState.setSenderChainKey, SState.sendPosition, hch, heph]

/-- C54 for EncryptMessage: whatever store calls fail, a returned message is the one the store-failure-free call returns,
the stored sessions are the ones it leaves, and the stored sending position is one past the message. -/
theorem C54_ciphertext_only_after_store (E : Env) (w : World) (hw : Reachable E w) (a : Address) (pt : Bytes) (c : Ciphertext)
    (h : (encryptMessage E a pt w).1 = .ok c) :
    (encryptMessage E a pt w.calm).1 = .ok c ∧
    (encryptMessage E a pt w).2.sessions = (encryptMessage E a pt w.calm).2.sessions ∧
    ∃ k n, c.position = some (k, n) ∧ w.sendPosition a = some (k.bytes, n) ∧
      (encryptMessage E a pt w).2.sendPosition a = some (k.bytes, n + 1) :=
  ciphertext_only_after_store hw.WF a pt c h

theorem plaintext_only_after_store {E : Env} {w : World} (hwf : w.WF) (a : Address) (c : Ciphertext) (p : Bytes)
    (h : (decryptMessage E a c w).1 = .ok (some p)) :
    (decryptMessage E a c w.calm).1 = .ok (some p) ∧
    (decryptMessage E a c w).2.sessions = (decryptMessage E a c w.calm).2.sessions ∧
    ∃ k n rec st, c.position = some (k, n) ∧ (decryptMessage E a c w).2.sessions a = some rec ∧ rec.current = some st ∧
      st.Received k n := by
  cases c with
  | preKey m =>
    rw [decryptMessage_preKey] at h ⊢
    rw [decryptMessage_preKey]
    have ho := preKey_outcome E a m w
    generalize decryptPreKey E a m w = x at ho h ⊢
    obtain ⟨r, w'⟩ := x
    cases r with
    | err e => simp at h
    | panic => simp at h
    | ok q =>
    simp only [Res.ok.injEq, Option.some.injEq] at ho h ⊢
    subst h
    cases ho with
    | early _ fs hr => exact absurd rfl (hr q)
    | processed _ fs hr => exact absurd rfl (hr q)
    | decrypted _ fs hr => exact absurd rfl (hr q)
    | done fs id' rec rec' p rd ht hp hd =>
      rw [preKey_run (w := w.calm) rfl ht hp.calm hd]
      have hrec := hp.WF (hwf.getD a)
      obtain ⟨s, s', rd1, rd2, h1, h2, h3⟩ := hrec.decrypted hd
      have hs : s.WF := by
        rcases h3 with ⟨hc, _⟩ | ⟨l, idx, hl, hi, _⟩
        · exact hrec.current s hc
        · exact hrec.state ((hrec.hasState hl s).mpr (.inr (List.mem_of_getElem? hi)))
      exact ⟨rfl, rfl, _, _, rec', s', rfl, upd_same _ _ _, h2, hs.decrypted_received h1⟩
  | signal m =>
    simp only [decryptMessage] at h ⊢
    have ho := signal_outcome E a m w
    generalize decryptSignal E a m w = x at ho h ⊢
    obtain ⟨r, w'⟩ := x
    simp only at ho h ⊢
    subst h
    cases ho with
    | early _ fs rd hr => exact absurd rfl (hr _)
    | stopped _ fs hr => exact absurd rfl (hr _)
    | done fs rec rec' pt rd st k h1 h2 h3 h4 ht =>
      rw [signal_run (w := w.calm) rfl h1 h2 h3 h4 ht]
      cases h2 with
      | ok p _ _ hd =>
        have hrec := hwf a rec h1
        obtain ⟨s, s', rd1, rd2, h1', h2', h3'⟩ := hrec.decrypted hd
        have hs : s.WF := by
          rcases h3' with ⟨hc, _⟩ | ⟨l, idx, hl, hi, _⟩
          · exact hrec.current s hc
          · exact hrec.state ((hrec.hasState hl s).mpr (.inr (List.mem_of_getElem? hi)))
        exact ⟨rfl, rfl, _, _, rec', s', rfl, upd_same _ _ _, h2', hs.decrypted_received h1'⟩
  | senderKey m => simp [decryptMessage] at h
  | plaintext m => simp [decryptMessage] at h

/-- C54 for DecryptMessage: whatever store calls fail, a returned plaintext is the one the store-failure-free call
returns, the stored sessions are the ones it leaves, and the stored session has moved past the message: its receiving
chain has reached the counter and no longer holds the key. -/
theorem C54_plaintext_only_after_store (E : Env) (w : World) (hw : Reachable E w) (a : Address) (c : Ciphertext) (p : Bytes)
    (h : (decryptMessage E a c w).1 = .ok (some p)) :
    (decryptMessage E a c w.calm).1 = .ok (some p) ∧
    (decryptMessage E a c w).2.sessions = (decryptMessage E a c w.calm).2.sessions ∧
    ∃ k n rec st, c.position = some (k, n) ∧ (decryptMessage E a c w).2.sessions a = some rec ∧ rec.current = some st ∧
      st.Received k n :=
  plaintext_only_after_store hw.WF a c p h

example : Reachable copying alice1 ∧ (encryptMessage copying bob [1, 2, 3] alice1).1 = .ok m1 :=
  ⟨alice1_reachable, by decide +kernel⟩

end Verif
