import Verif.Proofs.Failed
import Verif.Props.Delivery
import Verif.Props.Sessions

/-!
C05, C06 and C16, the cases that the theorems in Props/Stores.lean and Props/Messages.lean leave open: exactly what a call
without a plaintext changes.
-/

namespace Verif

open Ex

/-- C05, exactly how it fails when no store call fails. After a DecryptMessage call without a plaintext the sessions are
unchanged, or the store shares its records and either
* a Signal message was decrypted and then the identity store did not trust the peer: the store holds what it would hold had the peer
  been trusted, when the call would have returned a plaintext; or
* a pre-key message with a trusted identity key and an unknown base key was not decrypted: the store holds a new current session
  for that base key, the sessions it held before are all kept, except the oldest one of 41.
Missing from the full claim: these two cases are violations of it. -/
theorem C05_in_memory_partial (E : Env) (w : World) (hw : Reachable E w) (hf : w.faults = []) (a : Address) (c : Ciphertext)
    (h : ∀ p, (decryptMessage E a c w).1 ≠ .ok (some p)) :
    (decryptMessage E a c w).2.sessions = w.sessions ∨
    (E.aliased = true ∧ (∃ m, c = .signal m) ∧ (decryptMessage E a c w).1 = .err (.untrustedIdentity a) ∧
      ∃ p, (decryptMessage { E with trusted := fun _ _ _ _ => true } a c w).1 = .ok (some p) ∧
        (decryptMessage E a c w).2.sessions = (decryptMessage { E with trusted := fun _ _ _ _ => true } a c w).2.sessions) ∨
    (E.aliased = true ∧ ∃ m r r' s, c = .preKey m ∧ E.trusted w.known a m.identityKey .receiving = true ∧ w.sessions a = some r ∧
      ¬ r.Knows m.version.toUInt32 m.baseKey ∧ (decryptMessage E a c w).2.sessions = upd w.sessions a (some r') ∧
      r'.current = some s ∧ s.aliceBaseKey = m.baseKey.bytes ∧
      (r'.states = r.states ++ [s] ∨ (r.states.length = 41 ∧ r'.states = r.states.tail ++ [s]))) := by
  cases c with
  | senderKey m => exact .inl rfl
  | plaintext m => exact .inl rfl
  | signal m =>
    simp only [decryptMessage] at h ⊢
    have ho := signal_outcome E a m w
    have href := fun r x p rd hr hd => signal_refused (E := E) (m := m) hw.WF hf (a := a) (r := r) (x := x) (p := p) (rd := rd) hr hd h
    generalize hx : decryptSignal E a m w = x at ho h href ⊢
    obtain ⟨r, w'⟩ := x
    simp only at ho h href ⊢
    cases ho with
    | early => exact .inl rfl
    | stopped _ fs hr rec rec' pt rd h1 h2 sessions known hs hk =>
      rcases hs with hs | ⟨_, hs, _⟩
      rotate_left
      · rw [hf] at hs; simp at hs
      subst hs
      cases h2 with
      | failed e _ hd =>
        left
        unfold mid
        split
        · exact upd_self _ _ _ h1
        · rfl
      | ok p _ _ hd =>
        obtain ⟨e1, e2, e3⟩ := href rec rec' p rd h1 hd
        by_cases ha : E.aliased = true
        · exact .inr (.inl ⟨ha, ⟨m, rfl⟩, e1, p, e2, by rw [e3]; simp [mid, ha]⟩)
        · left; simp [mid, ha]
    | done fs rec rec' pt rd st k h1 h2 h3 h4 ht =>
      cases h2 with
      | failed e _ hd => exact .inl (upd_self _ _ _ h1)
      | ok p _ _ hd => exact absurd rfl (h p)
  | preKey m =>
    rw [decryptMessage_preKey] at h ⊢
    have ho := preKey_outcome E a m w
    generalize decryptPreKey E a m w = x at ho h ⊢
    obtain ⟨r, w'⟩ := x
    simp only at ho h ⊢
    cases ho with
    | early => exact .inl rfl
    | processed _ fs hr id rec rd ht hp known hk =>
      cases hs : w.sessions a with
      | none => left; simp [mid]
      | some r0 =>
        rw [hs] at hp
        simp only [Option.getD_some] at hp
        have hr0 := hw.WF a r0 hs
        have hwf := hp.WF hr0
        cases ha : E.aliased with
        | false => left; simp [mid, ha]
        | true =>
          cases hp with
          | found _ =>
            left
            simp only [mid, ha, Option.isSome_some, Bool.and_self, if_true]
            exact upd_self _ _ _ hs
          | fresh hf signed oneTime s hs' ho hi s' hs'' =>
            refine .inr (.inr ⟨rfl, m, r0, r0.promoteState s', s', rfl, ht, rfl, ?_, by simp [mid, ha], rfl, by rw [hs''], ?_⟩)
            · rcases hr0.hasSessionState m.version.toUInt32 m.baseKey with ⟨_, h6⟩ | ⟨h6, _⟩
              · rw [h6] at hf; simp at hf
              · exact h6
            · exact promoteState_states_exact hr0 hwf
    | decrypted _ fs hr id rec rec' p rd ht hp hd sessions preKeys hs =>
      rw [hf] at hs
      simp at hs
    | done fs id rec rec' p rd ht hp hd => exact absurd rfl (h p)

/-- Both exceptions occur. -/
example : Reachable sharing (decryptMessage sharing alice m1 bob0).2 ∧ (decryptMessage sharing alice m1 bob0).2.faults = [] ∧
    (∀ p, (decryptMessage sharing alice (withBaseKey (pair 7).pub (badMAC m1)) (decryptMessage sharing alice m1 bob0).2).1 ≠ .ok (some p)) ∧
    (decryptMessage sharing alice (withBaseKey (pair 7).pub (badMAC m1)) (decryptMessage sharing alice m1 bob0).2).2.sessions alice ≠
      (decryptMessage sharing alice m1 bob0).2.sessions alice := by
  refine ⟨Reachable.decrypt (.start fun _ => rfl) _ _, by decide +kernel, ?_, by decide +kernel⟩
  have : (decryptMessage sharing alice (withBaseKey (pair 7).pub (badMAC m1)) (decryptMessage sharing alice m1 bob0).2).1 = .err .decryptionFailed := by
    decide +kernel
  intro p hp
  rw [this] at hp
  simp at hp

namespace Ex

/-- The in-memory store with a user who sends to everybody and trusts nobody's messages. -/
def distrusting : Env := ⟨toy, true, fun _ _ _ d => match d with | .sending => true | .receiving => false⟩

def distrustingAlice : World :=
  (encryptMessage distrusting bob [4] (encryptMessage distrusting bob [1, 2, 3] (processPreKeyBundle distrusting bob bundle alice0).2).2).2

end Ex

example : Reachable distrusting distrustingAlice ∧ distrustingAlice.faults = [] ∧
    (decryptMessage distrusting bob r1 distrustingAlice).1 = .err (.untrustedIdentity bob) ∧
    (decryptMessage distrusting bob r1 distrustingAlice).2.sessions bob ≠ distrustingAlice.sessions bob :=
  ⟨Reachable.encrypt (Reachable.encrypt (Reachable.bundle (.start fun _ => rfl) _ _) _ _) _ _, by decide +kernel, by decide +kernel, by decide +kernel⟩

/-- C06, exactly how it fails, for both kinds of store and any failures. After a DecryptMessage call without a plaintext the recorded
identity keys are unchanged, or the one of this address is now a key that the identity store trusted: the one named in the pre-key
message, or for a Signal message the peer of one of the sessions with this address. Missing from the full claim: the first of these is a
violation of it when no key was recorded before, or the user's trust rule accepts a new one. -/
theorem C06_only_trusted_keys_partial (E : Env) (w : World) (hw : Reachable E w) (a : Address) (c : Ciphertext)
    (h : ∀ p, (decryptMessage E a c w).1 ≠ .ok (some p)) :
    (decryptMessage E a c w).2.known = w.known ∨
    ∃ k, (decryptMessage E a c w).2.known = upd w.known a (some k) ∧ E.trusted w.known a k .receiving = true ∧
      ((∃ m, c = .preKey m ∧ m.identityKey = k) ∨
       ((∃ m, c = .signal m) ∧ ∃ r s, w.sessions a = some r ∧ r.HasState s ∧ s.peer = some k)) := by
  cases c with
  | senderKey m => exact .inl rfl
  | plaintext m => exact .inl rfl
  | signal m =>
    simp only [decryptMessage] at h ⊢
    have peer : ∀ rec rec' pt rd st k, w.sessions a = some rec → Tried E rec m w.rand pt rec' rd → rec'.current = some st →
        st.remoteIdentityKey = .ok (some k) → ∃ r s, w.sessions a = some r ∧ r.HasState s ∧ s.peer = some k := by
      intro rec rec' pt rd st k h1 h2 h3 h4
      cases h2 with
      | failed e _ hd => exact ⟨rec, st, h1, .inl h3, by simp [SState.peer, h4]⟩
      | ok p _ _ hd =>
        have hwf := hw.WF a rec h1
        obtain ⟨s, s', rd1, rd2, hd', hc, hcase⟩ := hwf.decrypted hd
        have hs : rec.HasState s := by
          rcases hcase with ⟨h, _⟩ | ⟨l, idx, e1, e2, _⟩
          · exact .inl h
          · exact .inr (parseAll_mem e1 (List.mem_of_getElem? e2))
        rw [h3] at hc
        simp only [Option.some.injEq] at hc
        subst hc
        refine ⟨rec, s, h1, hs, ?_⟩
        have hk := (decryptMessageSession_keeps hd').2.2.2.1
        have : s.remoteIdentityKey = st.remoteIdentityKey := by unfold SState.remoteIdentityKey; rw [hk]
        simp [SState.peer, this, h4]
    have ho := signal_outcome E a m w
    generalize decryptSignal E a m w = x at ho h ⊢
    obtain ⟨r, w'⟩ := x
    simp only at ho h ⊢
    cases ho with
    | early => exact .inl rfl
    | stopped _ fs hr rec rec' pt rd h1 h2 sessions known hs hk =>
      rcases hk with hk | ⟨st, k, h3, h4, ht, hk⟩
      · exact .inl hk
      · exact .inr ⟨k, hk, ht, .inr ⟨⟨m, rfl⟩, peer rec rec' pt rd st k h1 h2 h3 h4⟩⟩
    | done fs rec rec' pt rd st k h1 h2 h3 h4 ht =>
      exact .inr ⟨k, rfl, ht, .inr ⟨⟨m, rfl⟩, peer rec rec' pt rd st k h1 h2 h3 h4⟩⟩
  | preKey m =>
    rw [decryptMessage_preKey] at h ⊢
    have ho := preKey_outcome E a m w
    generalize decryptPreKey E a m w = x at ho h ⊢
    obtain ⟨r, w'⟩ := x
    simp only at ho h ⊢
    cases ho with
    | early => exact .inl rfl
    | processed _ fs hr id rec rd ht hp known hk =>
      rcases hk with hk | hk
      · exact .inl hk
      · exact .inr ⟨_, hk, ht, .inl ⟨m, rfl, rfl⟩⟩
    | decrypted _ fs hr id rec rec' p rd ht hp hd sessions preKeys hs => exact .inr ⟨_, rfl, ht, .inl ⟨m, rfl, rfl⟩⟩
    | done fs id rec rec' p rd ht hp hd => exact absurd rfl (h p)

example : (decryptMessage copying alice (withIdentity (pair 7).pub (badMAC m1)) bob0).2.known alice = some (pair 7).pub ∧
    (decryptMessage copying alice (withIdentity (pair 7).pub (badMAC m1)) bob0).1 = .err .decryptionFailed := by decide +kernel

namespace Ex

/-- Bob, with the in-memory store, has processed a bundle of Alice. -/
def starter : World := (processPreKeyBundle sharing alice bundleOfAlice bob0).2
/-- A forged pre-key message in the name of Alice has arrived. -/
def starterHit : World := (decryptMessage sharing alice (badMAC m1) starter).2

end Ex

/-- C16 does not hold for the in-memory store: Bob processes a bundle of Alice, and then a forged pre-key message arrives, which
DecryptMessage rejects. Bob's next message is not a pre-key message, although Alice has never answered. -/
theorem C16_in_memory_false :
    ∃ (E : Env) (w : World) (a : Address) (b : Bundle) (c : Ciphertext) (e : Err), E.aliased = true ∧ Reachable E w ∧ w.faults = [] ∧
      (processPreKeyBundle E a b w).1 = .ok () ∧
      (decryptMessage E a c (processPreKeyBundle E a b w).2).1 = .err e ∧
      ∃ m, (encryptMessage E a [1] (decryptMessage E a c (processPreKeyBundle E a b w).2).2).1 = .ok (.signal m) := by
  have h3 : (match (encryptMessage sharing alice [1] starterHit).1 with | .ok (.signal _) => true | _ => false) = true := by decide +kernel
  refine ⟨sharing, bob0, alice, bundleOfAlice, badMAC m1, .decryptionFailed, rfl, .start fun _ => rfl, rfl, by decide +kernel, by decide +kernel, ?_⟩
  change ∃ m, (encryptMessage sharing alice [1] starterHit).1 = .ok (.signal m)
  split at h3
  · rename_i m hm
    exact ⟨m, hm⟩
  · simp at h3

/-- C16 does not hold for the pre-key id 0: the message does not name the pre-key of the bundle. -/
theorem C16_id_zero_false :
    ∃ (E : Env) (w : World) (a : Address) (b : Bundle), E.aliased = false ∧ Reachable E w ∧ w.faults = [] ∧ b.preKeyID = some 0 ∧
      (processPreKeyBundle E a b w).1 = .ok () ∧
      ∃ m, (encryptMessage E a [1] (processPreKeyBundle E a b w).2).1 = .ok (.preKey m) ∧ m.preKeyID = none := by
  have h : (match (encryptMessage copying bob [1] (processPreKeyBundle copying bob bundleZero alice0).2).1 with | .ok (.preKey m) => some m.preKeyID | _ => none) = some none := by
    decide +kernel
  refine ⟨copying, alice0, bob, bundleZero, rfl, .start fun _ => rfl, rfl, rfl, by decide +kernel, ?_⟩
  split at h
  · rename_i m hm
    exact ⟨m, hm, by simpa using h⟩
  · simp at h

end Verif
