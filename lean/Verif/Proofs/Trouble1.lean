import Verif.Proofs.Stores
import Verif.Proofs.Sessions7
import Verif.Spec.Trouble

/-!
One call with failing stores, compared with the same call when nothing fails.
-/

namespace Verif

/-- DecryptMessage with a copying store: either nothing is stored, or what is stored when nothing fails, except perhaps that the one-time
pre-key is still there. -/
structure Faulty (w : World) (x y : Res (Option Bytes) × World) : Prop where
  identity : x.2.identity = w.identity
  signed : x.2.signedPreKeys = w.signedPreKeys
  stored : (x.2.sessions = w.sessions ∧ x.2.preKeys = w.preKeys ∧ ∀ p, x.1 ≠ .ok (some p)) ∨
    ∃ p, y.1 = .ok (some p) ∧ x.2.sessions = y.2.sessions ∧ (x.2.preKeys = w.preKeys ∨ x.2.preKeys = y.2.preKeys) ∧ ∀ q, x.1 = .ok (some q) → q = p

theorem decrypt_faulty (E : Env) (hE : E.aliased = false) (a : Address) (c : Ciphertext) (w : World) :
    Faulty w (decryptMessage E a c w) (decryptMessage E a c w.calm) := by
  cases c with
  | preKey m =>
    have run : ∀ id rec rec' p rd, E.trusted w.known a m.identityKey .receiving = true →
        Processed E w ((w.sessions a).getD {}) m id rec → decryptRecord E.C rec m.message w.rand = (.ok (p, rec'), rd) → _ :=
      fun id rec rec' p rd ht hp hd => preKey_run (E := E) (a := a) (w := w.calm) rfl ht hp.calm hd
    have ho := preKey_outcome E a m w
    rw [decryptMessage_preKey, decryptMessage_preKey]
    generalize decryptPreKey E a m w = x at ho ⊢
    obtain ⟨r, w'⟩ := x
    simp only at ho ⊢
    cases ho with
    | early _ fs hr => exact ⟨rfl, rfl, .inl ⟨rfl, rfl, by cases r <;> simp_all [Res.Bad]⟩⟩
    | processed _ fs hr id rec rd ht hp kn hk => exact ⟨rfl, rfl, .inl ⟨mid_of_copying hE .., rfl, by cases r <;> simp_all [Res.Bad]⟩⟩
    | decrypted _ fs hr id rec rec' p rd ht hp hd ss pk hs =>
      rcases hs with ⟨rfl, rfl, _⟩ | ⟨rfl, rfl, _⟩ | ⟨rfl, rfl, _⟩
      · exact ⟨rfl, rfl, .inl ⟨mid_of_copying hE .., rfl, by cases r <;> simp_all [Res.Bad]⟩⟩
      · rw [run id rec rec' p rd ht hp hd]; exact ⟨rfl, rfl, .inr ⟨p, rfl, rfl, .inl rfl, by cases r <;> simp_all [Res.Bad]⟩⟩
      · rw [run id rec rec' p rd ht hp hd]; exact ⟨rfl, rfl, .inr ⟨p, rfl, rfl, .inr rfl, by cases r <;> simp_all [Res.Bad]⟩⟩
    | done fs id rec rec' p rd ht hp hd =>
      rw [run id rec rec' p rd ht hp hd]
      exact ⟨rfl, rfl, .inr ⟨p, rfl, rfl, .inr rfl, fun q hq => by simpa using hq.symm⟩⟩
  | signal m =>
    simp only [decryptMessage]
    have run : ∀ rec rec' pt rd st k, w.sessions a = some rec → Tried E rec m w.rand pt rec' rd → rec'.current = some st →
        st.remoteIdentityKey = .ok (some k) → E.trusted w.known a k .receiving = true → _ :=
      fun rec rec' pt rd st k h1 h2 h3 h4 ht => signal_run (E := E) (a := a) (m := m) (w := w.calm) rfl h1 h2 h3 h4 ht
    have ho := signal_outcome E a m w
    generalize decryptSignal E a m w = x at ho ⊢
    obtain ⟨r, w'⟩ := x
    simp only at ho ⊢
    cases ho with
    | early _ fs rd hr => exact ⟨rfl, rfl, .inl ⟨rfl, rfl, fun p => hr _⟩⟩
    | stopped _ fs hr rec rec' pt rd h1 h2 ss kn hs hk =>
      rcases hs with rfl | ⟨rfl, _, st, k, h3, h4, ht⟩
      · exact ⟨rfl, rfl, .inl ⟨mid_of_copying hE .., rfl, fun p => hr _⟩⟩
      · cases h2 with
        | ok p rec' rd' h =>
          rw [run rec rec' (some p) rd st k h1 (.ok p _ _ h) h3 h4 ht]
          exact ⟨rfl, rfl, .inr ⟨p, rfl, rfl, .inl rfl, fun q hq => absurd hq (hr _)⟩⟩
        | failed e rd' h => exact ⟨rfl, rfl, .inl ⟨upd_self _ _ _ h1, rfl, fun p => hr _⟩⟩
    | done fs rec rec' pt rd st k h1 h2 h3 h4 ht =>
      cases h2 with
      | ok p rec' rd' h =>
        rw [run rec rec' (some p) rd st k h1 (.ok p _ _ h) h3 h4 ht]
        exact ⟨rfl, rfl, .inr ⟨p, rfl, rfl, .inl rfl, fun q hq => by simpa using hq.symm⟩⟩
      | failed e rd' h => exact ⟨rfl, rfl, .inl ⟨upd_self _ _ _ h1, rfl, by simp⟩⟩
  | senderKey m => exact ⟨rfl, rfl, .inl ⟨rfl, rfl, by simp [decryptMessage, M.throw]⟩⟩
  | plaintext m => exact ⟨rfl, rfl, .inl ⟨rfl, rfl, by simp [decryptMessage, M.throw]⟩⟩

/-- The identity key that DecryptMessage stores. -/
theorem decrypt_known (E : Env) (a : Address) (c : Ciphertext) (w : World) :
    (decryptMessage E a c w).2.known = w.known ∨ ∃ k, (decryptMessage E a c w).2.known = upd w.known a (some k) ∧ E.trusted w.known a k .receiving = true ∧
      ((∃ m, c = .preKey m ∧ k = m.identityKey) ∨ ∃ m rec rec' pt rd st, c = .signal m ∧ w.sessions a = some rec ∧ Tried E rec m w.rand pt rec' rd ∧
        rec'.current = some st ∧ st.remoteIdentityKey = .ok (some k)) := by
  cases c with
  | preKey m =>
    have ho := preKey_outcome E a m w
    rw [decryptMessage_preKey]
    generalize decryptPreKey E a m w = x at ho ⊢
    obtain ⟨r, w'⟩ := x
    simp only at ho ⊢
    cases ho with
    | early _ fs hr => exact .inl rfl
    | processed _ fs hr id rec rd ht hp kn hk =>
      rcases hk with rfl | rfl
      · exact .inl rfl
      · exact .inr ⟨_, rfl, ht, .inl ⟨m, rfl, rfl⟩⟩
    | decrypted _ fs hr id rec rec' p rd ht hp hd ss pk hs => exact .inr ⟨_, rfl, ht, .inl ⟨m, rfl, rfl⟩⟩
    | done fs id rec rec' p rd ht hp hd => exact .inr ⟨_, rfl, ht, .inl ⟨m, rfl, rfl⟩⟩
  | signal m =>
    simp only [decryptMessage]
    have ho := signal_outcome E a m w
    generalize decryptSignal E a m w = x at ho ⊢
    obtain ⟨r, w'⟩ := x
    simp only at ho ⊢
    cases ho with
    | early _ fs rd hr => exact .inl rfl
    | stopped _ fs hr rec rec' pt rd h1 h2 ss kn hs hk =>
      rcases hk with rfl | ⟨st, k, h3, h4, ht, rfl⟩
      · exact .inl rfl
      · exact .inr ⟨k, rfl, ht, .inr ⟨m, rec, rec', pt, rd, st, rfl, h1, h2, h3, h4⟩⟩
    | done fs rec rec' pt rd st k h1 h2 h3 h4 ht => exact .inr ⟨k, rfl, ht, .inr ⟨m, rec, rec', pt, rd, st, rfl, h1, h2, h3, h4⟩⟩
  | senderKey m => exact .inl rfl
  | plaintext m => exact .inl rfl

/-- EncryptMessage, with any store, in a session that encrypts. -/
theorem encrypt_faulty {E : Env} {a : Address} {pt : Bytes} {w : World} {rec : Record} {st st' : SState} {msg : Ciphertext} {k : PubKey}
    (h1 : w.sessions a = some rec) (h2 : rec.current = some st) (h3 : encryptState E.C st pt = .ok (msg, st', k)) :
    let x := encryptMessage E a pt w
    x.2.identity = w.identity ∧ x.2.signedPreKeys = w.signedPreKeys ∧ x.2.preKeys = w.preKeys ∧
      (x.2.known = w.known ∨ x.2.known = upd w.known a (some k)) ∧
      ((x.2.sessions = w.sessions ∧ ∀ c, x.1 ≠ .ok c) ∨ (x.2.sessions = upd w.sessions a (some (rec.setSessionState st')) ∧ ∀ c, x.1 = .ok c → c = msg)) := by
  have ho := encrypt_outcome E a pt w
  simp only
  generalize encryptMessage E a pt w = x at ho ⊢
  obtain ⟨r, w'⟩ := x
  simp only at ho ⊢
  have same : ∀ {rec1 : Record} {st1 st2 : SState} {msg1 : Ciphertext} {k1 : PubKey}, w.sessions a = some rec1 → rec1.current = some st1 →
      encryptState E.C st1 pt = .ok (msg1, st2, k1) → rec1 = rec ∧ st2 = st' ∧ msg1 = msg ∧ k1 = k := by
    intro rec1 st1 st2 msg1 k1 e1 e2 e3
    rw [h1] at e1
    simp only [Option.some.injEq] at e1
    subst e1
    rw [h2] at e2
    simp only [Option.some.injEq] at e2
    subst e2
    rw [h3] at e3
    simp only [Res.ok.injEq, Prod.mk.injEq] at e3
    exact ⟨rfl, e3.2.1.symm, e3.1.symm, e3.2.2.symm⟩
  cases ho with
  | early _ fs hr => exact ⟨rfl, rfl, rfl, .inl rfl, .inl ⟨rfl, hr⟩⟩
  | stopped _ fs hr rec1 st1 st2 msg1 k1 e1 e2 e3 ss kn hs hk =>
    obtain ⟨rfl, rfl, rfl, rfl⟩ := same e1 e2 e3
    refine ⟨rfl, rfl, rfl, ?_, ?_⟩
    · rcases hk with hk | ⟨hk, _⟩
      · exact .inl hk
      · exact .inr hk
    · rcases hs with rfl | ⟨rfl, _⟩
      · unfold mid
        split
        · exact .inr ⟨rfl, fun c hc => absurd hc (hr c)⟩
        · exact .inl ⟨rfl, hr⟩
      · exact .inr ⟨rfl, fun c hc => absurd hc (hr c)⟩
  | done fs rec1 st1 st2 msg1 k1 e1 e2 e3 ht =>
    obtain ⟨rfl, rfl, rfl, rfl⟩ := same e1 e2 e3
    exact ⟨rfl, rfl, rfl, .inr rfl, .inr ⟨rfl, fun c hc => by simpa using hc.symm⟩⟩

/-- EncryptMessage without a session. -/
theorem encrypt_without {E : Env} {a : Address} {pt : Bytes} {w : World} (h1 : w.sessions a = none) :
    ∃ fs, (encryptMessage E a pt w).2 = { w with faults := fs } ∧ ∀ c, (encryptMessage E a pt w).1 ≠ .ok c := by
  have ho := encrypt_outcome E a pt w
  generalize encryptMessage E a pt w = x at ho ⊢
  obtain ⟨r, w'⟩ := x
  simp only at ho ⊢
  cases ho with
  | early _ fs hr => exact ⟨fs, rfl, hr⟩
  | stopped _ fs hr rec1 st1 st2 msg1 k1 e1 e2 e3 ss kn hs hk => rw [h1] at e1; cases e1
  | done fs rec1 st1 st2 msg1 k1 e1 e2 e3 ht => rw [h1] at e1; cases e1

theorem FromBundle.unique {E : Env} {w : World} {b : Bundle} {s s' : SState} {rd rd' : Bytes} (h : FromBundle E w b s rd) (h' : FromBundle E w b s' rd') :
    s = s' ∧ rd = rd' := by
  obtain ⟨base, rd1, _, s0, hb, hi, _, rfl⟩ := h
  obtain ⟨base', rd1', _, s0', hb', hi', _, rfl⟩ := h'
  rw [hb] at hb'
  simp only [Prod.mk.injEq, Res.ok.injEq] at hb'
  obtain ⟨rfl, rfl⟩ := hb'
  rw [hi] at hi'
  simp only [Prod.mk.injEq, Res.ok.injEq] at hi'
  obtain ⟨rfl, rfl⟩ := hi'
  exact ⟨rfl, rfl⟩

/-- ProcessPreKeyBundle, with any store. -/
theorem bundle_faulty (E : Env) (a : Address) (b : Bundle) (w : World) :
    let x := processPreKeyBundle E a b w
    let y := processPreKeyBundle E a b w.calm
    x.2.identity = w.identity ∧ x.2.signedPreKeys = w.signedPreKeys ∧ x.2.preKeys = w.preKeys ∧
      (x.2.known = w.known ∨ x.2.known = upd w.known a (some b.identityKey)) ∧
      (x.2.sessions = w.sessions ∨ (y.1 = .ok () ∧ x.2.sessions = y.2.sessions)) := by
  have run : ∀ s rd, E.trusted w.known a b.identityKey .sending = true →
      b.identityKey.verifySignature E.C b.signedPreKeySignature [b.signedPreKeyPublic.bytes] = .ok true → FromBundle E w b s rd → _ :=
    fun s rd ht hv h => bundle_run (E := E) (a := a) (w := w.calm) rfl ht hv h.calm
  have ho := bundle_outcome E a b w
  simp only
  generalize processPreKeyBundle E a b w = x at ho ⊢
  obtain ⟨r, w'⟩ := x
  simp only at ho ⊢
  cases ho with
  | early _ fs rd hr => exact ⟨rfl, rfl, rfl, .inl rfl, .inl rfl⟩
  | stopped _ fs hr s rd ht hv h ss kn hk =>
    rw [run s rd ht hv h]
    refine ⟨rfl, rfl, rfl, ?_, ?_⟩
    · rcases hk with ⟨rfl, _⟩ | ⟨rfl, _⟩
      · exact .inl rfl
      · exact .inr rfl
    · rcases hk with ⟨_, rfl⟩ | ⟨_, rfl | rfl | ⟨rfl, _⟩⟩
      · exact .inl rfl
      · exact .inl rfl
      · unfold mid
        split
        · exact .inr ⟨rfl, rfl⟩
        · exact .inl rfl
      · exact .inr ⟨rfl, rfl⟩
  | done fs s rd ht hv h =>
    rw [run s rd ht hv h]
    exact ⟨rfl, rfl, rfl, .inr rfl, .inr ⟨rfl, rfl⟩⟩

/-- No call changes the user's own identity. -/
theorem call_identity (E : Env) (w : World) (c : Call) : (c.run E w).2.identity = w.identity := by
  obtain ⟨op, rd, fs⟩ := c
  cases op with
  | encrypt a pt =>
    simp only [Call.run]
    have ho := encrypt_outcome E a pt { w with rand := rd, faults := fs }
    generalize encryptMessage E a pt { w with rand := rd, faults := fs } = x at ho ⊢
    obtain ⟨r, w'⟩ := x
    simp only at ho ⊢
    cases ho <;> rfl
  | decrypt a m =>
    simp only [Call.run]
    cases m with
    | preKey m =>
      rw [decryptMessage_preKey]
      have ho := preKey_outcome E a m { w with rand := rd, faults := fs }
      generalize decryptPreKey E a m { w with rand := rd, faults := fs } = x at ho ⊢
      obtain ⟨r, w'⟩ := x
      simp only at ho ⊢
      cases ho <;> rfl
    | signal m =>
      simp only [decryptMessage]
      have ho := signal_outcome E a m { w with rand := rd, faults := fs }
      generalize decryptSignal E a m { w with rand := rd, faults := fs } = x at ho ⊢
      obtain ⟨r, w'⟩ := x
      simp only at ho ⊢
      cases ho <;> rfl
    | senderKey m => rfl
    | plaintext m => rfl
  | bundle a b =>
    simp only [Call.run]
    have ho := bundle_outcome E a b { w with rand := rd, faults := fs }
    generalize processPreKeyBundle E a b { w with rand := rd, faults := fs } = x at ho ⊢
    obtain ⟨r, w'⟩ := x
    simp only at ho ⊢
    cases ho <;> rfl
  | addPreKey id k => rfl
  | addSignedPreKey id k => rfl

end Verif
