import Verif.Proofs.Runs
import Verif.Proofs.History

/-!
Outcomes of the session operations, compared with the run in which no store call fails.
-/

namespace Verif

theorem Processed.calm {E : Env} {w : World} {r r' : Record} {m : PreKeyMsg} {id : Option UInt32}
    (h : Processed E w r m id r') : Processed E w.calm r m id r' := by
  cases h with
  | found h => exact .found h
  | fresh h signed oneTime s hs ho hi s' hs' => exact Processed.fresh (w := w.calm) h signed oneTime s hs ho hi s' hs'

theorem FromBundle.calm {E : Env} {w : World} {b : Bundle} {s : SState} {rd : Bytes} (h : FromBundle E w b s rd) :
    FromBundle E w.calm b s rd := by
  obtain ⟨base, rd1, rd2, s0, hb, hi, s', hs'⟩ := h
  exact FromBundle.mk (w := w.calm) base rd1 _ s0 hb hi _ hs'

theorem mid_of_copying {E : Env} (h : E.aliased = false) (a : Address) (l : Bool) (m : Address → Option Record) (r : Record) :
    mid E a l m r = m := by simp [mid, h]

theorem reliable_after {w : World} (h : w.Reliable) : Fault.after ∉ w.faults := fun hf => by
  have := h _ hf; simp at this

theorem reliable_before {w : World} (h : w.Reliable) : Fault.before ∉ w.faults := fun hf => by
  have := h _ hf; simp at this

/-- What a decryption leaves in the session store. -/
inductive StoredAs (w : World) (r0 : Res (Option Bytes)) (w' w0 : World) : Prop
  /-- nothing -/
  | nothing (h : w'.sessions = w.sessions)
  /-- what the run without failures stores, which returns a plaintext -/
  | all (p : Bytes) (h0 : r0 = .ok (some p)) (h : w'.sessions = w0.sessions)

theorem preKey_stored (E : Env) (hE : E.aliased = false) (a : Address) (m : PreKeyMsg) (w : World) :
    StoredAs w (decryptMessage E a (.preKey m) w.calm).1
      (decryptMessage E a (.preKey m) w).2 (decryptMessage E a (.preKey m) w.calm).2 := by
  rw [decryptMessage_preKey, decryptMessage_preKey]
  have run : ∀ id rec rec' p rd, E.trusted w.known a m.identityKey .receiving = true →
      Processed E w ((w.sessions a).getD {}) m id rec → decryptRecord E.C rec m.message w.rand = (.ok (p, rec'), rd) → _ :=
    fun id rec rec' p rd ht hp hd => preKey_run (E := E) (a := a) (w := w.calm) rfl ht hp.calm hd
  have ho := preKey_outcome E a m w
  generalize decryptPreKey E a m w = x at ho ⊢
  obtain ⟨r, w'⟩ := x
  simp only at ho ⊢
  cases ho with
  | early _ fs hr => exact .nothing rfl
  | processed _ fs hr id rec rd ht hp kn hk => exact .nothing (mid_of_copying hE ..)
  | decrypted _ fs hr id rec rec' p rd ht hp hd ss pk hs =>
    rcases hs with ⟨rfl, _⟩ | ⟨rfl, _⟩ | ⟨rfl, _⟩
    · exact .nothing (mid_of_copying hE ..)
    · rw [run id rec rec' p rd ht hp hd]; exact .all p rfl rfl
    · rw [run id rec rec' p rd ht hp hd]; exact .all p rfl rfl
  | done fs id rec rec' p rd ht hp hd => rw [run id rec rec' p rd ht hp hd]; exact .all p rfl rfl

theorem signal_stored (E : Env) (hE : E.aliased = false) (a : Address) (m : Signal) (w : World) :
    StoredAs w (decryptMessage E a (.signal m) w.calm).1
      (decryptMessage E a (.signal m) w).2 (decryptMessage E a (.signal m) w.calm).2 := by
  simp only [decryptMessage]
  have ho := signal_outcome E a m w
  generalize decryptSignal E a m w = x at ho ⊢
  obtain ⟨r, w'⟩ := x
  simp only at ho ⊢
  cases ho with
  | early _ fs hr => exact .nothing rfl
  | stopped _ fs hr rec rec' pt rd h1 h2 ss kn hs hk =>
    rcases hs with rfl | ⟨rfl, _, st, k, h3, h4, ht⟩
    · exact .nothing (mid_of_copying hE ..)
    · have hrun := signal_run (E := E) (a := a) (w := w.calm) (m := m) rfl h1 h2 h3 h4 ht
      cases h2 with
      | ok p _ _ hd => rw [hrun]; exact .all p rfl rfl
      | failed e _ hd => exact .nothing (upd_self _ _ _ h1)
  | done fs rec rec' pt rd st k h1 h2 h3 h4 ht =>
    have hrun := signal_run (E := E) (a := a) (w := w.calm) (m := m) rfl h1 h2 h3 h4 ht
    cases h2 with
    | ok p _ _ hd => rw [hrun]; exact .all p rfl rfl
    | failed e _ hd => exact .nothing (upd_self _ _ _ h1)

theorem decrypt_stored (E : Env) (hE : E.aliased = false) (a : Address) (c : Ciphertext) (w : World) :
    StoredAs w (decryptMessage E a c w.calm).1
      (decryptMessage E a c w).2 (decryptMessage E a c w.calm).2 := by
  cases c with
  | preKey m => exact preKey_stored E hE a m w
  | signal m => exact signal_stored E hE a m w
  | senderKey m => exact .nothing rfl
  | plaintext m => exact .nothing rfl

/-- Without a failure that takes effect, a decryption that does not return a plaintext leaves the store alone. -/
theorem decrypt_unchanged (E : Env) (hE : E.aliased = false) (a : Address) (c : Ciphertext) (w : World) (hw : w.Reliable)
    (h : ∀ p, (decryptMessage E a c w).1 ≠ .ok (some p)) : (decryptMessage E a c w).2.sessions = w.sessions := by
  cases c with
  | preKey m =>
    rw [decryptMessage_preKey] at h ⊢
    have ho := preKey_outcome E a m w
    generalize decryptPreKey E a m w = x at ho h ⊢
    obtain ⟨r, w'⟩ := x
    simp only at ho h ⊢
    cases ho with
    | early _ fs hr => rfl
    | processed _ fs hr id rec rd ht hp kn hk => exact mid_of_copying hE ..
    | decrypted _ fs hr id rec rec' p rd ht hp hd ss pk hs =>
      rcases hs with ⟨rfl, _⟩ | ⟨_, _, hf | ⟨hf, _⟩⟩ | ⟨_, _, hf⟩
      · exact mid_of_copying hE ..
      · exact absurd hf (reliable_after hw)
      · exact absurd hf (reliable_before hw)
      · exact absurd hf (reliable_after hw)
    | done fs id rec rec' p rd ht hp hd => exact absurd rfl (h p)
  | signal m =>
    simp only [decryptMessage] at h ⊢
    have ho := signal_outcome E a m w
    generalize decryptSignal E a m w = x at ho h ⊢
    obtain ⟨r, w'⟩ := x
    simp only at ho h ⊢
    cases ho with
    | early _ fs hr => rfl
    | stopped _ fs hr rec rec' pt rd h1 h2 ss kn hs hk =>
      rcases hs with rfl | ⟨rfl, hf, _⟩
      · exact mid_of_copying hE ..
      · exact absurd hf (reliable_after hw)
    | done fs rec rec' pt rd st k h1 h2 h3 h4 ht =>
      cases h2 with
      | ok p _ _ hd => exact absurd rfl (h p)
      | failed e _ hd => exact upd_self _ _ _ h1
  | senderKey m => rfl
  | plaintext m => rfl

/-- What a session operation may do to the remembered identities: nothing, or remember one trusted key. -/
theorem known_after (E : Env) (w : World) (c : Call) :
    (c.run E w).2.known = w.known ∨ ∃ a k d, E.trusted w.known a k d = true ∧ (c.run E w).2.known = upd w.known a (some k) := by
  obtain ⟨op, rd, fs⟩ := c
  cases op with
  | encrypt a pt =>
    simp only [Call.run]
    have ho := encrypt_outcome E a pt { w with rand := rd, faults := fs }
    generalize encryptMessage E a pt { w with rand := rd, faults := fs } = x at ho ⊢
    obtain ⟨r, w'⟩ := x
    simp only at ho ⊢
    cases ho with
    | early => exact .inl rfl
    | stopped _ fs hr rec st st' msg k h1 h2 h3 ss kn hs hk =>
      rcases hk with rfl | ⟨rfl, ht⟩
      · exact .inl rfl
      · exact .inr ⟨a, k, _, ht, rfl⟩
    | done fs rec st st' msg k h1 h2 h3 ht => exact .inr ⟨a, k, _, ht, rfl⟩
  | decrypt a m =>
    simp only [Call.run]
    cases m with
    | preKey m =>
      rw [decryptMessage_preKey]
      have ho := preKey_outcome E a m { w with rand := rd, faults := fs }
      generalize decryptPreKey E a m { w with rand := rd, faults := fs } = x at ho ⊢
      obtain ⟨r, w'⟩ := x
      simp only at ho ⊢
      cases ho with
      | early => exact .inl rfl
      | processed _ fs hr id rec rd ht hp kn hk =>
        rcases hk with rfl | rfl
        · exact .inl rfl
        · exact .inr ⟨a, _, _, ht, rfl⟩
      | decrypted _ fs hr id rec rec' p rd ht hp hd ss pk hs => exact .inr ⟨a, _, _, ht, rfl⟩
      | done fs id rec rec' p rd ht hp hd => exact .inr ⟨a, _, _, ht, rfl⟩
    | signal m =>
      simp only [decryptMessage]
      have ho := signal_outcome E a m { w with rand := rd, faults := fs }
      generalize decryptSignal E a m { w with rand := rd, faults := fs } = x at ho ⊢
      obtain ⟨r, w'⟩ := x
      simp only at ho ⊢
      cases ho with
      | early => exact .inl rfl
      | stopped _ fs hr rec rec' pt rd h1 h2 ss kn hs hk =>
        rcases hk with rfl | ⟨st, k, _, _, ht, rfl⟩
        · exact .inl rfl
        · exact .inr ⟨a, k, _, ht, rfl⟩
      | done fs rec rec' pt rd st k h1 h2 h3 h4 ht => exact .inr ⟨a, k, _, ht, rfl⟩
    | senderKey m => exact .inl rfl
    | plaintext m => exact .inl rfl
  | bundle a b =>
    simp only [Call.run]
    have ho := bundle_outcome E a b { w with rand := rd, faults := fs }
    generalize processPreKeyBundle E a b { w with rand := rd, faults := fs } = x at ho ⊢
    obtain ⟨r, w'⟩ := x
    simp only at ho ⊢
    cases ho with
    | early => exact .inl rfl
    | stopped _ fs hr s rd ht hv h ss kn hk =>
      rcases hk with ⟨rfl, _⟩ | ⟨rfl, _⟩
      · exact .inl rfl
      · exact .inr ⟨a, _, _, ht, rfl⟩
    | done fs s rd ht hv h => exact .inr ⟨a, _, _, ht, rfl⟩
  | addPreKey id k => exact .inl rfl
  | addSignedPreKey id k => exact .inl rfl

end Verif
