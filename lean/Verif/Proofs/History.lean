import Verif.Spec.Session
import Verif.Proofs.WF

/-!
Reachable worlds: every stored record is well-formed.
-/

namespace Verif

/-- Every stored record is well-formed. -/
def World.WF (w : World) : Prop := ∀ a r, w.sessions a = some r → r.WF

theorem World.WF.upd {w : World} (h : w.WF) {a : Address} {r : Record} (hr : r.WF) :
    ∀ b q, Verif.upd w.sessions a (some r) b = some q → q.WF := by
  intro b q hq
  by_cases hb : b = a
  · subst hb; rw [upd_same] at hq; simp only [Option.some.injEq] at hq; subst hq; exact hr
  · rw [upd_ne _ _ hb] at hq; exact h b q hq

theorem World.WF.mid {E : Env} {w : World} (h : w.WF) {a : Address} {l : Bool} {r : Record} (hr : r.WF) :
    ∀ b q, Verif.mid E a l w.sessions r b = some q → q.WF := by
  unfold Verif.mid
  split
  · exact h.upd hr
  · exact h

theorem World.WF.getD {w : World} (h : w.WF) (a : Address) : ((w.sessions a).getD {}).WF := by
  cases hs : w.sessions a with
  | none => exact Record.WF.empty
  | some r => exact h a r hs

theorem Tried.WF {E : Env} {r r' : Record} {m : Signal} {rd rd' : Bytes} {p : Option Bytes} (h : r.WF)
    (ht : Tried E r m rd p r' rd') : r'.WF := by
  cases ht with
  | ok p _ _ hd => exact h.decrypt hd
  | failed _ _ _ => exact h

theorem World.WF.encrypt {E : Env} {a : Address} {pt : Bytes} {w : World} (h : w.WF) : (encryptMessage E a pt w).2.WF := by
  have ho := encrypt_outcome E a pt w
  generalize encryptMessage E a pt w = x at ho ⊢
  obtain ⟨r, w'⟩ := x
  simp only at ho ⊢
  cases ho with
  | early _ fs hr => exact h
  | stopped _ fs hr rec st st' msg k h1 h2 h3 ss kn hs hk =>
    have hr : (rec.setSessionState st').WF := (h a rec h1).setSessionState (((h a rec h1).current st h2).encrypt h3)
    rcases hs with rfl | ⟨rfl, _⟩
    · exact h.mid hr
    · exact h.upd hr
  | done fs rec st st' msg k h1 h2 h3 ht =>
    exact h.upd ((h a rec h1).setSessionState (((h a rec h1).current st h2).encrypt h3))

theorem World.WF.preKey {E : Env} {a : Address} {m : PreKeyMsg} {w : World} (h : w.WF) : (decryptPreKey E a m w).2.WF := by
  have ho := preKey_outcome E a m w
  generalize decryptPreKey E a m w = x at ho ⊢
  obtain ⟨r, w'⟩ := x
  simp only at ho ⊢
  cases ho with
  | early _ fs hr => exact h
  | processed _ fs hr id rec rd ht hp kn hk => exact h.mid (hp.WF (h.getD a))
  | decrypted _ fs hr id rec rec' p rd ht hp hd ss pk hs =>
    have hr : rec'.WF := (hp.WF (h.getD a)).decrypt hd
    rcases hs with ⟨rfl, _⟩ | ⟨rfl, _⟩ | ⟨rfl, _⟩
    · exact h.mid hr
    · exact h.upd hr
    · exact h.upd hr
  | done fs id rec rec' p rd ht hp hd => exact h.upd ((hp.WF (h.getD a)).decrypt hd)

theorem World.WF.signal {E : Env} {a : Address} {m : Signal} {w : World} (h : w.WF) : (decryptSignal E a m w).2.WF := by
  have ho := signal_outcome E a m w
  generalize decryptSignal E a m w = x at ho ⊢
  obtain ⟨r, w'⟩ := x
  simp only at ho ⊢
  cases ho with
  | early _ fs rd hr => exact h
  | stopped _ fs hr rec rec' pt rd h1 h2 ss kn hs hk =>
    have hr : rec'.WF := h2.WF (h a rec h1)
    rcases hs with rfl | ⟨rfl, _⟩
    · exact h.mid hr
    · exact h.upd hr
  | done fs rec rec' pt rd st k h1 h2 h3 h4 ht => exact h.upd (h2.WF (h a rec h1))

theorem World.WF.bundle {E : Env} {a : Address} {b : Bundle} {w : World} (h : w.WF) : (processPreKeyBundle E a b w).2.WF := by
  have ho := bundle_outcome E a b w
  generalize processPreKeyBundle E a b w = x at ho ⊢
  obtain ⟨r, w'⟩ := x
  simp only at ho ⊢
  cases ho with
  | early _ fs rd hr => exact h
  | stopped _ fs hr s rd ht hv hf ss kn hk =>
    have hr : (((w.sessions a).getD {}).promoteState s).WF := (h.getD a).promoteState hf.WF
    rcases hk with ⟨_, rfl⟩ | ⟨_, rfl | rfl | ⟨rfl, _⟩⟩
    · exact h
    · exact h
    · exact h.mid hr
    · exact h.upd hr
  | done fs s rd ht hv hf => exact h.upd ((h.getD a).promoteState hf.WF)

theorem decryptMessage_preKey (E : Env) (a : Address) (m : PreKeyMsg) (w : World) :
    decryptMessage E a (.preKey m) w =
      ((match (decryptPreKey E a m w).1 with | .ok p => .ok (some p) | .err e => .err e | .panic => .panic), (decryptPreKey E a m w).2) := by
  simp only [decryptMessage]
  rw [M.bind_run]
  rcases decryptPreKey E a m w with ⟨r, w'⟩
  cases r <;> rfl

theorem World.WF.decrypt {E : Env} {a : Address} {c : Ciphertext} {w : World} (h : w.WF) : (decryptMessage E a c w).2.WF := by
  cases c with
  | preKey m => rw [decryptMessage_preKey]; exact h.preKey
  | signal m => exact h.signal
  | senderKey m => exact h
  | plaintext m => exact h

theorem World.WF.call {E : Env} {c : Call} {w : World} (h : w.WF) : (c.run E w).2.WF := by
  have h' : World.WF { w with rand := c.rand, faults := c.faults } := h
  unfold Call.run
  obtain ⟨op, rd, fs⟩ := c
  cases op with
  | encrypt a pt => exact h'.encrypt
  | decrypt a m => exact h'.decrypt
  | bundle a b => exact h'.bundle
  | addPreKey id k => exact h'
  | addSignedPreKey id k => exact h'

theorem World.WF.after {E : Env} {cs : List Call} {w : World} (h : w.WF) : (after E cs w).WF := by
  induction cs generalizing w with
  | nil => exact h
  | cons c cs ih => exact ih (w := (c.run E w).2) h.call

theorem World.NoSessions.WF {w : World} (h : w.NoSessions) : w.WF := by
  intro a r hr
  rw [h a] at hr
  simp at hr

end Verif
