import Verif.Props.Secrecy

/-!
# C03: which messages are accepted a second time, exactly
-/

namespace Verif

open Ex

/-- **C03**, exactly, for an immediate second try. A session state that has decrypted a message opens it again if and only if the message was
the newest of its chain, and then with the same plaintext; a message that came after a newer one is reported as a duplicate. -/
theorem C03_replay_exactly_partial (E : Env) (w : World) (hw : Reachable E w) (a : Address) (r : Record) (hr : w.sessions a = some r) (s : SState)
    (hs : r.HasState s) (m : Signal) (p rd rd' : Bytes) (s1 : SState) (hd : decryptMessageSession E.C s m rd = (.ok (p, s1), rd'))
    (rand : Bytes) (hrand : 32 ≤ rand.length) (hlow : ∀ k : PrivKey, (E.C.dh k.key m.senderRatchetKey.key).isSome) :
    (s.position m.senderRatchetKey ≤ m.counter.toNat → ∃ s2 rd2, decryptMessageSession E.C s1 m rand = (.ok (p, s2), rd2)) ∧
    (m.counter.toNat < s.position m.senderRatchetKey → decryptMessageSession E.C s1 m rand = (.err .duplicateMessage, rand)) := by
  have hwf := (hw.WF a r hr).state_of hs
  refine ⟨fun h => ?_, fun h => ?_⟩
  · obtain ⟨s2, rd2, h2⟩ := (hwf.decrypt hd).reads (kept_after hwf hd (by omega)) rand hrand hlow
    exact ⟨s2, rd2, h2⟩
  · exact SState.Spent.rejected (hwf.decrypt hd) (SState.Spent.of_decrypted hwf hd h) (decrypted_shape hwf hd).version rand

/-- **C03** fails for every session and every store, not only in the example: whenever `DecryptMessage` delivers a plain message that is the
newest of its chain, and nothing happens in between, it delivers the same message again. (The identity store must trust the key that it
has just stored, store calls must not fail, and there must be 32 random bytes.) -/
theorem C03_newest_again_false (E : Env) (w : World) (hw : Reachable E w) (hf : w.faults = []) (a : Address) (m : Signal) (p : Bytes)
    (h : (decryptMessage E a (.signal m) w).1 = .ok (some p))
    (hnew : ∀ r s, w.sessions a = some r → r.HasState s → s.position m.senderRatchetKey ≤ m.counter.toNat)
    (htrust : ∀ k, E.trusted w.known a k .receiving = true → E.trusted (upd w.known a (some k)) a k .receiving = true)
    (hrand : 32 ≤ (decryptMessage E a (.signal m) w).2.rand.length)
    (hlow : ∀ k : PrivKey, (E.C.dh k.key m.senderRatchetKey.key).isSome) :
    (decryptMessage E a (.signal m) (decryptMessage E a (.signal m) w).2).1 = .ok (some p) := by
  simp only [decryptMessage] at h hrand ⊢
  have ho := signal_outcome E a m w
  generalize hx : decryptSignal E a m w = x at ho h hrand ⊢
  obtain ⟨r, w'⟩ := x
  simp only at ho h hrand ⊢
  subst h
  cases ho with
  | early _ fs rd hr => exact absurd rfl (hr _)
  | stopped _ fs hr => exact absurd rfl (hr _)
  | done fs rec rec' pt rd st k h1 h2 h3 h4 ht =>
    cases h2 with
    | ok _ _ rd' hd =>
      have hf' : fs = [] := by
        have := signal_run hf h1 (.ok _ _ _ hd) h3 h4 ht
        rw [hx] at this
        have := congrArg (fun y => y.2.faults) this
        simpa [hf] using this
      have hwf := hw.WF a rec h1
      obtain ⟨s, s', rd1, rd2, h5, h6, h7⟩ := hwf.decrypted hd
      have hs : rec.HasState s := by
        rcases h7 with ⟨h7, _⟩ | ⟨l', idx, h7, h8, _⟩
        · exact .inl h7
        · exact (hwf.hasState h7 s).mpr (.inr (List.mem_of_getElem? h8))
      rw [h3] at h6
      cases h6
      have hws := hwf.state_of hs
      obtain ⟨s2, rd3, h8⟩ := (hws.decrypt h5).reads (kept_after hws h5 (by have := hnew rec s h1 hs; omega)) rd hrand hlow
      have hrec : decryptRecord E.C rec' m rd = (.ok (p, rec'.setSessionState s2), rd3) := by
        unfold decryptRecord
        rw [h3]
        simp only
        rw [M.bind_run, M.attempt, h8]
        rfl
      have hpeer : s2.remoteIdentityKey = .ok (some k) := by
        have := (decryptMessageSession_keeps h8).2.2.2.1
        rw [← h4]; unfold SState.remoteIdentityKey; rw [this]
      have := signal_run (E := E) (a := a) (m := m) (w := { w with faults := fs, sessions := upd w.sessions a (some rec'), known := upd w.known a (some k), rand := rd })
        (st := s2) (k := k) hf' (upd_same _ _ _) (.ok _ _ _ hrec) rfl hpeer (htrust k ht)
      rw [this]

/-- Bob's session in the example meets the hypotheses: the message is the newest of its chain. -/
example : (decryptMessage copying alice m3 bob2).1 = .ok (some [5, 5]) ∧ 32 ≤ (decryptMessage copying alice m3 bob2).2.rand.length ∧
    (match bob2.sessions alice, m3.inner with
      | some r, some x => (match r.current with
        | some s => r.previous.length == 0 && decide (s.position x.senderRatchetKey ≤ x.counter.toNat)
        | none => false)
      | _, _ => false) = true ∧ bob2.faults = [] := by decide +kernel

end Verif
