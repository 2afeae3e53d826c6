import Verif.Proofs.Openness
import Verif.Proofs.Reading
import Verif.Proofs.Reuse

/-!
What a DecryptMessage call without a plaintext leaves behind, for both kinds of store.
-/

namespace Verif

theorem promoteState_states_exact {r : Record} (h : r.WF) {s : SState} (hr' : (r.promoteState s).WF) :
    (r.promoteState s).states = r.states ++ [s] ∨ (r.states.length = 41 ∧ (r.promoteState s).states = r.states.tail ++ [s]) := by
  obtain ⟨l, hwf, hp, hl⟩ := h.states
  have hcur : (r.promoteState s).current = some s := rfl
  cases hc : r.current with
  | none =>
    left
    rw [states_eq (l := l) hr' (by simpa [Record.previousStates, Record.promoteState, Record.archiveCurrentState, hc] using hl),
      states_eq h hl, hcur, hc]
    simp
  | some c =>
    have hd : ∀ k, r.previous.drop k ++ [c.marshal] = ((l.drop k) ++ [c]).map SState.marshal := by
      intro k; rw [hp]; simp
    have hw : ∀ k, ∀ t ∈ l.drop k ++ [c], t.WF := by
      intro k t ht
      rcases List.mem_append.mp ht with ht | ht
      · exact hwf t (List.mem_of_mem_drop ht)
      · simp only [List.mem_singleton] at ht; subst ht; exact h.current _ hc
    have hpl : r.previous.length = l.length := by rw [hp]; simp
    rcases Nat.lt_or_ge r.previous.length maxArchivedStates with hlt | hge
    · left
      have e : (r.promoteState s).previous = r.previous.drop 0 ++ [c.marshal] := by
        simp only [Record.promoteState, Record.archiveCurrentState, hc]
        rw [if_neg (by omega)]; simp
      rw [states_eq hr' (previousStates_map (hw 0) (by rw [e]; exact hd 0)), states_eq h hl, hcur, hc]
      simp
    · right
      have hlen : l.length = 40 := by
        have := h.count
        have e : maxArchivedStates = 40 := rfl
        omega
      have e : (r.promoteState s).previous = r.previous.drop 1 ++ [c.marshal] := by
        simp only [Record.promoteState, Record.archiveCurrentState, hc]
        rw [if_pos hge]
      rw [states_eq hr' (previousStates_map (hw 1) (by rw [e]; exact hd 1)), states_eq h hl, hcur, hc]
      refine ⟨by simp [hlen], ?_⟩
      cases l with
      | nil => simp at hlen
      | cons x l => simp

/-- A message that was decrypted in memory but not returned, with stores that do not fail. -/
theorem signal_refused {E : Env} {w : World} (hw : w.WF) (hf : w.faults = []) {a : Address} {m : Signal} {r x : Record} {p rd : Bytes}
    (hr : w.sessions a = some r) (hd : decryptRecord E.C r m w.rand = (.ok (p, x), rd))
    (hn : ∀ p, (decryptSignal E a m w).1 ≠ .ok (some p)) :
    (decryptSignal E a m w).1 = .err (.untrustedIdentity a) ∧
    (decryptSignal { E with trusted := fun _ _ _ _ => true } a m w).1 = .ok (some p) ∧
    (decryptSignal { E with trusted := fun _ _ _ _ => true } a m w).2.sessions = upd w.sessions a (some x) := by
  have hl : loadSession a w = (.ok (some r), { w with faults := [] }) := by
    have : ∀ v : World, v.faults = [] → loadSession a v = (.ok (v.sessions a), { v with faults := [] }) := by
      intro v hv; cases v; simp only at hv; subst hv; rfl
    rw [this w hf, hr]
  have hx := (hw a r hr).decrypt hd
  obtain ⟨s, s', _, _, hd', hc, _⟩ := (hw a r hr).decrypted hd
  obtain ⟨k, hk⟩ := (hx.current s' hc).remoteId
  have hk' := SState.remoteIdentityKey_bytes hk
  rw [decryptSignal_split E a m w [] r x p rd hl hd] at hn ⊢
  rw [decryptSignal_split { E with trusted := fun _ _ _ _ => true } a m w [] r x p rd hl hd]
  unfold signalTail at hn ⊢
  rw [M.bind_ok_run (touch_run E a true _ _)] at hn ⊢
  rw [M.bind_ok_run (touch_run { E with trusted := fun _ _ _ _ => true } a true _ _)]
  simp only [hc, hk'] at hn ⊢
  have ht : ∀ (F : Env) (v : World), v.faults = [] → isTrusted F a k .receiving v = (.ok (F.trusted v.known a k .receiving), v) := by
    intro F v hv
    unfold isTrusted storeCall
    rw [hv]
  have hi : ∀ v : World, v.faults = [] → storeIdentity a k v = (.ok (), { v with known := upd v.known a (some k) }) := by
    intro v hv; cases v; simp only at hv; subst hv; rfl
  have hs : ∀ v : World, v.faults = [] → storeSession a x v = (.ok (), { v with sessions := upd v.sessions a (some x) }) := by
    intro v hv; cases v; simp only at hv; subst hv; rfl
  have run : ∀ v : World, v.faults = [] → ∃ v', ((do storeIdentity a k; storeSession a x; return some p) : M World (Option Bytes)) v = (.ok (some p), v') ∧
      v'.sessions = upd v.sessions a (some x) := by
    intro v hv
    rw [M.bind_ok_run (hi v hv), M.bind_ok_run (hs { v with known := upd v.known a (some k) } hv)]
    exact ⟨_, rfl, rfl⟩
  rw [M.bind_ok_run (ht E _ rfl)] at hn ⊢
  rw [M.bind_ok_run (ht _ _ rfl)]
  simp only [if_true] at hn ⊢
  have up : upd (mid { E with trusted := fun _ _ _ _ => true } a true w.sessions x) a (some x) = upd w.sessions a (some x) := by
    unfold mid
    split
    · funext b; by_cases hb : b = a
      · subst hb; simp
      · rw [upd_ne (upd w.sessions a (some x)) _ hb, upd_ne w.sessions _ hb]
    · rfl
  refine ⟨?_, ?_⟩
  · split at hn
    · rename_i h
      obtain ⟨v', e, _⟩ := run _ (rfl : (⟨mid E a true w.sessions x, w.preKeys, w.signedPreKeys, w.known, w.identity, w.regId, rd, []⟩ : World).faults = [])
      exact absurd (by rw [e]) (hn p)
    · rename_i h
      rw [if_neg h]
      rfl
  · obtain ⟨v', e, e2⟩ := run _ (rfl : (⟨mid { E with trusted := fun _ _ _ _ => true } a true w.sessions x, w.preKeys, w.signedPreKeys, w.known, w.identity, w.regId, rd, []⟩ : World).faults = [])
    rw [e]
    exact ⟨rfl, e2.trans up⟩

end Verif
