import Verif.Proofs.Duo
import Verif.Proofs.Reading
import Verif.Spec.Sessions

/-!
Records of which at most one state reads a message.
-/

namespace Verif

attribute [local irreducible] maxMessageKeys

/-- The state does not read the message, and does not take it for a repeated one either. -/
def Hopeless (C : Crypto) (m : Signal) (u : SState) : Prop :=
  ∀ rd : Bytes, 32 ≤ rd.length → ∃ e rd', decryptMessageSession C u m rd = (.err e, rd') ∧ e ≠ .duplicateMessage ∧ (rd' = rd ∨ rd' = rd.drop 32)

theorem SState.WF.hopeless {C : Crypto} {m : Signal} {u : SState} (h : u.WF) (hm : 8 ≤ m.serialized.length)
    (hsp : ¬ u.Spent m.senderRatchetKey m.counter) (hr : ∀ p, ¬ u.CanRead C m p) : Hopeless C m u := by
  intro rd hrd
  have h1 := once_decrypt C u m rd hrd
  have h2 := h.no_panic (C := C) hm rd
  rcases hx : decryptMessageSession C u m rd with ⟨r, rd'⟩
  rw [hx] at h1 h2
  cases r with
  | ok x => exact absurd (h.canRead_of hx) (hr _)
  | panic => exact absurd rfl h2
  | err e =>
    refine ⟨e, rd', rfl, ?_, h1⟩
    rintro rfl
    exact hsp (h.duplicate_spent hx)

theorem tryPrevious_hopeless {C : Crypto} {m : Signal} (l : List SState) (hl : ∀ u ∈ l, Hopeless C m u) (i : Nat)
    (found : Option (Nat × SState × Bytes)) (rd : Bytes) (hrd : 32 * l.length ≤ rd.length) :
    ∃ j, j ≤ l.length ∧ tryPrevious C m l i found rd = (.ok found, rd.drop (32 * j)) := by
  induction l generalizing i rd with
  | nil => exact ⟨0, Nat.le_refl _, by simp [tryPrevious]⟩
  | cons u l ih =>
    simp only [List.length_cons] at hrd ⊢
    obtain ⟨e, rd1, h1, h2, h3⟩ := hl u (by simp) rd (by omega)
    have hrd1 : ∃ j, j ≤ 1 ∧ rd1 = rd.drop (32 * j) := by
      rcases h3 with rfl | rfl
      · exact ⟨0, by omega, by simp⟩
      · exact ⟨1, by omega, by simp⟩
    obtain ⟨j1, hj1, rfl⟩ := hrd1
    obtain ⟨j, hj, ih⟩ := ih (fun u hu => hl u (by simp [hu])) (i + 1) (rd.drop (32 * j1)) (by rw [List.length_drop]; omega)
    refine ⟨j1 + j, by omega, ?_⟩
    simp only [tryPrevious]
    rw [M.bind_run, M.attempt, h1]
    rw [List.drop_drop, show 32 * j1 + 32 * j = 32 * (j1 + j) by omega] at ih
    simp only
    rw [← ih]

/-- Among states that do not read it, one that may. -/
theorem tryPrevious_single {C : Crypto} {m : Signal} (l1 l2 : List SState) (t : SState) (h1 : ∀ u ∈ l1, Hopeless C m u) (h2 : ∀ u ∈ l2, Hopeless C m u)
    (rd : Bytes) (hrd : 32 * (l1.length + 1 + l2.length) ≤ rd.length) (ht : ∀ rd, (decryptMessageSession C t m rd).1 ≠ .panic) :
    ∃ j, j ≤ l1.length ∧
      (∀ p t' rd1, decryptMessageSession C t m (rd.drop (32 * j)) = (.ok (p, t'), rd1) →
        ∃ rd', tryPrevious C m (l1 ++ t :: l2) 0 none rd = (.ok (some (l1.length, t', p)), rd')) ∧
      ((∀ p t' rd1, decryptMessageSession C t m (rd.drop (32 * j)) ≠ (.ok (p, t'), rd1)) →
        ∃ r rd', tryPrevious C m (l1 ++ t :: l2) 0 none rd = (r, rd') ∧ (r = .ok none ∨ ∃ e, r = .err e)) := by
  have key : ∀ (i : Nat) (rd : Bytes), 32 * (l1.length + 1 + l2.length) ≤ rd.length → ∃ j, j ≤ l1.length ∧
      (∀ p t' rd1, decryptMessageSession C t m (rd.drop (32 * j)) = (.ok (p, t'), rd1) →
        ∃ rd', tryPrevious C m (l1 ++ t :: l2) i none rd = (.ok (some (i + l1.length, t', p)), rd')) ∧
      ((∀ p t' rd1, decryptMessageSession C t m (rd.drop (32 * j)) ≠ (.ok (p, t'), rd1)) →
        ∃ r rd', tryPrevious C m (l1 ++ t :: l2) i none rd = (r, rd') ∧ (r = .ok none ∨ ∃ e, r = .err e)) := by
    clear hrd rd
    induction l1 with
    | nil =>
      intro i rd hrd
      simp only [List.length_nil, Nat.zero_add] at hrd ⊢
      refine ⟨0, Nat.le_refl _, ?_, ?_⟩
      · intro p t' rd1 hd
        simp only [Nat.mul_zero, List.drop_zero] at hd
        have ho := once_decrypt C t m rd (by omega)
        rw [hd] at ho
        simp only at ho
        obtain ⟨j, _, hj⟩ := tryPrevious_hopeless l2 h2 (i + 1) (some (i, t', p)) rd1 (by rcases ho with ho | ho <;> rw [ho]; omega; rw [List.length_drop]; omega)
        refine ⟨rd1.drop (32 * j), ?_⟩
        simp only [List.nil_append, tryPrevious]
        rw [M.bind_run, M.attempt, hd]
        exact hj
      · intro hno
        simp only [Nat.mul_zero, List.drop_zero] at hno
        have ho := once_decrypt C t m rd (by omega)
        have hp := ht rd
        simp only [List.nil_append, tryPrevious]
        rw [M.bind_run, M.attempt]
        rcases hx : decryptMessageSession C t m rd with ⟨r, rd1⟩
        rw [hx] at ho hp
        cases r with
        | ok x => exact absurd hx (hno _ _ _)
        | panic => exact absurd rfl hp
        | err e =>
          simp only at ho ⊢
          obtain ⟨j, _, hj⟩ := tryPrevious_hopeless l2 h2 (i + 1) none rd1 (by rcases ho with ho | ho <;> rw [ho]; omega; rw [List.length_drop]; omega)
          by_cases he : e = .duplicateMessage
          · subst he
            exact ⟨_, _, rfl, .inr ⟨_, rfl⟩⟩
          · refine ⟨_, rd1.drop (32 * j), ?_, .inl rfl⟩
            rw [← hj]
            cases e <;> first | rfl | exact absurd rfl he
    | cons u l1 ih =>
      intro i rd hrd
      simp only [List.length_cons] at hrd ⊢
      obtain ⟨e, rd1, g1, g2, g3⟩ := h1 u (by simp) rd (by omega)
      have hrd1 : ∃ j, j ≤ 1 ∧ rd1 = rd.drop (32 * j) := by
        rcases g3 with rfl | rfl
        · exact ⟨0, by omega, by simp⟩
        · exact ⟨1, by omega, by simp⟩
      obtain ⟨j1, hj1, rfl⟩ := hrd1
      obtain ⟨j, hj, ih1, ih2⟩ := ih (fun u hu => h1 u (by simp [hu])) (i + 1) (rd.drop (32 * j1)) (by rw [List.length_drop]; omega)
      rw [List.drop_drop, show 32 * j1 + 32 * j = 32 * (j1 + j) by omega] at ih1 ih2
      have hstep : tryPrevious C m (u :: l1 ++ t :: l2) i none rd = tryPrevious C m (l1 ++ t :: l2) (i + 1) none (rd.drop (32 * j1)) := by
        simp only [List.cons_append, tryPrevious]
        rw [M.bind_run, M.attempt, g1]
        simp only
      rw [hstep]
      refine ⟨j1 + j, by omega, ?_, ih2⟩
      intro p t' rd2 hd
      obtain ⟨rd', hx⟩ := ih1 p t' rd2 hd
      exact ⟨rd', by rw [hx, show i + 1 + l1.length = i + (l1.length + 1) by omega]⟩
  obtain ⟨j, h3, h4, h5⟩ := key 0 rd hrd
  refine ⟨j, h3, ?_, h5⟩
  intro p t' rd1 hd
  obtain ⟨rd', hx⟩ := h4 p t' rd1 hd
  exact ⟨rd', by rw [hx, Nat.zero_add]⟩

theorem Record.WF.promoteOld {r : Record} {l1 l2 : List SState} {t : SState} (h : r.WF) (hl : r.previousStates = .ok (l1 ++ t :: l2)) (t' : SState) :
    (r.promoteOldState l1.length t').current = some t' ∧
    (r.promoteOldState l1.length t').previousStates = .ok (l1 ++ l2 ++ r.current.toList) := by
  obtain ⟨l, hwf, hm, hl'⟩ := h.states
  rw [hl] at hl'
  simp only [Res.ok.injEq] at hl'
  subst hl'
  have hlen : r.previous.length = l1.length + 1 + l2.length := by rw [hm]; simp; omega
  have hcount := h.count
  rw [show maxArchivedStates = 40 from rfl] at hcount
  have e1 : r.previous.take l1.length ++ r.previous.drop (l1.length + 1) = (l1 ++ l2).map SState.marshal := by
    rw [hm, ← List.map_take, ← List.map_drop, ← List.map_append]
    simp [List.drop_append]
  have hwf2 : ∀ u ∈ l1 ++ l2, u.WF := by
    intro u hu
    rcases List.mem_append.mp hu with hu | hu <;> exact hwf u (by simp [hu])
  unfold Record.promoteOldState
  rw [if_neg (by omega)]
  refine ⟨rfl, ?_⟩
  unfold Record.promoteState Record.archiveCurrentState
  cases hc : r.current with
  | none =>
    simp only [Option.toList_none, List.append_nil]
    exact previousStates_map hwf2 e1
  | some c =>
    have hne : ¬ (r.previous.take l1.length ++ r.previous.drop (l1.length + 1)).length ≥ maxArchivedStates := by
      rw [e1, List.length_map, List.length_append, show maxArchivedStates = 40 from rfl]; omega
    simp only [if_neg hne, Option.toList_some]
    refine previousStates_map (l := l1 ++ l2 ++ [c]) ?_ (by rw [e1]; simp)
    intro u hu
    rcases List.mem_append.mp hu with hu | hu
    · exact hwf2 u hu
    · simp only [List.mem_singleton] at hu
      subst hu
      exact h.current _ hc

theorem Record.WF.promoted {r : Record} {l : List SState} (h : r.WF) (hl : r.previousStates = .ok l) (hn : (r.current.toList ++ l).length ≤ 40) (t : SState) :
    (r.promoteState t).current = some t ∧ (r.promoteState t).previousStates = .ok (l ++ r.current.toList) := by
  obtain ⟨l', hwf, hm, hl'⟩ := h.states
  rw [hl] at hl'
  simp only [Res.ok.injEq] at hl'
  subst hl'
  refine ⟨rfl, ?_⟩
  unfold Record.promoteState Record.archiveCurrentState
  cases hc : r.current with
  | none =>
    simp only [Option.toList_none, List.append_nil]
    exact previousStates_map hwf hm
  | some c =>
    rw [hc, List.length_append, Option.toList_some, List.length_singleton] at hn
    have hne : ¬ r.previous.length ≥ maxArchivedStates := by
      rw [hm, List.length_map, show maxArchivedStates = 40 from rfl]; omega
    simp only [if_neg hne, Option.toList_some]
    refine previousStates_map (l := l ++ [c]) ?_ (by rw [hm]; simp)
    intro u hu
    rcases List.mem_append.mp hu with hu | hu
    · exact hwf u hu
    · simp only [List.mem_singleton] at hu
      subst hu
      exact h.current _ hc

/-- A record of which only the state `t` may read the message. -/
theorem decryptRecord_single {C : Crypto} {m : Signal} {r : Record} {l : List SState} (h : r.WF) (hl : r.previousStates = .ok l) {t : SState}
    (ht : r.HasState t) (hpan : ∀ rd, (decryptMessageSession C t m rd).1 ≠ .panic) (hn : ((r.current.toList ++ l).map (·.aliceBaseKey)).Nodup)
    (hother : ∀ u, r.HasState u → u.aliceBaseKey ≠ t.aliceBaseKey → Hopeless C m u) (rd : Bytes) (hrd : 32 * 41 ≤ rd.length) :
    ∃ j, j < 41 ∧
      (∀ p t' rd1, decryptMessageSession C t m (rd.drop (32 * j)) = (.ok (p, t'), rd1) →
        ∃ r' rd', decryptRecord C r m rd = (.ok (p, r'), rd') ∧ r'.current = some t' ∧
          ((r.current = some t ∧ r'.previousStates = .ok l) ∨
            ∃ l1 l2, l = l1 ++ t :: l2 ∧ r'.previousStates = .ok (l1 ++ l2 ++ r.current.toList))) ∧
      ((∀ p t' rd1, decryptMessageSession C t m (rd.drop (32 * j)) ≠ (.ok (p, t'), rd1)) → ∃ e rd', decryptRecord C r m rd = (.err e, rd')) := by
  have hmem := fun u => h.hasState hl u
  have hlen : l.length ≤ 40 := by
    obtain ⟨l', _, he, hl'⟩ := h.states
    rw [hl] at hl'
    simp only [Res.ok.injEq] at hl'
    subst hl'
    have := h.count
    rw [he, List.length_map] at this
    exact this
  rw [List.map_append, List.nodup_append] at hn
  obtain ⟨_, n2, n3⟩ := hn
  -- the archived states, when the current one does not read it
  have hprev : t ∈ l → ∀ rd0 : Bytes, 32 * 40 ≤ rd0.length →
      ∃ j, j < 40 ∧
      (∀ p t' rd1, decryptMessageSession C t m (rd0.drop (32 * j)) = (.ok (p, t'), rd1) →
        ∃ l1 l2 rd', l = l1 ++ t :: l2 ∧ decryptPrevious C r m rd0 = (.ok (p, r.promoteOldState l1.length t'), rd')) ∧
      ((∀ p t' rd1, decryptMessageSession C t m (rd0.drop (32 * j)) ≠ (.ok (p, t'), rd1)) → ∃ e rd', decryptPrevious C r m rd0 = (.err e, rd')) := by
    intro htl rd0 hrd0
    obtain ⟨l1, l2, rfl⟩ := List.append_of_mem htl
    rw [List.map_append, List.map_cons, List.nodup_append, List.nodup_cons] at n2
    obtain ⟨_, ⟨n5, _⟩, n7⟩ := n2
    rw [List.length_append, List.length_cons] at hlen
    obtain ⟨j, hj, a1, a2⟩ := tryPrevious_single (C := C) (m := m) l1 l2 t
      (fun u hu => hother u ((hmem u).mpr (.inr (by simp [hu]))) (n7 _ (List.mem_map_of_mem hu) _ (by simp)))
      (fun u hu => hother u ((hmem u).mpr (.inr (by simp [hu]))) (fun he => n5 (he ▸ List.mem_map_of_mem hu)))
      rd0 (by omega) hpan
    have hrun : decryptPrevious C r m rd0 = (match tryPrevious C m (l1 ++ t :: l2) 0 none rd0 with
        | (.ok (some (idx, s, p)), rd') => (.ok (p, r.promoteOldState idx s), rd')
        | (.ok none, rd') => (.err .decryptionFailed, rd')
        | (.err e, rd') => (.err e, rd')
        | (.panic, rd') => (.panic, rd')) := by
      unfold decryptPrevious
      rw [M.bind_run, M.lift_run, hl]
      simp only
      rw [M.bind_run]
      rcases tryPrevious C m (l1 ++ t :: l2) 0 none rd0 with ⟨x, rd'⟩
      cases x with
      | err => rfl
      | panic => rfl
      | ok y =>
        cases y with
        | none => rfl
        | some z => rfl
    refine ⟨j, by omega, ?_, ?_⟩
    · intro p t' rd1 hd
      obtain ⟨rd', hx⟩ := a1 p t' rd1 hd
      rw [hrun, hx]
      exact ⟨l1, l2, _, rfl, rfl⟩
    · intro hno
      obtain ⟨x, rd', hx, hc⟩ := a2 hno
      rw [hrun, hx]
      rcases hc with rfl | ⟨e, rfl⟩
      · exact ⟨_, _, rfl⟩
      · exact ⟨_, _, rfl⟩
  -- the whole record
  have hmain : ∃ j, j < 41 ∧
      (∀ p t' rd1, decryptMessageSession C t m (rd.drop (32 * j)) = (.ok (p, t'), rd1) →
        (r.current = some t ∧ ∃ rd', decryptRecord C r m rd = (.ok (p, r.setSessionState t'), rd')) ∨
        ∃ l1 l2 rd', l = l1 ++ t :: l2 ∧ decryptRecord C r m rd = (.ok (p, r.promoteOldState l1.length t'), rd')) ∧
      ((∀ p t' rd1, decryptMessageSession C t m (rd.drop (32 * j)) ≠ (.ok (p, t'), rd1)) → ∃ e rd', decryptRecord C r m rd = (.err e, rd')) := by
    unfold decryptRecord
    cases hc : r.current with
    | none =>
      have htl : t ∈ l := by
        rcases (hmem t).mp ht with h1 | h1
        · rw [hc] at h1; simp at h1
        · exact h1
      obtain ⟨j, hj, a1, a2⟩ := hprev htl rd (by omega)
      exact ⟨j, by omega, fun p t' rd1 hd => .inr (a1 p t' rd1 hd), a2⟩
    | some cur =>
      simp only
      by_cases hct : cur = t
      · subst hct
        refine ⟨0, by omega, ?_, ?_⟩
        · intro p t' rd1 hd
          simp only [Nat.mul_zero, List.drop_zero] at hd
          rw [M.bind_run, M.attempt, hd]
          exact .inl ⟨rfl, _, rfl⟩
        · intro hno
          simp only [Nat.mul_zero, List.drop_zero] at hno
          have hp := hpan rd
          have ho := once_decrypt C cur m rd (by omega)
          rw [M.bind_run, M.attempt]
          rcases hx : decryptMessageSession C cur m rd with ⟨x, rd1⟩
          rw [hx] at hp ho
          cases x with
          | ok y => exact absurd hx (hno _ _ _)
          | panic => exact absurd rfl hp
          | err e =>
            simp only at ho ⊢
            by_cases he : e = .duplicateMessage
            · subst he
              exact ⟨_, _, rfl⟩
            · have hrest : ∃ e' rd', decryptPrevious C r m rd1 = (.err e', rd') := by
                obtain ⟨j, hj, hx⟩ := tryPrevious_hopeless (C := C) (m := m) l
                  (fun u hu => hother u ((hmem u).mpr (.inr hu)) (fun he => n3 cur.aliceBaseKey (by simp [hc]) u.aliceBaseKey (List.mem_map_of_mem hu) he.symm))
                  0 none rd1 (by rcases ho with ho | ho <;> rw [ho]; omega; rw [List.length_drop]; omega)
                refine ⟨.decryptionFailed, rd1.drop (32 * j), ?_⟩
                unfold decryptPrevious
                rw [M.bind_run, M.lift_run, hl]
                simp only
                rw [M.bind_run, hx]
                rfl
              obtain ⟨e', rd', hx'⟩ := hrest
              refine ⟨e', rd', ?_⟩
              rw [← hx']
              cases e <;> first | rfl | exact absurd rfl he
      · have htl : t ∈ l := by
          rcases (hmem t).mp ht with h1 | h1
          · rw [hc] at h1
            simp only [Option.some.injEq] at h1
            exact absurd h1 hct
          · exact h1
        have hbase : cur.aliceBaseKey ≠ t.aliceBaseKey := n3 _ (by simp [hc]) _ (List.mem_map_of_mem htl)
        obtain ⟨e, rd1, g1, g2, g3⟩ := hother cur ((hmem cur).mpr (.inl hc)) hbase rd (by omega)
        have hrd1 : ∃ j, j ≤ 1 ∧ rd1 = rd.drop (32 * j) := by
          rcases g3 with rfl | rfl
          · exact ⟨0, by omega, by simp⟩
          · exact ⟨1, by omega, by simp⟩
        obtain ⟨j1, hj1, rfl⟩ := hrd1
        obtain ⟨j, hj, a1, a2⟩ := hprev htl (rd.drop (32 * j1)) (by rw [List.length_drop]; omega)
        rw [List.drop_drop, show 32 * j1 + 32 * j = 32 * (j1 + j) by omega] at a1 a2
        have hstep : ∀ (x : Res (Bytes × Record) × Bytes), decryptPrevious C r m (rd.drop (32 * j1)) = x →
            (do match ← M.attempt (decryptMessageSession C cur m) with
              | .ok (plaintext, s) => return (plaintext, r.setSessionState s)
              | .error .duplicateMessage => M.throw .duplicateMessage
              | .error _ => decryptPrevious C r m : M Bytes (Bytes × Record)) rd = x := by
          intro x hx
          rw [M.bind_run, M.attempt, g1]
          simp only
          rw [← hx]
        refine ⟨j1 + j, by omega, ?_, ?_⟩
        · intro p t' rd2 hd
          obtain ⟨l1, l2, rd', hl12, hx⟩ := a1 p t' rd2 hd
          exact .inr ⟨l1, l2, rd', hl12, hstep _ hx⟩
        · intro hno
          obtain ⟨e', rd', hx⟩ := a2 hno
          exact ⟨e', rd', hstep _ hx⟩
  obtain ⟨j, hj, a1, a2⟩ := hmain
  refine ⟨j, hj, ?_, a2⟩
  intro p t' rd1 hd
  rcases a1 p t' rd1 hd with ⟨hc, rd', hx⟩ | ⟨l1, l2, rd', rfl, hx⟩
  · exact ⟨_, rd', hx, rfl, .inl ⟨hc, hl⟩⟩
  · obtain ⟨q1, q2⟩ := h.promoteOld hl t'
    exact ⟨_, rd', hx, q1, .inr ⟨l1, l2, rfl, q2⟩⟩

end Verif
