import Verif.Proofs.WF
import Verif.Props.Messages

/-!
# Saving and loading session records: C74

The API turns a session state into bytes (`State.Bytes`) and bytes into a record (`NewRecordBytes`); it has no byte form of a whole
record. These are the two ways of writing a persistent store with it.
-/

namespace Verif

open Ex

/-- Save the bytes of the current state and load them with `NewRecordBytes`. -/
def Record.saveCurrent (r : Record) : Option (Res Record) := r.current.map fun s => Record.ofBytes s.marshal

/-- The bytes of every state, the oldest first, the current one last. -/
def Record.saved (r : Record) : List Bytes := r.previous ++ (r.current.map SState.marshal).toList

/-- Load a list of states: `NewRecordBytes` for the first, then `PromoteState` with the state of `NewRecordBytes` for each of the
others. -/
def Record.load : List Bytes → Res Record
  | [] => .ok {}
  | b :: bs => do
    let r ← Record.ofBytes b
    bs.foldlM (fun r b => do
      let r' ← Record.ofBytes b
      return match r'.current with
        | some s => r.promoteState s
        | none => r) r

/-- The process is restarted with a store of the first kind. -/
def World.restart (w : World) (a : Address) : World :=
  { w with sessions := upd w.sessions a ((w.sessions a).bind fun r => r.saveCurrent.bind fun x => match x with | .ok r => some r | _ => none) }

/-- **C74** is false for the first kind of store: it loses the archived states, so a reply that Alice can read before the restart cannot be
read after it (DecryptMessage returns a nil plaintext and no error). -/
theorem C74_restart_false : Reachable copying alice6 ∧
    (decryptMessage copying bob r1 { alice6 with rand := randomness 80 }).1 = .ok (some [9]) ∧
    (decryptMessage copying bob r1 { alice6.restart bob with rand := randomness 80 }).1 = .ok none :=
  ⟨alice6_reachable, by decide +kernel, by decide +kernel⟩

theorem load_states (l : List SState) (hl : ∀ s ∈ l, s.WF) (r : Record) (cur : SState) (hc : r.current = some cur)
    (hn : r.previous.length + l.length ≤ 40) :
    (l.map SState.marshal).foldlM (fun r b => do
      let r' ← Record.ofBytes b
      return match r'.current with
        | some s => r.promoteState s
        | none => r) r = Res.ok { current := some ((cur :: l).getLast (by simp)), previous := r.previous ++ ((cur :: l).dropLast.map SState.marshal) } := by
  induction l generalizing r cur with
  | nil =>
    obtain ⟨c, p⟩ := r
    simp only at hc
    subst hc
    simp [Res.pure_eq]
  | cons s l ih =>
    simp only [List.map_cons, List.foldlM_cons, Record.ofBytes, (hl s (by simp)).round_trip, Res.bind_ok, Res.pure_eq]
    simp only [List.length_cons] at hn
    have e : r.promoteState s = { current := some s, previous := r.previous ++ [cur.marshal] } := by
      unfold Record.promoteState Record.archiveCurrentState
      rw [hc]
      simp only
      rw [if_neg (by show ¬ r.previous.length ≥ 40; omega)]
    have := ih (fun t ht => hl t (by simp [ht])) (r.promoteState s) s (by rw [e]) (by rw [e]; simp; omega)
    simp only [Record.ofBytes, Res.pure_eq] at this
    rw [this, e]
    simp

/-- **C74** (partial: the second kind of store). Saving every state and promoting them again in order gives back exactly the record, for
every record that the library ever stores. -/
theorem C74_all_states_partial (E : Env) (w : World) (hw : Reachable E w) (a : Address) (r : Record) (h : w.sessions a = some r)
    (hc : r.current.isSome) : Record.load r.saved = .ok r := by
  have hr := hw.WF a r h
  obtain ⟨l, hl, hp, _⟩ := hr.states
  obtain ⟨s, hs⟩ := Option.isSome_iff_exists.mp hc
  have hsw := hr.current s hs
  have hn : l.length ≤ 40 := by
    have := hr.count
    rw [hp, List.length_map] at this
    exact this
  obtain ⟨c, p⟩ := r
  simp only at hs hp
  subst hs hp
  simp only [Record.saved, Option.map_some, Option.toList_some]
  cases l with
  | nil => simp [Record.load, Record.ofBytes, hsw.round_trip, Res.pure_eq]
  | cons t l =>
    have := load_states (l ++ [s]) (by
      intro u hu
      simp only [List.mem_append, List.mem_singleton] at hu
      rcases hu with hu | rfl
      · exact hl u (by simp [hu])
      · exact hsw) { current := some t } t rfl (by simp at hn ⊢; omega)
    simp only [List.map_append, List.map_cons, List.map_nil] at this
    simp only [Record.load, List.map_cons, List.cons_append, (hl t (by simp)).round_trip, Record.ofBytes, Res.bind_ok, Res.pure_eq] at this ⊢
    rw [this, List.getLast_cons (by simp), List.getLast_append_singleton]
    simp only [List.nil_append, Res.ok.injEq, Record.mk.injEq, true_and]
    rw [← List.cons_append, List.dropLast_concat]
    simp

/-- the hypotheses are met by a record with an archived state -/
example : ∃ r, alice6.sessions bob = some r ∧ r.previous.length = 1 ∧ Record.load r.saved = .ok r := by
  have h : ∃ r, alice6.sessions bob = some r ∧ r.current.isSome ∧ r.previous.length = 1 := by
    have : (match alice6.sessions bob with | some r => r.current.isSome && r.previous.length == 1 | none => false) = true := by decide +kernel
    cases h : alice6.sessions bob <;> simp_all
  obtain ⟨r, h1, h2, h3⟩ := h
  exact ⟨r, h1, h3, C74_all_states_partial copying alice6 alice6_reachable bob r h1 h2⟩

end Verif
