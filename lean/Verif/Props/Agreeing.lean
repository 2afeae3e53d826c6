import Verif.Proofs.Agreeing
import Verif.Props.Sessions

/-!
# Users who start sessions at the same time find a common one: C117
-/

namespace Verif

open Ex

/-- **C117.** Two users have started sessions with each other, from both sides and as often as they like, and messages were lost, reordered and
repeated. As soon as one of them reads a message that the other sent in the session that the other still uses, both use this session;
and as long as nobody starts a session and no message from before this moment arrives, they go on using it, and every message that
either of them sends is sent in it. -/
theorem C117_common_session (d : Duo) (w : Side → World) (h : d.NoSessionYet w) (es : List MEvent) (s : Side) (i : Nat) (rand : Bytes) (es' : List MEvent)
    (hf : MFreshKeys d.C (es ++ .deliver s i rand :: es')) (hok : d.MOk { world := w } (es ++ .deliver s i rand :: es'))
    (hlen : (es ++ .deliver s i rand :: es').length ≤ 2 ^ 32) (hfew : (es.filterMap MEvent.opens).length ≤ 41) (c : Ciphertext) (pt name p : Bytes)
    (hc : ((d.mrun { world := w } es).sent s.other)[i]? = some (c, pt, name))
    (hr : (d.receive s c rand ((d.mrun { world := w } es).world s)).1 = .ok (some p))
    (ho : ((d.mrun { world := w } es).world s.other).talksIn (d.address s) = name)
    (hs : ∀ e ∈ es', e.Since fun t => ((d.mrun { world := w } es).sent t).length) :
    (∀ t, ((d.mrun { world := w } (es ++ .deliver s i rand :: es')).world t).talksIn (d.address t.other) = name) ∧
    ∀ t j x, ((d.mrun { world := w } (es ++ .deliver s i rand :: es')).sent t)[j]? = some x → ((d.mrun { world := w } es).sent t).length ≤ j → x.2.2 = name := by
  obtain ⟨hok1, hok2⟩ := Duo.MOk.append d _ es _ hok
  obtain ⟨hok2, hok3⟩ := hok2
  obtain ⟨htr, hI, ha⟩ := h.inv hf
  simp only [List.length_append, List.length_cons] at hlen
  obtain ⟨Ts, hI, ha, hl⟩ := MInv.run htr _ es hI ha hok1 (by omega) (by simpa using hfew)
  simp only [List.length_nil, Nat.zero_add] at hl
  obtain ⟨Ts', hI', ha', hl'⟩ := MInv.run htr es' [.deliver s i rand] hI ha ⟨hok2, trivial⟩ (by simp only [List.length_singleton]; omega)
    (by simp only [List.filterMap_cons, MEvent.opens, List.filterMap_nil, List.length_nil]; omega)
  have hdel := (hI.delivered htr (s := s) (i := i) (rand := rand) (F' := es'.flatMap MEvent.pool) ha.made ha.nodup (by omega) hok2).2 c pt name hc
  have htalk := (hdel.1 p hr).2
  have hrun : d.mrun { world := w } (es ++ .deliver s i rand :: es') = d.mrun (d.mstep (d.mrun { world := w } es) (.deliver s i rand)) es' := by
    simp [Duo.mrun, List.foldl_append]
  rw [hrun]
  have hw : ∀ t, (d.mstep (d.mrun { world := w } es) (.deliver s i rand)).world t =
      upd (d.mrun { world := w } es).world s (d.receive s c rand ((d.mrun { world := w } es).world s)).2 t := by
    intro t
    simp only [Duo.mstep, hc]
    split <;> rfl
  refine MInv.stay htr _ name es' (N := 0 + es.length + 1) hI' ha' hok3 (by omega) (by simp [List.filterMap_cons, MEvent.opens] at hl'; omega) hs ?_ ?_
  · intro t
    rw [hw]
    by_cases hts : t = s
    · subst hts; rw [upd_same]; exact htalk
    · rw [upd_ne _ _ hts]
      have : t = s.other := by cases t <;> cases s <;> simp_all [Side.other]
      subst this
      rw [Side.other_other]
      exact ho
  · intro t j x hx hj
    rw [mstep_deliver_sent] at hx
    rw [List.getElem?_eq_none (by omega)] at hx
    cases hx

/-! ### A conversation that meets the hypotheses -/

namespace Ex

/-- Bob answers, Alice reads it and answers again. -/
def settling : List MEvent := [.send .bob [4], .deliver .alice 1 (supply 6), .send .alice [5]]

def settled (i : Nat) : MSys := pairOfUsers.mrun crossed (.deliver .bob 1 (supply 5) :: settling.take i)

end Ex

theorem Ex.settling_fresh : MFreshKeys toy (crossing ++ .deliver .bob 1 (supply 5) :: settling) := by
  refine ⟨⟨?_, ?_⟩, ?_, ?_⟩ <;> decide +kernel

theorem Ex.settling_check : deliveryCheck pairOfUsers (settled 1) .alice 1 = true := by decide +kernel

theorem Ex.settled_reachable (i : Nat) (s : Side) : Reachable (pairOfUsers.env s) ((settled i).world s) :=
  mrun_reachable _ (fun s => crossing_reachable crossing s) s

theorem Ex.settling_deliver : MEvent.Ok pairOfUsers (settled 1) (.deliver .alice 1 (supply 6)) :=
  deliveryCheck_ok rfl (settled_reachable 1 .alice).WF settling_check

theorem Ex.settling_ok : pairOfUsers.MOk { world := bothWorlds } (crossing ++ .deliver .bob 1 (supply 5) :: settling) := by
  have hj : ∀ (es es' : List MEvent) (S : MSys), pairOfUsers.MOk S es → pairOfUsers.MOk (pairOfUsers.mrun S es) es' → pairOfUsers.MOk S (es ++ es') := by
    intro es es'
    induction es with
    | nil => exact fun _ _ h => h
    | cons e es ih => exact fun S h h' => ⟨h.1, ih _ h.2 h'⟩
  obtain ⟨h1, h2⟩ := Duo.MOk.append pairOfUsers _ crossing _ crossing_ok
  have e : pairOfUsers.mrun { world := bothWorlds } crossing = crossed := rfl
  have h3 : ∀ S, MEvent.Ok pairOfUsers S (.deliver .bob 1 (supply 5)) →
      MEvent.Ok pairOfUsers (pairOfUsers.mrun S (.deliver .bob 1 (supply 5) :: settling.take 1)) (.deliver .alice 1 (supply 6)) →
      pairOfUsers.MOk S (.deliver .bob 1 (supply 5) :: settling) :=
    fun S ha hb => ⟨ha, short_msend (by decide), hb, short_msend (by decide), trivial⟩
  refine hj crossing _ _ h1 ?_
  rw [e] at h2 ⊢
  exact h3 crossed h2.1 settling_deliver

theorem Ex.crossedLast_read : ∃ p, (pairOfUsers.receive .bob crossedLast (supply 5) (crossed.world .bob)).1 = .ok (some p) := by
  have : (match (pairOfUsers.receive .bob crossedLast (supply 5) (crossed.world .bob)).1 with
    | .ok (some _) => true
    | _ => false) = true := by decide +kernel
  split at this
  · rename_i p hp
    exact ⟨p, hp⟩
  · cases this

/-- Both had started a session and each used the other's; one message later they have a common one. -/
example : (crossed.world .alice).talksIn bob ≠ (crossed.world .bob).talksIn alice ∧
    ∀ t, ((settled 3).world t).talksIn (pairOfUsers.address t.other) = crossedName := by
  refine ⟨by decide +kernel, ?_⟩
  obtain ⟨p, hp⟩ := crossedLast_read
  have h := C117_common_session pairOfUsers bothWorlds notYet crossing .bob 1 (supply 5) settling settling_fresh settling_ok (by decide) (by decide) crossedLast
    [3] crossedName p
  have e : pairOfUsers.mrun { world := bothWorlds } crossing = crossed := rfl
  have e' : pairOfUsers.mrun { world := bothWorlds } (crossing ++ .deliver .bob 1 (supply 5) :: settling) = settled 3 := by
    simp only [Duo.mrun, List.foldl_append, settled]
    rfl
  rw [e, e'] at h
  refine (h crossedLast_sent hp (by decide +kernel) ?_).1
  intro e he
  simp only [settling, List.mem_cons, List.not_mem_nil, or_false] at he
  rcases he with rfl | rfl | rfl
  · trivial
  · have : (crossed.sent Side.alice.other).length ≤ 1 := by decide +kernel
    exact this
  · trivial

end Verif
