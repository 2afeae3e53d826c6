import Verif.Proofs.HeapHistory
import Verif.Spec.Example

/-!
# Who shares which object: C85, C86
-/

namespace Verif

open Ex

/-! ## C85 -/

/-- C85: whether `Store` keeps the pointer it is given or a copy makes no difference. For every history of calls, with any store failures,
and with any loads by the application in between: same results, same stored sessions, same other stores. -/
theorem C85_store_may_copy (E E' : HEnv) (hE : E.toEnv = E'.toEnv) (w : World) (evs evs' : List HeapEvent) (hc : calls evs = calls evs') :
    (heapRun E evs (.start w)).1 = (heapRun E' evs' (.start w)).1 ∧ (heapRun E evs (.start w)).2.values = (heapRun E' evs' (.start w)).2.values := by
  obtain ⟨a1, a2, _⟩ := heapRun_hsim E evs (HWorld.start_sound w)
  obtain ⟨b1, b2, _⟩ := heapRun_hsim E' evs' (HWorld.start_sound w)
  rw [a1, a2, b1, b2, hE, hc]
  exact ⟨rfl, rfl⟩

/-- C85: the code as it runs, on shared objects, gives the results and leaves the stored sessions that the functions on values give. So every theorem
about histories on values holds for the code on pointers. -/
theorem C85_agrees (E : HEnv) (w : World) (hw : w.NoSessions) (evs : List HeapEvent) :
    (heapRun E evs (.start w)).1 = (runCalls E.toEnv (calls evs) w).1 ∧ (heapRun E evs (.start w)).2.values = (runCalls E.toEnv (calls evs) w).2 := by
  have := heapRun_hsim E evs (HWorld.start_sound w)
  rw [HWorld.start_values hw] at this
  exact ⟨this.1, this.2.1⟩

/-! ## C86 -/

/-- C86 does not hold as stated for the in-memory store: the record that the application has loaded changes when it sends the next message. -/
theorem C86_snapshot_false : ∃ (E : HEnv) (w : World) (evs : List HeapEvent) (a : Address) (c : Call) (r : Nat), w.NoSessions ∧
    (appLoad E a (heapRun E evs (.start w)).2).1 = some r ∧
    ((c.heapRun E (appLoad E a (heapRun E evs (.start w)).2).2).2.view r ≠ (appLoad E a (heapRun E evs (.start w)).2).2.view r) :=
  ⟨⟨sharing, false⟩, alice0, [.call ⟨.bundle bob bundle, alice0.rand, []⟩], bob, ⟨.encrypt bob [1], [], []⟩, 0, fun _ => rfl,
    by decide +kernel, by decide +kernel⟩

/-- C86, stores whose `Load` returns copies: what the application has loaded is a snapshot. It has the stored value, and no later call, about whichever
peer, changes it. -/
theorem C86_snapshot_partial (E : HEnv) (hE : E.aliased = false) (w : World) (evs later : List HeapEvent) (a : Address) (r : Nat)
    (hr : (appLoad E a (heapRun E evs (.start w)).2).1 = some r) :
    some ((heapRun E later (appLoad E a (heapRun E evs (.start w)).2).2).2.view r) = (heapRun E evs (.start w)).2.values.sessions a := by
  have hs := (heapRun_hsim E evs (HWorld.start_sound w)).2.2.1
  obtain ⟨_, e2, e3, _, _, e6, e7⟩ := appLoad_hsim E a hs
  rw [← e6, hr, Option.map_some, heapRun_kept E a r later e2 (e7 r hr).1 fun hal => by rw [hE] at hal; cases hal]

/-- C86, all stores: what the application has loaded changes only through calls about the same peer. -/
theorem C86_other_peers_partial (E : HEnv) (w : World) (evs later : List HeapEvent) (a : Address) (r : Nat)
    (hr : (appLoad E a (heapRun E evs (.start w)).2).1 = some r) (hl : NotAbout a later) :
    some ((heapRun E later (appLoad E a (heapRun E evs (.start w)).2).2).2.view r) = (heapRun E evs (.start w)).2.values.sessions a := by
  have hs := (heapRun_hsim E evs (HWorld.start_sound w)).2.2.1
  obtain ⟨_, e2, e3, e4, _, e6, e7⟩ := appLoad_hsim E a hs
  rw [← e6, hr, Option.map_some, heapRun_kept E a r later e2 (e7 r hr).1 fun hal => ⟨by rw [e4]; exact (e7 r hr).2.1 hal, hl⟩]

/-- C86: a call changes at most one of the objects that exist, and only when `Load` hands out the stored pointer: the record that is stored for the call's
peer. -/
theorem C86_one_object (E : HEnv) (w : World) (evs : List HeapEvent) (c : Call) (i : Nat) (hi : i < (heapRun E evs (.start w)).2.nextRecord)
    (hv : (c.heapRun E (heapRun E evs (.start w)).2).2.view i ≠ (heapRun E evs (.start w)).2.view i) :
    E.aliased = true ∧ ∃ a, c.op.address = some a ∧ (heapRun E evs (.start w)).2.store a = some i :=
  (call_hsim E c (heapRun_hsim E evs (HWorld.start_sound w)).2.2.1).2.2.views i hi hv

/-- C86: sessions stored for different peers share neither the record nor the state. -/
theorem C86_apart (E : HEnv) (w : World) (evs : List HeapEvent) (a b : Address) (hab : a ≠ b) (i j : Nat) (hi : (heapRun E evs (.start w)).2.store a = some i)
    (hj : (heapRun E evs (.start w)).2.store b = some j) :
    i ≠ j ∧ ∀ p, ((heapRun E evs (.start w)).2.records i).current = some p → ((heapRun E evs (.start w)).2.records j).current ≠ some p := by
  have hs := (heapRun_hsim E evs (HWorld.start_sound w)).2.2.1
  have hij : i ≠ j := fun he => hab (hs.single a b i hi (he ▸ hj))
  exact ⟨hij, fun p hp hq => hij (hs.apart i (hs.stored a i hi) j (hs.stored b j hj) p hp hq)⟩

/-! ## Concrete cases -/

namespace Ex

/-- Alice sets up a session with Bob and one with herself on another device, sends to Bob and reads the answer. -/
def heapCalls : List Call :=
  [⟨.bundle bob bundle, alice0.rand, []⟩, ⟨.encrypt bob [1, 2, 3], [], []⟩, ⟨.bundle alice bundle, randomness 90, []⟩, ⟨.encrypt bob [4], [], []⟩,
    ⟨.decrypt bob r1, alice3.rand, []⟩]

end Ex

/-- All four kinds of store run the same history, with a load in between, and the answer is read. -/
example : ∀ aliased copies : Bool, (runCalls ⟨toy, aliased, tofu⟩ heapCalls alice0).1.map (fun | .plaintext _ p => p | _ => none) = [none, none, none, none, some [9]] ∧
    (heapRun ⟨⟨toy, aliased, tofu⟩, copies⟩ (heapCalls.map .call ++ [.load bob]) (.start alice0)).2.nextRecord =
      (match aliased, copies with | true, false => 2 | false, false => 6 | true, true => 7 | false, true => 11) := by decide +kernel

/-- Two peers, two objects; a call about one of them leaves the other alone. -/
example : let h := (heapRun ⟨sharing, false⟩ (heapCalls.map .call) (.start alice0)).2
    h.store bob = some 0 ∧ h.store alice = some 1 ∧ (h.records 0).current.isSome ∧ (h.records 1).current.isSome ∧
      NotAbout alice [.call ⟨.encrypt bob [1], [], []⟩] := by
  refine ⟨by decide +kernel, by decide +kernel, by decide +kernel, by decide +kernel, ?_⟩
  intro c hc
  simp only [calls, List.filterMap_cons, List.filterMap_nil, List.mem_cons, List.not_mem_nil, or_false] at hc
  subst hc
  decide

end Verif
