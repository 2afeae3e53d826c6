import Verif.Proofs.GroupHidden
import Verif.Spec.GroupExample

/-!
# Groups on pointers and slices: C93 to C96
-/

namespace Verif

open Ex

/-- The heap a process has reached after a history that began with an empty store. -/
abbrev gReached (E : GHEnv) (rand sysRand : Bytes) (faults : List Fault) (evs : List GHeapEvent) : GHWorld := (gHeapRun E evs (.start rand sysRand faults)).2

namespace Ex

/-- The in-memory store; `append` doubles the array. -/
def ghInMem : GHEnv := ⟨toy, true, false, fun n => n⟩

/-- Bob gets Alice's sender key and reads Alice's third message, then the first, then the second. -/
def ghCalls : List GHeapEvent :=
  [.call ⟨.process alice d1, [], [], []⟩, .call ⟨.decrypt alice g3, [], [], []⟩, .call ⟨.decrypt alice g1, [], [], []⟩, .call ⟨.decrypt alice g2, [], [], []⟩]

end Ex

/-! ## C93 -/

/-- C93: the group code as it runs, on shared objects and on slices that share arrays, gives the results and leaves the stored records that the functions
on values give. So every theorem about group histories on values holds for the code on pointers. -/
theorem C93_agrees (E : GHEnv) (rand sysRand : Bytes) (faults : List Fault) (evs : List GHeapEvent) :
    (gHeapRun E evs (.start rand sysRand faults)).1 = (runGCalls E.toGEnv (gCalls evs) ⟨fun _ => none, rand, sysRand, faults⟩).1 ∧
      (gReached E rand sysRand faults evs).values = (runGCalls E.toGEnv (gCalls evs) ⟨fun _ => none, rand, sysRand, faults⟩).2 := by
  have := gHeapRun_sim E evs (GHWorld.start_sound rand sysRand faults)
  exact ⟨this.1, this.2.1⟩

/-- C93: neither whether `Store` keeps the pointer or a copy, nor how much room `append` leaves in a new array, nor what the application loads in between
makes a difference to any result or to any stored record. -/
theorem C93_store_may_copy (E E' : GHEnv) (hC : E.C = E'.C) (ha : E.aliased = E'.aliased) (rand sysRand : Bytes) (faults : List Fault) (evs evs' : List GHeapEvent)
    (hc : gCalls evs = gCalls evs') :
    (gHeapRun E evs (.start rand sysRand faults)).1 = (gHeapRun E' evs' (.start rand sysRand faults)).1 ∧
      (gReached E rand sysRand faults evs).values = (gReached E' rand sysRand faults evs').values := by
  obtain ⟨a1, a2⟩ := C93_agrees E rand sysRand faults evs
  obtain ⟨b1, b2⟩ := C93_agrees E' rand sysRand faults evs'
  have hE : E.toGEnv = E'.toGEnv := by unfold GHEnv.toGEnv; rw [hC, ha]
  rw [a1, a2, b1, b2, hE, hc]
  exact ⟨rfl, rfl⟩

/-! ## C94 -/

/-- C94 does not hold as stated for the in-memory store: the record that the application has loaded changes when the next message is read. -/
theorem C94_snapshot_false : ∃ (E : GHEnv) (evs : List GHeapEvent) (k : Address × DistId) (c : GCall) (r : Nat),
    (gAppLoad E k (gReached E [] [] [] evs)).1 = some r ∧
      (c.heapRun E (gAppLoad E k (gReached E [] [] [] evs)).2).2.view r ≠ (gAppLoad E k (gReached E [] [] [] evs)).2.view r :=
  ⟨ghInMem, ghCalls.take 1, (alice, dist), ⟨.decrypt alice g1, [], [], []⟩, 0, by decide +kernel, by decide +kernel⟩

/-- C94, stores whose `Load` returns copies: what the application has loaded is a snapshot. It has the stored value, and no later call changes it. -/
theorem C94_snapshot_partial (E : GHEnv) (hE : E.aliased = false) (rand sysRand : Bytes) (faults : List Fault) (evs later : List GHeapEvent) (k : Address × DistId) (r : Nat)
    (hr : (gAppLoad E k (gReached E rand sysRand faults evs)).1 = some r) :
    some ((gHeapRun E later (gAppLoad E k (gReached E rand sysRand faults evs)).2).2.view r) = (gReached E rand sysRand faults evs).values.records k := by
  have hs := (gHeapRun_sim E evs (GHWorld.start_sound rand sysRand faults)).2.2.1
  obtain ⟨_, e2, e3, _, _, e6, e7⟩ := gAppLoad_sim E k hs
  rw [← e6, hr, Option.map_some, gHeapRun_kept E k r later e2 (e7 r hr).1 fun hal => by rw [hE] at hal; cases hal]

/-- C94, all stores: what the application has loaded changes only through calls about the same sender and group. -/
theorem C94_other_groups_partial (E : GHEnv) (rand sysRand : Bytes) (faults : List Fault) (evs later : List GHeapEvent) (k : Address × DistId) (r : Nat)
    (hr : (gAppLoad E k (gReached E rand sysRand faults evs)).1 = some r) (hl : GNotAbout k later) :
    some ((gHeapRun E later (gAppLoad E k (gReached E rand sysRand faults evs)).2).2.view r) = (gReached E rand sysRand faults evs).values.records k := by
  have hs := (gHeapRun_sim E evs (GHWorld.start_sound rand sysRand faults)).2.2.1
  obtain ⟨_, e2, e3, e4, _, e6, e7⟩ := gAppLoad_sim E k hs
  rw [← e6, hr, Option.map_some, gHeapRun_kept E k r later e2 (e7 r hr).1 fun hal => ⟨by rw [e4]; exact (e7 r hr).2.1 hal, hl⟩]

/-- C94: a call changes at most one of the objects that exist, and only when `Load` hands out the stored pointer: the record stored for the call's sender
and group. -/
theorem C94_one_object (E : GHEnv) (rand sysRand : Bytes) (faults : List Fault) (evs : List GHeapEvent) (c : GCall) (i : Nat) (hi : i < (gReached E rand sysRand faults evs).nextRecord)
    (hv : (c.heapRun E (gReached E rand sysRand faults evs)).2.view i ≠ (gReached E rand sysRand faults evs).view i) :
    E.aliased = true ∧ (gReached E rand sysRand faults evs).store c.op.key = some i :=
  (gcall_sim E c (gHeapRun_sim E evs (GHWorld.start_sound rand sysRand faults)).2.2.1).2.2.views i hi hv

/-- C94: records stored for different senders or groups share neither the record nor any state. -/
theorem C94_apart (E : GHEnv) (rand sysRand : Bytes) (faults : List Fault) (evs : List GHeapEvent) (a b : Address × DistId) (hab : a ≠ b) (i j : Nat)
    (hi : (gReached E rand sysRand faults evs).store a = some i) (hj : (gReached E rand sysRand faults evs).store b = some j) :
    i ≠ j ∧ ∀ p, p ∈ ((gReached E rand sysRand faults evs).records i).live → p ∉ ((gReached E rand sysRand faults evs).records j).live := by
  have hs := (gHeapRun_sim E evs (GHWorld.start_sound rand sysRand faults)).2.2.1
  have hij : i ≠ j := fun he => hab (hs.single a b i hi (he ▸ hj))
  exact ⟨hij, fun p hp hq => hij (hs.apart i (hs.stored a i hi) j (hs.stored b j hj) p hp hq)⟩

/-! ## C95 -/

/-- C95: whatever has happened, the array behind a record points only to states that the record has. A state that was replaced, removed or pushed out by
newer ones is no longer there. -/
theorem C95_nothing_hidden (E : GHEnv) (rand sysRand : Bytes) (faults : List Fault) (evs : List GHeapEvent) (k : Address × DistId) (i : Nat)
    (hi : (gReached E rand sysRand faults evs).store k = some i) : ((gReached E rand sysRand faults evs).records i).NothingHidden := by
  have hs := (gHeapRun_sim E evs (GHWorld.start_sound rand sysRand faults)).2.2.1
  obtain ⟨⟨pre, post, hl, h1, h2⟩, _, _⟩ := hs.good i (hs.stored k i hi)
  exact PtrSlice.Clean.nothingHidden ⟨pre, _, post, hl, h1, h2⟩

/-- C95: the record has no state twice, and none of them is nil: the code never follows a nil pointer that it has left in a record. -/
theorem C95_distinct (E : GHEnv) (rand sysRand : Bytes) (faults : List Fault) (evs : List GHeapEvent) (k : Address × DistId) (i : Nat)
    (hi : (gReached E rand sysRand faults evs).store k = some i) :
    ((gReached E rand sysRand faults evs).records i).live.Nodup ∧ ∀ x ∈ ((gReached E rand sysRand faults evs).records i).items, x ≠ none := by
  have hs := (gHeapRun_sim E evs (GHWorld.start_sound rand sysRand faults)).2.2.1
  obtain ⟨⟨pre, post, hl, h1, h2⟩, _, hids⟩ := hs.good i (hs.stored k i hi)
  refine ⟨nodup_of_map hids, fun x hx hn => ?_⟩
  rw [hl.items] at hx
  subst hn
  simp at hx

/-! ## C96 -/

/-- C96 does not hold as stated for the in-memory store: Bob has read all three messages, no message key is left, but the array of the stored state still
points to the key of the second message. -/
theorem C96_nothing_hidden_false : ∃ (E : GHEnv) (evs : List GHeapEvent) (k : Address × DistId) (i p : Nat), (gReached E [] [] [] evs).store k = some i ∧
    p ∈ ((gReached E [] [] [] evs).records i).live ∧ ((gReached E [] [] [] evs).states p).keys.live = [] ∧ ¬((gReached E [] [] [] evs).states p).keys.NothingHidden := by
  refine ⟨ghInMem, ghCalls, (alice, dist), 0, 0, by decide +kernel, by decide +kernel, by decide +kernel, fun hn => ?_⟩
  have hx : ∃ x ∈ ((gReached ghInMem [] [] [] ghCalls).states 0).keys.array, (∃ k ∈ x, k.iteration = g2.iteration) ∧ ((gReached ghInMem [] [] [] ghCalls).states 0).keys.live = [] := by
    decide +kernel
  obtain ⟨x, hx, ⟨k, hk, _⟩, hl⟩ := hx
  cases hk
  have := hn k hx
  rw [hl] at this
  cases this

/-- C96, stores whose `Load` returns copies: the array behind the message keys of every stored state points only to keys that can still be used. -/
theorem C96_nothing_hidden_partial (E : GHEnv) (hE : E.aliased = false) (rand sysRand : Bytes) (faults : List Fault) (evs : List GHeapEvent) (k : Address × DistId) (i p : Nat)
    (_ : (gReached E rand sysRand faults evs).store k = some i) (_ : p ∈ ((gReached E rand sysRand faults evs).records i).live) :
    ((gReached E rand sysRand faults evs).states p).keys.NothingHidden :=
  gHeapRun_nothingHidden E hE evs (fun _ => (PtrSlice.Clean.fresh []).nothingHidden) p

/-- C96, all stores: it holds as long as messages that arrive late are read in the opposite order, so that each uses the key that was kept last. -/
theorem C96_last_kept_first_partial (E : GHEnv) (rand sysRand : Bytes) (faults : List Fault) (evs : List GHeapEvent)
    (hf : LastKeptFirst E.toGEnv (gCalls evs) ⟨fun _ => none, rand, sysRand, faults⟩) (k : Address × DistId) (i p : Nat)
    (_ : (gReached E rand sysRand faults evs).store k = some i) (_ : p ∈ ((gReached E rand sysRand faults evs).records i).live) :
    ((gReached E rand sysRand faults evs).states p).keys.NothingHidden :=
  (gHeapRun_clean E evs (GHWorld.start_sound rand sysRand faults) (fun _ => .fresh []) hf p).nothingHidden

/-! ## Concrete cases -/

/-- All three messages are read, with every kind of store, also when `append` leaves no room. -/
example : ∀ aliased copies : Bool, ∀ room ∈ [0, 3], (gHeapRun ⟨toy, aliased, copies, fun _ => room⟩ ghCalls (.start [] [] [])).1.map (fun | .plaintext _ _ p => p | _ => []) =
    [[], [5, 5], [1, 2, 3], [4]] := by decide +kernel

/-- Late messages that are read in the opposite order leave nothing behind. -/
example : ((gReached ghInMem [] [] [] [ghCalls[0], ghCalls[1], ghCalls[3], ghCalls[2]]).states 0).keys.array = [none, none] := by decide +kernel

namespace Ex

/-- A check for `UsesLastKept`. -/
def lastKept (c : GCall) (w : GWorld) : Bool :=
  match c.op with
  | .decrypt a m => match w.records (a, m.distID) with
    | some rec => rec.all fun s => s.messageKeys.dropLast.all fun k => k.iteration != m.iteration
    | none => true
  | _ => true

theorem lastKept_ok {c : GCall} {w : GWorld} (h : lastKept c w = true) : c.UsesLastKept w := by
  unfold lastKept at h
  unfold GCall.UsesLastKept
  split
  · next a m hop =>
    rw [hop] at h
    intro rec s hr hs _ before k after hk hit
    simp only [hr] at h
    have := List.all_eq_true.mp (List.all_eq_true.mp h s hs)
    cases after with
    | nil => rfl
    | cons x xs =>
      have := this k (by rw [hk, List.dropLast_append_of_ne_nil (by simp), List.dropLast_cons_of_ne_nil (by simp)]; simp)
      simp [hit] at this
  · trivial

end Ex

/-- Such a history meets the hypothesis of `C96_last_kept_first_partial`. -/
example : LastKeptFirst ghInMem.toGEnv (gCalls [ghCalls[0], ghCalls[1], ghCalls[3], ghCalls[2]]) ⟨fun _ => none, [], [], []⟩ :=
  ⟨lastKept_ok (by decide +kernel), lastKept_ok (by decide +kernel), lastKept_ok (by decide +kernel), lastKept_ok (by decide +kernel), trivial⟩

/-- Six sender keys and a repetition: five states are left, and the array points to no other. -/
example : let h := gReached ghInMem [] [] [] (([1, 2, 3, 4, 5, 3, 6] : List UInt32).map fun n => .call ⟨.process alice { d1 with chainID := n }, [], [], []⟩)
    h.store (alice, dist) = some 0 ∧ h.nextState = 7 ∧ (h.records 0).live = [1, 3, 4, 2, 6] ∧ (h.records 0).array.filterMap id = [1, 3, 4, 2, 6] := by decide +kernel

/-- Two groups: two objects; a call about one of them leaves the other alone. -/
example : let dist' : DistId := ⟨List.replicate 16 8, by simp⟩
    let h := gReached ghInMem [] [] [] [.call ⟨.process alice d1, [], [], []⟩, .call ⟨.process alice { d1 with distID := dist' }, [], [], []⟩]
    h.store (alice, dist) = some 0 ∧ h.store (alice, dist') = some 1 ∧ (h.records 0).live = [0] ∧ (h.records 1).live = [1] ∧
      GNotAbout (alice, dist') [.call ⟨.decrypt alice g1, [], [], []⟩] := by
  refine ⟨by decide +kernel, by decide +kernel, by decide +kernel, by decide +kernel, ?_⟩
  intro c hc
  simp only [gCalls, List.filterMap_cons, List.filterMap_nil, List.mem_cons, List.not_mem_nil, or_false] at hc
  subst hc
  decide +kernel

end Verif
