import Verif.Proofs.Crash
import Verif.Props.Threads

/-!
# A crash while several calls are on their way: C104

The stores hand out copies and every store call is atomic; see `Verif.Spec.Threads` for schedules, which here may end
anywhere.
-/

namespace Verif

open Ex

/-! ## Lists of outcomes -/

theorem filterMap_sublist {α : Type} : ∀ (xs : List (Option α)) (ys : List α), xs.length = ys.length →
    (∀ (i : Nat) (x : α), xs[i]? = some (some x) → ys[i]? = some x) → (xs.filterMap id).Sublist ys
  | [], ys, _, _ => by simp
  | x :: xs, [], h, _ => by simp at h
  | none :: xs, y :: ys, h, hi => by
    simp only [List.filterMap_cons, id]
    exact .cons _ (filterMap_sublist xs ys (by simpa using h) fun i x hx => by simpa using hi (i + 1) x (by simpa using hx))
  | some x :: xs, y :: ys, h, hi => by
    have e : y = x := by simpa using hi 0 x (by simp)
    subst e
    simp only [List.filterMap_cons, id]
    exact .cons_cons _ (filterMap_sublist xs ys (by simpa using h) fun i x hx => by simpa using hi (i + 1) x (by simpa using hx))

theorem runCalls_length (E : Env) : ∀ (cs : List Call) (w : World), (runCalls E cs w).1.length = cs.length
  | [], _ => rfl
  | c :: cs, w => by simp [runCalls, runCalls_length E cs]

theorem runCalls_outs_append (E : Env) : ∀ (cs ds : List Call) (w : World),
    (runCalls E (cs ++ ds) w).1 = (runCalls E cs w).1 ++ (runCalls E ds (after E cs w)).1
  | [], _, _ => rfl
  | c :: cs, ds, w => by simp [runCalls, runCalls_outs_append E cs ds, after]

theorem runCalls_sameStores {E : Env} (hE : E.aliased = false) (cs : List Call) {w v : World} (h : w.SameStores v) :
    (runCalls E cs w).1 = (runCalls E cs v).1 := by
  have h1 := (oneByOne_calls hE [] cs (w := w) (v := w) ⟨rfl, rfl, rfl, rfl, rfl, rfl⟩).1
  have h2 := (oneByOne_calls hE [] cs (w := w) (v := v) h).1
  rw [← h1, ← h2]

theorem runGCalls_length (E : GEnv) : ∀ (cs : List GCall) (w : GWorld), (runGCalls E cs w).1.length = cs.length
  | [], _ => rfl
  | c :: cs, w => by simp [runGCalls, runGCalls_length E cs]

theorem runGCalls_outs_append (E : GEnv) : ∀ (cs ds : List GCall) (w : GWorld),
    (runGCalls E (cs ++ ds) w).1 = (runGCalls E cs w).1 ++ (runGCalls E ds (gAfter E cs w)).1
  | [], _, _ => rfl
  | c :: cs, ds, w => by simp [runGCalls, runGCalls_outs_append E cs ds, gAfter]

theorem runGCalls_sameStores (C : Crypto) (cs : List GCall) {w v : GWorld} (h : w.records = v.records) :
    (runGCalls ⟨C, false⟩ cs w).1 = (runGCalls ⟨C, false⟩ cs v).1 := by
  have h1 := (oneByOne_gCalls C [] cs (w := w) (v := w) rfl).1
  have h2 := (oneByOne_gCalls C [] cs (w := w) (v := v) h).1
  rw [← h1, ← h2]

/-! ## C104 -/

/-- C104: calls run at the same time, in turn, and the process dies after any step. There is a history of the same calls, one after the
other, in which each call that had returned went exactly as it did and each of the others got an error from some store call, and
which leaves exactly what the crash left in the stores. -/
theorem C104_crash (E : Env) (hE : E.aliased = false) (hT : E.TrustIsLocal) (cs : List Call) (schedule : List Nat) (w : World)
    (hs : InTurn cs schedule) (hops : ∀ c ∈ cs, c.op.address ≠ none) :
    ∃ cs' : List Call, cs'.length = cs.length ∧ (runAtOnce E cs schedule w).2.SameStores (after E cs' w) ∧
      ∀ (i : Nat) (c c' : Call), cs[i]? = some c → cs'[i]? = some c' →
        (∀ o, (runAtOnce E cs schedule w).1[i]? = some (some o) → c' = c ∧ (runCalls E cs' w).1[i]? = some o) ∧
        ((runAtOnce E cs schedule w).1[i]? = some none → c.CutOff c') :=
  runAtOnce_crash hE hT cs schedule w hs hops

/-- C104: so what a crash leaves behind is the stores of a reachable state, of which everything holds that is proved of those. -/
theorem C104_crash_state_is_reachable (E : Env) (hE : E.aliased = false) (hT : E.TrustIsLocal) (cs : List Call) (schedule : List Nat)
    (w : World) (hw : Reachable E w) (hs : InTurn cs schedule) (hops : ∀ c ∈ cs, c.op.address ≠ none) :
    ∃ v, Reachable E v ∧ (runAtOnce E cs schedule w).2.SameStores v := by
  obtain ⟨cs', -, h, -⟩ := runAtOnce_crash hE hT cs schedule w hs hops
  exact ⟨_, hw.after cs', h⟩

theorem FreshCalls.of_rand {C : Crypto} {cs ds : List Call} (h : FreshCalls C cs) (e : ds.map (·.rand) = cs.map (·.rand)) : FreshCalls C ds := by
  have h' : (cs.map (·.rand)).Pairwise fun c d => ∀ p, Generates C c p → ¬ Generates C d p := List.pairwise_map.2 h
  rw [← e] at h'
  exact List.pairwise_map.1 h'

/-- C104: whatever was sent before the crash, by calls that had returned, is not sent over: over a history, the calls that the crash
met, and any history that starts from what the crash left, no two messages for an address have the same ratchet key and
counter. -/
theorem C104_no_reuse_after_crash (E : Env) (hE : E.aliased = false) (hT : E.TrustIsLocal) (w0 : World) (h0 : w0.NoSessions)
    (past cs later : List Call) (schedule : List Nat) (hlen : (past ++ cs ++ later).length < 2 ^ 32)
    (hfresh : FreshCalls E.C (past ++ cs ++ later)) (hs : InTurn cs schedule) (hops : ∀ c ∈ cs, c.op.address ≠ none) (a : Address) :
    let crash := runAtOnce E cs schedule (after E past w0)
    (sentTo a ((runCalls E past w0).1 ++ crash.1.filterMap id ++ (runCalls E later crash.2).1)).Nodup := by
  intro crash
  obtain ⟨cs', hl, hst, hio⟩ := runAtOnce_crash hE hT cs schedule (after E past w0) hs hops
  have hcl : crash.1.length = cs.length := by simp [crash, runAtOnce]
  have hrand : cs'.map (·.rand) = cs.map (·.rand) := by
    apply List.ext_getElem? fun i => ?_
    rw [List.getElem?_map, List.getElem?_map]
    rcases hi : cs[i]? with _ | c
    · have : cs.length ≤ i := List.getElem?_eq_none_iff.1 hi
      rw [List.getElem?_eq_none (by omega)]
    · have hil : i < cs.length := (List.getElem?_eq_some_iff.1 hi).1
      obtain ⟨p1, p2⟩ := hio i c (cs'[i]'(by omega)) hi (List.getElem?_eq_getElem (by omega))
      rw [List.getElem?_eq_getElem (l := cs') (by omega)]
      rcases ho : crash.1[i]'(by omega) with _ | o
      · have := p2 (by rw [← ho]; exact List.getElem?_eq_getElem (l := crash.1) (by omega))
        simp [this.2.1]
      · have := (p1 o (by rw [← ho]; exact List.getElem?_eq_getElem (l := crash.1) (by omega))).1
        simp [this]
  have hn := C07_no_reuse_partial E w0 h0 (past ++ cs' ++ later) (by simp only [List.length_append] at hlen ⊢; omega)
    (hfresh.of_rand (by simp [hrand])) (by simp [hE]) a
  rw [runCalls_outs_append, runCalls_outs_append, runCalls_append] at hn
  rw [runCalls_sameStores hE later hst]
  refine List.Nodup.sublist ?_ hn
  refine List.Sublist.filterMap _ (List.Sublist.append_right (List.Sublist.append_left (filterMap_sublist _ _ ?_ ?_) _) _)
  · rw [hcl, runCalls_length, hl]
  · intro i o ho
    have hil : i < cs.length := by rw [← hcl]; exact (List.getElem?_eq_some_iff.1 ho).1
    exact ((hio i cs[i] (cs'[i]'(by omega)) (List.getElem?_eq_getElem hil) (List.getElem?_eq_getElem (by omega))).1 o ho).2

/-- C104: the same for the group API. -/
theorem C104_group_crash (C : Crypto) (cs : List GCall) (schedule : List Nat) (w : GWorld) (hs : GInTurn cs schedule) :
    ∃ cs' : List GCall, cs'.length = cs.length ∧ (runGAtOnce C cs schedule w).2.records = (gAfter ⟨C, false⟩ cs' w).records ∧
      ∀ (i : Nat) (c c' : GCall), cs[i]? = some c → cs'[i]? = some c' →
        (∀ o, (runGAtOnce C cs schedule w).1[i]? = some (some o) → c' = c ∧ (runGCalls ⟨C, false⟩ cs' w).1[i]? = some o) ∧
        ((runGAtOnce C cs schedule w).1[i]? = some none → c.CutOff c') :=
  runGAtOnce_crash C cs schedule w hs

/-- C104: no two messages under a sender key have the same iteration, before, at and after a crash. -/
theorem C104_no_group_reuse_after_crash (C : Crypto) (w0 : GWorld) (h0 : w0.Empty) (past cs later : List GCall) (schedule : List Nat)
    (a : Address) (d : DistId) (hlen : ((past ++ cs ++ later).map (GCall.reach (a, d))).sum < 2 ^ 32) (hs : GInTurn cs schedule) :
    let crash := runGAtOnce C cs schedule (gAfter ⟨C, false⟩ past w0)
    (sentIterations (a, d) ((runGCalls ⟨C, false⟩ past w0).1 ++ crash.1.filterMap id ++ (runGCalls ⟨C, false⟩ later crash.2).1)).Pairwise (· ≠ ·) := by
  intro crash
  obtain ⟨cs', hl, hst, hio⟩ := runGAtOnce_crash C cs schedule (gAfter ⟨C, false⟩ past w0) hs
  have hcl : crash.1.length = cs.length := by simp [crash, runGAtOnce]
  have hop : cs'.map (·.op) = cs.map (·.op) := by
    apply List.ext_getElem? fun i => ?_
    rw [List.getElem?_map, List.getElem?_map]
    rcases hi : cs[i]? with _ | c
    · have : cs.length ≤ i := List.getElem?_eq_none_iff.1 hi
      rw [List.getElem?_eq_none (by omega)]
    · have hil : i < cs.length := (List.getElem?_eq_some_iff.1 hi).1
      obtain ⟨p1, p2⟩ := hio i c (cs'[i]'(by omega)) hi (List.getElem?_eq_getElem (by omega))
      rw [List.getElem?_eq_getElem (l := cs') (by omega)]
      rcases ho : crash.1[i]'(by omega) with _ | o
      · have := p2 (by rw [← ho]; exact List.getElem?_eq_getElem (l := crash.1) (by omega))
        simp [this.1]
      · have := (p1 o (by rw [← ho]; exact List.getElem?_eq_getElem (l := crash.1) (by omega))).1
        simp [this]
  have hreach : ∀ ds : List GCall, ds.map (GCall.reach (a, d)) = (ds.map (·.op)).map fun o => GCall.reach (a, d) ⟨o, [], [], []⟩ := by
    intro ds; simp [GCall.reach]
  have happ : ∀ (ds es : List GCall) (v : GWorld), gAfter ⟨C, false⟩ (ds ++ es) v = gAfter ⟨C, false⟩ es (gAfter ⟨C, false⟩ ds v) := by
    intro ds es
    induction ds with
    | nil => exact fun _ => rfl
    | cons x ds ih => intro v; exact ih (x.run ⟨C, false⟩ v).2
  have hn := C44_iterations_distinct ⟨C, false⟩ w0 h0 (past ++ cs' ++ later) a d
    (by rw [hreach] at hlen ⊢; simpa [hop] using hlen)
  rw [runGCalls_outs_append, runGCalls_outs_append, happ] at hn
  rw [runGCalls_sameStores C later hst]
  refine List.Pairwise.sublist ?_ hn
  refine List.Sublist.filterMap _ (List.Sublist.append_right (List.Sublist.append_left (filterMap_sublist _ _ ?_ ?_) _) _)
  · rw [hcl, runGCalls_length, hl]
  · intro i o ho
    have hil : i < cs.length := by rw [← hcl]; exact (List.getElem?_eq_some_iff.1 ho).1
    exact ((hio i cs[i] (cs'[i]'(by omega)) (List.getElem?_eq_getElem hil) (List.getElem?_eq_getElem (by omega))).1 o ho).2

namespace Ex

/-- Bob dies when Alice's message has been decrypted and Carol's is on its way. -/
def untilCrash : List Nat := rounds 2 4 ++ List.replicate 8 0

/-- Alice sends, and dies while a second send and the set-up of a session with Carol are on their way. -/
def sendsAtCrash : List Call := [⟨.encrypt bob [1], [], []⟩, ⟨.encrypt bob [2], [], []⟩, ⟨.bundle carol bundle, randomness 60, []⟩]
def sendsUntilCrash : List Nat := [2, 0, 2, 0, 0, 0, 2, 1, 1, 1]

/-- The same for a group. -/
def groupSendsAtCrash : List GCall := [⟨.encrypt alice dist [1], randomness 3, [], []⟩, ⟨.encrypt alice dist [2], randomness 4, [], []⟩,
  ⟨.distribute alice dist2, randomness 3, randomness 7, []⟩]

end Ex

/-- Alice's message was decrypted, her one-time pre-key is gone; Carol's identity key is stored but no session with them. -/
example : (runAtOnce copying firstMessages untilCrash bobTwo).1.map Option.isSome = [true, false] ∧
    texts (runAtOnce copying firstMessages untilCrash bobTwo).1 = [some [1, 2, 3]] ∧
    ((runAtOnce copying firstMessages untilCrash bobTwo).2.sessions alice).isSome ∧
    (runAtOnce copying firstMessages untilCrash bobTwo).2.preKeys 5 = none ∧
    ((runAtOnce copying firstMessages untilCrash bobTwo).2.sessions carol).isNone := by decide +kernel

theorem sendsUntilCrash_inTurn : InTurn sendsAtCrash sendsUntilCrash := by
  have hh : ∀ i j c d, i < j → sendsAtCrash[i]? = some c → sendsAtCrash[j]? = some d → ¬ (i = 0 ∧ j = 1) → ¬ c.op.Clash d.op := by
    intro i j c d hij hc hd hn
    have hj : j < 3 := (List.getElem?_eq_some_iff.1 hd).1
    have : j = 2 := by omega
    subst this
    rcases (by omega : i = 0 ∨ i = 1) with rfl | rfl <;>
      (simp only [sendsAtCrash, List.getElem?_cons_zero, List.getElem?_cons_succ, Option.some.injEq] at hc hd
       subst hc; subst hd
       simp [Op.Clash, Op.writes, Op.reads, bob, carol])
  have : sendsUntilCrash.Pairwise fun j i => i < j → ¬ (i = 0 ∧ j = 1) := by decide
  exact this.imp fun {j i} h hij c d hc hd => hh i j c d hij hc hd (h hij)

example : let crash := runAtOnce copying sendsAtCrash sendsUntilCrash (after copying [⟨.bundle bob bundle, randomness 1, []⟩] alice0)
    crash.1.map Option.isSome = [true, false, false] ∧ (sentTo bob (crash.1.filterMap id)).length = 1 ∧
    (sentTo bob (runCalls copying [⟨.encrypt bob [3], [], []⟩] crash.2).1).length = 1 ∧
    (sentTo bob ((runCalls copying [⟨.bundle bob bundle, randomness 1, []⟩] alice0).1 ++ crash.1.filterMap id ++
      (runCalls copying [⟨.encrypt bob [3], [], []⟩] crash.2).1)).Nodup :=
  ⟨by decide +kernel, by decide +kernel, by decide +kernel,
    C104_no_reuse_after_crash copying rfl (tofu_local _ _) alice0 (fun _ => rfl) _ _ _ _ (by decide) (freshCalls_of (by decide +kernel))
      sendsUntilCrash_inTurn (by simp [sendsAtCrash, Op.address]) bob⟩

example : let crash := runGAtOnce toy groupSendsAtCrash [0, 2, 0, 2, 0, 1, 1] (gAfter ⟨toy, false⟩ [⟨.distribute alice dist, randomness 1, randomness 9, []⟩] group0)
    crash.1.map Option.isSome = [true, false, false] ∧
    sentIterations (alice, dist) (crash.1.filterMap id ++ (runGCalls ⟨toy, false⟩ [⟨.encrypt alice dist [2], randomness 5, [], []⟩] crash.2).1) = [0, 1] := by
  decide +kernel

end Verif
