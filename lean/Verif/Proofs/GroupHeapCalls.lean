import Verif.Proofs.GroupHeapWorld

/-!
The group API on pointers agrees with the group API on values: loads, stores and calls.
-/

namespace Verif

theorem groupSkipLoop_chainId (C : Crypto) (n : UInt32) : ∀ (fuel : Nat) (ck : SKChainKey) (s : GState), (groupSkipLoop C n fuel ck s).2.chainId = s.chainId := by
  intro fuel
  induction fuel with
  | zero => exact fun _ _ => rfl
  | succ m ih =>
    intro ck s
    unfold groupSkipLoop
    split
    · exact (ih _ _).trans rfl
    · rfl

theorem groupMessageKey_chainId {C : Crypto} {s s' : GState} {n : UInt32} {k : SKMessageKey} (h : groupMessageKey C s n = .ok (k, s')) : s'.chainId = s.chainId := by
  unfold groupMessageKey at h
  simp only at h
  split at h
  · unfold GState.removeMessageKeys at h
    split at h
    · cases h
    · next heq =>
      split at heq
      · cases heq
      · cases heq; cases h; rfl
  · split at h
    · cases h
    · cases h
      exact groupSkipLoop_chainId C n _ _ s

/-- What a call about `k`, started at `h0`, has kept. -/
structure GKeep (aliased : Bool) (k : Address × DistId) (h0 h : GHWorld) : Prop where
  sound : h.Sound
  nextRecord : h0.nextRecord ≤ h.nextRecord
  others : ∀ b, b ≠ k → h.store b = h0.store b
  views : ∀ i < h0.nextRecord, (aliased = true → h0.store k ≠ some i) → h.view i = h0.view i

theorem GKeep.start {aliased : Bool} {k : Address × DistId} {h : GHWorld} (hs : h.Sound) : GKeep aliased k h h := ⟨hs, Nat.le_refl _, fun _ _ => rfl, fun _ _ _ => rfl⟩

/-- From `h`, `x` on pointers and `y` on values do the same. -/
def GSim {α β} (aliased : Bool) (k : Address × DistId) (h0 h : GHWorld) (x : M GHWorld α) (y : M GWorld β) (Q : α → β → GHWorld → Prop) : Prop :=
  (y h.values).2 = (x h).2.values ∧ GKeep aliased k h0 (x h).2 ∧
    match (x h).1, (y h.values).1 with
    | .ok u, .ok v => Q u v (x h).2
    | .err e, .err e' => e = e'
    | .panic, .panic => True
    | _, _ => False

section
variable {aliased : Bool} {k : Address × DistId} {h0 : GHWorld}

theorem GSim.pure {α β} {h : GHWorld} {u : α} {v : β} {Q : α → β → GHWorld → Prop} (hk : GKeep aliased k h0 h) (hq : Q u v h) :
    GSim aliased k h0 h (Pure.pure u) (Pure.pure v) Q := ⟨rfl, hk, hq⟩

theorem GSim.mono {α β} {h : GHWorld} {x : M GHWorld α} {y : M GWorld β} {Q Q' : α → β → GHWorld → Prop} (hs : GSim aliased k h0 h x y Q)
    (hq : ∀ u v h', Q u v h' → Q' u v h') : GSim aliased k h0 h x y Q' := by
  obtain ⟨e1, e2, e3⟩ := hs
  refine ⟨e1, e2, ?_⟩
  cases h1 : (x h).1 <;> cases h2 : (y h.values).1 <;> rw [h1, h2] at e3
  all_goals first | exact e3 | exact hq _ _ _ e3

theorem GSim.throw {α β} {h : GHWorld} {e : Err} {Q : α → β → GHWorld → Prop} (hk : GKeep aliased k h0 h) : GSim aliased k h0 h (M.throw e) (M.throw e) Q := ⟨rfl, hk, rfl⟩

theorem GSim.panic {α β} {h : GHWorld} {Q : α → β → GHWorld → Prop} (hk : GKeep aliased k h0 h) : GSim aliased k h0 h M.panic M.panic Q := ⟨rfl, hk, trivial⟩

theorem GSim.bind {α β γ δ} {h : GHWorld} {x : M GHWorld α} {y : M GWorld β} {Q : α → β → GHWorld → Prop} {f : α → M GHWorld γ} {g : β → M GWorld δ} {R : γ → δ → GHWorld → Prop}
    (hx : GSim aliased k h0 h x y Q) (hf : ∀ u v h', GKeep aliased k h0 h' → Q u v h' → GSim aliased k h0 h' (f u) (g v) R) : GSim aliased k h0 h (x >>= f) (y >>= g) R := by
  unfold GSim at hx
  unfold GSim
  rw [M.bind_run, M.bind_run]
  rcases hxe : x h with ⟨r, h'⟩
  rcases hye : y h.values with ⟨r', w'⟩
  rw [hxe, hye] at hx
  obtain ⟨e1, e2, e3⟩ := hx
  simp only at e1 e2 e3
  subst e1
  cases r with
  | ok u =>
    cases r' with
    | ok v => exact hf u v h' e2 e3
    | err e => exact e3.elim
    | panic => exact e3.elim
  | err e =>
    cases r' with
    | ok v => exact e3.elim
    | err e' => exact ⟨rfl, e2, e3⟩
    | panic => exact e3.elim
  | panic =>
    cases r' with
    | ok v => exact e3.elim
    | err e => exact e3.elim
    | panic => exact ⟨rfl, e2, trivial⟩

theorem GSim.lift {α γ δ} {h : GHWorld} {r : Res α} {f : α → M GHWorld γ} {g : α → M GWorld δ} {R : γ → δ → GHWorld → Prop} (hk : GKeep aliased k h0 h)
    (hf : ∀ u, r = .ok u → GSim aliased k h0 h (f u) (g u) R) : GSim aliased k h0 h (M.lift r >>= f) (M.lift r >>= g) R := by
  cases r with
  | ok u => exact hf u rfl
  | err e => exact .throw hk
  | panic => exact .panic hk

/-- A step of the code on pointers alone. -/
theorem GSim.left {α γ δ} {h : GHWorld} {x : M GHWorld α} {u : α} {f : α → M GHWorld γ} {y : M GWorld δ} {R : γ → δ → GHWorld → Prop} (hx : x h = (.ok u, h))
    (hf : GSim aliased k h0 h (f u) y R) : GSim aliased k h0 h (x >>= f) y R := by
  unfold GSim
  rw [M.bind_ok_run hx]
  exact hf

theorem GKeep.same {h h' : GHWorld} (hk : GKeep aliased k h0 h) (he : h.Same h') : GKeep aliased k h0 h' := by
  have := he.sound hk.sound
  obtain ⟨_, _, _, rfl⟩ := he
  exact ⟨this, hk.nextRecord, hk.others, hk.views⟩

theorem GSim.rand {α γ δ} {h : GHWorld} {z : M Bytes α} {f : α → M GHWorld γ} {g : α → M GWorld δ} {R : γ → δ → GHWorld → Prop} (hk : GKeep aliased k h0 h)
    (hf : ∀ u h', h.Same h' → GSim aliased k h0 h' (f u) (g u) R) : GSim aliased k h0 h (hgWithRand z >>= f) (gWithRand z >>= g) R := by
  unfold GSim
  rw [M.bind_run, M.bind_run]
  have h1 : hgWithRand z h = ((z h.rand).1, { h with rand := (z h.rand).2 }) := rfl
  have h2 : gWithRand z h.values = ((z h.rand).1, ({ h with rand := (z h.rand).2 } : GHWorld).values) := rfl
  rw [h1, h2]
  have hs : h.Same { h with rand := (z h.rand).2 } := ⟨_, _, _, rfl⟩
  cases hr : (z h.rand).1 with
  | ok u => exact hf u _ hs
  | err e => exact ⟨rfl, hk.same hs, rfl⟩
  | panic => exact ⟨rfl, hk.same hs, trivial⟩

theorem GSim.sysRand {α γ δ} {h : GHWorld} {z : M Bytes α} {f : α → M GHWorld γ} {g : α → M GWorld δ} {R : γ → δ → GHWorld → Prop} (hk : GKeep aliased k h0 h)
    (hf : ∀ u h', h.Same h' → GSim aliased k h0 h' (f u) (g u) R) : GSim aliased k h0 h (hgWithSysRand z >>= f) (gWithSysRand z >>= g) R := by
  unfold GSim
  rw [M.bind_run, M.bind_run]
  have h1 : hgWithSysRand z h = ((z h.sysRand).1, { h with sysRand := (z h.sysRand).2 }) := rfl
  have h2 : gWithSysRand z h.values = ((z h.sysRand).1, ({ h with sysRand := (z h.sysRand).2 } : GHWorld).values) := rfl
  rw [h1, h2]
  have hs : h.Same { h with sysRand := (z h.sysRand).2 } := ⟨_, _, _, rfl⟩
  cases hr : (z h.sysRand).1 with
  | ok u => exact hf u _ hs
  | err e => exact ⟨rfl, hk.same hs, rfl⟩
  | panic => exact ⟨rfl, hk.same hs, trivial⟩

/-! ## The record the call works on -/

/-- The call about `k` works on the record object `r`, whose value is `rec`. -/
structure GLocal (aliased : Bool) (k : Address × DistId) (h0 : GHWorld) (loaded : Bool) (r : Nat) (rec : GRecord) (h : GHWorld) : Prop where
  keep : GKeep aliased k h0 h
  lt : r < h.nextRecord
  view : h.view r = rec
  shared : aliased = true → loaded = true → h.store k = some r ∧ h0.store k = some r
  own : ¬ (aliased = true ∧ loaded = true) → (∀ b, h.store b ≠ some r) ∧ h0.nextRecord ≤ r

theorem GLocal.same {loaded : Bool} {r : Nat} {rec : GRecord} {h h' : GHWorld} (hl : GLocal aliased k h0 loaded r rec h) (he : h.Same h') : GLocal aliased k h0 loaded r rec h' := by
  have := hl.keep.same he
  obtain ⟨_, _, _, rfl⟩ := he
  exact ⟨this, hl.lt, hl.view, hl.shared, hl.own⟩

theorem GLocal.grow {loaded : Bool} {r : Nat} {rec rec' : GRecord} {h h' : GHWorld} (hl : GLocal aliased k h0 loaded r rec h) (hg : h.Grow r h') (hv : h'.view r = rec') :
    GLocal aliased k h0 loaded r rec' h' := by
  refine ⟨⟨hg.sound hl.keep.sound hl.lt, ?_, ?_, ?_⟩, ?_, hv, ?_, ?_⟩
  · rw [hg.nextRecord]; exact hl.keep.nextRecord
  · intro b hb; rw [hg.store]; exact hl.keep.others b hb
  · intro i hi hst
    rw [← hl.keep.views i hi hst]
    refine hg.view_other hl.keep.sound hl.lt (Nat.lt_of_lt_of_le hi hl.keep.nextRecord) ?_
    rintro rfl
    by_cases hc : aliased = true ∧ loaded = true
    · exact hst hc.1 (hl.shared hc.1 hc.2).2
    · have := (hl.own hc).2
      omega
  · rw [hg.nextRecord]; exact hl.lt
  · rw [hg.store]; exact hl.shared
  · rw [hg.store]; exact hl.own

theorem gvalues_same {h h' : GHWorld} (hs : h.Sound) (h1 : h'.rand = h.rand) (h2 : h'.sysRand = h.sysRand) (h3 : h'.faults = h.faults) (hst : h'.store = h.store)
    (hv : ∀ b i, h.store b = some i → h'.view i = h.view i) : h'.values = h.values := by
  unfold GHWorld.values
  rw [h1, h2, h3, hst]
  have : (fun b => (h.store b).map h'.view) = fun b => (h.store b).map h.view := by
    funext b
    cases hb : h.store b with
    | none => rfl
    | some i => simp [hv b i hb]
  rw [this]

/-- The record keeps its value: no store changes. -/
theorem GLocal.unchanged {loaded : Bool} {r : Nat} {rec : GRecord} {h h' : GHWorld} (hl : GLocal aliased k h0 loaded r rec h) (hg : h.Grow r h') (hv : h'.view r = rec) :
    h'.values = h.values := by
  refine gvalues_same hl.keep.sound hg.rand hg.sysRand hg.faults hg.store fun b i hb => ?_
  by_cases hi : i = r
  · subst hi; rw [hv, hl.view]
  · exact hg.view_other hl.keep.sound hl.lt (hl.keep.sound.stored b i hb) hi

/-- Writing to the record is what `gTouch` does on values. -/
theorem GLocal.touched {loaded : Bool} {r : Nat} {rec rec' : GRecord} {h h' : GHWorld} (hl : GLocal aliased k h0 loaded r rec h) (hg : h.Grow r h') (hv : h'.view r = rec') :
    gTouch aliased k loaded rec' h.values = (.ok (), h'.values) := by
  have hother : ∀ b i, h.store b = some i → i ≠ r → h'.view i = h.view i := fun b i hb hne =>
    hg.view_other hl.keep.sound hl.lt (hl.keep.sound.stored b i hb) hne
  unfold gTouch
  by_cases hc : aliased = true ∧ loaded = true
  · have hst := (hl.shared hc.1 hc.2).1
    simp only [hc.1, hc.2, Bool.and_self, if_true]
    have : upd h.values.records k (some rec') = h'.values.records := by
      funext b
      unfold upd GHWorld.values
      simp only [hg.store]
      by_cases hb : b = k
      · subst hb
        simp [hst, hv]
      · rw [if_neg hb]
        cases hsb : h.store b with
        | none => rfl
        | some i =>
          have : i ≠ r := fun he => hb (hl.keep.sound.single b k i hsb (he ▸ hst))
          simp [hother b i hsb this]
    rw [this]
    show (_, GWorld.mk h'.values.records h.rand h.sysRand h.faults) = _
    rw [← hg.rand, ← hg.sysRand, ← hg.faults]
    rfl
  · have hno := (hl.own hc).1
    have hb : (aliased && loaded) = false := by
      cases aliased <;> cases loaded <;> simp_all
    rw [hb]
    have := gvalues_same hl.keep.sound hg.rand hg.sysRand hg.faults hg.store fun b i hb => hother b i hb fun he => hno b (he ▸ hb)
    rw [this]
    rfl

/-- Code that writes to the record, against `gTouch`. -/
theorem GSim.touch {γ δ} {loaded : Bool} {r : Nat} {rec rec' : GRecord} {h h' : GHWorld} {x : M GHWorld Unit} {f : Unit → M GHWorld γ} {g : Unit → M GWorld δ} {R : γ → δ → GHWorld → Prop}
    (hl : GLocal aliased k h0 loaded r rec h) (hx : x h = (.ok (), h')) (hg : h.Grow r h') (hv : h'.view r = rec')
    (hf : GLocal aliased k h0 loaded r rec' h' → GSim aliased k h0 h' (f ()) (g ()) R) : GSim aliased k h0 h (x >>= f) (gTouch aliased k loaded rec' >>= g) R := by
  have ht := hl.touched hg hv
  have := hf (hl.grow hg hv)
  unfold GSim at this ⊢
  rw [M.bind_ok_run hx, M.bind_ok_run ht]
  exact this

/-! ## Loading and storing -/

theorem gCopyStates_run : ∀ (ps : List Nat) (h : GHWorld), (∀ p ∈ ps, p < h.nextState) → (∀ p < h.nextState, (h.states p).Ok) →
    ∃ f, gCopyStates ps h = (.ok (List.range' h.nextState ps.length), { h with states := f, nextState := h.nextState + ps.length }) ∧ (∀ p < h.nextState, f p = h.states p) ∧
      (∀ p < h.nextState + ps.length, (f p).Ok) ∧ ((List.range' h.nextState ps.length).map fun q => (f q).value) = ps.map fun p => (h.states p).value := by
  intro ps
  induction ps with
  | nil => exact fun h _ hc => ⟨h.states, rfl, fun _ _ => rfl, hc, rfl⟩
  | cons p ps ih =>
    intro h hb hc
    rw [gCopyStates, M.bind_ok_run (show gReadState p h = (.ok (h.states p), h) from rfl)]
    have hp := hb p List.mem_cons_self
    have hok : ({ h.states p with keys := { array := (h.states p).keys.live.map some, off := 0, len := (h.states p).keys.live.length } } : GCell).Ok ∧
        ({ h.states p with keys := { array := (h.states p).keys.live.map some, off := 0, len := (h.states p).keys.live.length } } : GCell).value = (h.states p).value := by
      obtain ⟨g1, g2⟩ := GCell.Ok.of (c := { h.states p with keys := { array := (h.states p).keys.live.map some, off := 0, len := (h.states p).keys.live.length } }) (PtrSlice.Shows.fresh _)
      exact ⟨g1, g2.trans rfl⟩
    generalize ({ h.states p with keys := { array := (h.states p).keys.live.map some, off := 0, len := (h.states p).keys.live.length } } : GCell) = c at hok ⊢
    rw [M.bind_ok_run (show gAllocState c h = (.ok h.nextState, { h with states := upd h.states h.nextState c, nextState := h.nextState + 1 }) from rfl)]
    obtain ⟨f, e1, e2, e3, e4⟩ := ih { h with states := upd h.states h.nextState c, nextState := h.nextState + 1 }
      (fun q hq => Nat.lt_succ_of_lt (hb q (List.mem_cons_of_mem _ hq))) (fun q hq => by
        by_cases he : q = h.nextState
        · subst he; simpa using hok.1
        · simp only [upd_ne _ _ he]; exact hc q (by simp only at hq; omega))
    simp only at e1 e2 e3 e4
    have hlen : h.nextState + 1 + ps.length = h.nextState + (p :: ps).length := by simp only [List.length_cons]; omega
    refine ⟨f, ?_, ?_, ?_, ?_⟩
    · rw [M.bind_ok_run e1, ← hlen, List.length_cons, List.range'_succ]
      rfl
    · intro q hq
      rw [e2 q (by omega), upd_ne _ _ (by omega)]
    · intro q hq
      exact e3 q (by omega)
    · rw [List.length_cons, List.range'_succ, List.map_cons, List.map_cons, e4, e2 _ (by omega), upd_same, hok.2]
      congr 1
      refine List.map_congr_left fun q hq => ?_
      have := hb q (List.mem_cons_of_mem _ hq)
      rw [upd_ne _ _ (by omega)]

/-- A copy of a record is a new record object with new states. -/
theorem gCopyRecord_run {h : GHWorld} (hs : h.Sound) {r : Nat} (hr : r < h.nextRecord) : ∃ h', gCopyRecord r h = (.ok h.nextRecord, h') ∧ h'.Sound ∧
    (h'.rand = h.rand ∧ h'.sysRand = h.sysRand ∧ h'.faults = h.faults) ∧ h'.store = h.store ∧
    h'.nextRecord = h.nextRecord + 1 ∧ h'.view h.nextRecord = h.view r ∧ ∀ i < h.nextRecord, h'.view i = h.view i := by
  have hgr := hs.good r hr
  obtain ⟨f, e1, e2, e3, e4⟩ := gCopyStates_run (h.records r).live h hgr.bound hs.cells
  unfold gCopyRecord
  rw [M.bind_ok_run (show gReadRecord r h = (.ok (h.records r), h) from rfl)]
  rw [M.bind_ok_run (show gCopyStates (h.records r).live h = _ from e1)]
  have hlive : ((⟨(List.range' h.nextState (h.records r).live.length).map some, 0, (List.range' h.nextState (h.records r).live.length).length⟩ : PtrSlice Nat)).live = List.range' h.nextState (h.records r).live.length :=
    (PtrSlice.Shows.fresh _).live
  have hold : ∀ i < h.nextRecord, ∀ p ∈ h.ptrs i, f p = h.states p := fun i hi p hp => e2 p ((hs.good i hi).bound p hp)
  refine ⟨_, rfl, ⟨?_, ?_, ?_, e3, hs.single⟩, ⟨rfl, rfl, rfl⟩, rfl, rfl, ?_, ?_⟩
  · exact fun b i hb => Nat.lt_succ_of_lt (hs.stored b i hb)
  · intro i hi
    simp only at hi
    by_cases he : i = h.nextRecord
    · subst he
      refine ⟨?_, ?_, ?_⟩
      · unfold GHWorld.ptrs
        simp only [upd_same]
        rw [hlive]
        exact ⟨[], [], ⟨by simp, rfl, rfl⟩, (fun x hx => by cases hx), (fun x hx => by cases hx)⟩
      · unfold GHWorld.ptrs
        simp only [upd_same]
        rw [hlive]
        intro p hp
        rw [List.mem_range'] at hp
        obtain ⟨j, hj, rfl⟩ := hp
        omega
      · unfold GHWorld.ptrs
        simp only [upd_same]
        rw [hlive]
        have e5 : ((List.range' h.nextState (h.records r).live.length).map fun q => (f q).chainId) = (h.records r).live.map fun p => (h.states p).chainId := by
          have := congrArg (List.map GState.chainId) e4
          rw [List.map_map, List.map_map] at this
          exact this
        rw [e5]
        exact hgr.ids
    · have hi' : i < h.nextRecord := by omega
      have hg := hs.good i hi'
      refine ⟨?_, ?_, ?_⟩
      · unfold GHWorld.ptrs
        simp only [upd_ne _ _ he]
        exact hg.tidy
      · unfold GHWorld.ptrs
        simp only [upd_ne _ _ he]
        exact fun p hp => Nat.lt_of_lt_of_le (hg.bound p hp) (Nat.le_add_right _ _)
      · unfold GHWorld.ptrs
        simp only [upd_ne _ _ he]
        rw [List.map_congr_left (g := fun p => (h.states p).chainId) fun p hp => by rw [hold i hi' p hp]]
        exact hg.ids
  · intro i hi j hj p hp hq
    unfold GHWorld.ptrs at hp hq
    simp only at hi hj hp hq
    by_cases he : i = h.nextRecord
    · by_cases hf : j = h.nextRecord
      · rw [he, hf]
      · exfalso
        subst he
        rw [upd_same, hlive, List.mem_range'] at hp
        rw [upd_ne _ _ hf] at hq
        have := (hs.good j (by omega)).bound p hq
        obtain ⟨x, _, rfl⟩ := hp
        omega
    · by_cases hf : j = h.nextRecord
      · exfalso
        subst hf
        rw [upd_same, hlive, List.mem_range'] at hq
        rw [upd_ne _ _ he] at hp
        have := (hs.good i (by omega)).bound p hp
        obtain ⟨x, _, rfl⟩ := hq
        omega
      · rw [upd_ne _ _ he] at hp
        rw [upd_ne _ _ hf] at hq
        exact hs.apart i (by omega) j (by omega) p hp hq
  · unfold GHWorld.view
    simp only [upd_same]
    rw [hlive]
    exact e4
  · intro i hi
    unfold GHWorld.view
    simp only [upd_ne _ _ (show i ≠ h.nextRecord by omega)]
    exact List.map_congr_left fun p hp => by rw [hold i hi p hp]

/-- `hgStoreCall` against `gStoreCall`, for code that cannot fail itself. -/
theorem GSim.storeCall {α β} {h : GHWorld} {x : M GHWorld α} {y : GWorld → β × GWorld} {Q : α → β → GHWorld → Prop} (hk : GKeep aliased k h0 h)
    (hx : ∀ h', h.Same h' → ∃ u h'', x h' = (.ok u, h'') ∧ (y h'.values).2 = h''.values ∧ GKeep aliased k h0 h'' ∧ Q u (y h'.values).1 h'') :
    GSim aliased k h0 h (hgStoreCall x) (gStoreCall y) Q := by
  unfold GSim hgStoreCall gStoreCall
  have hf : h.values.faults = h.faults := rfl
  rw [hf]
  cases hfs : h.faults with
  | nil =>
    obtain ⟨u, h'', e1, e2, e3, e4⟩ := hx h ⟨_, _, _, rfl⟩
    simp only [e1]
    exact ⟨e2, e3, e4⟩
  | cons f fs =>
    have hsame : h.Same { h with faults := fs } := ⟨_, _, _, rfl⟩
    obtain ⟨u, h'', e1, e2, e3, e4⟩ := hx _ hsame
    cases f with
    | none =>
      simp only [e1]
      exact ⟨e2, e3, e4⟩
    | before => exact ⟨rfl, hk.same hsame, rfl⟩
    | after =>
      simp only [e1]
      exact ⟨e2, e3, trivial⟩

/-- What `Load` returned. -/
def GLoaded (aliased : Bool) (k : Address × DistId) (h0 : GHWorld) : Option Nat → Option GRecord → GHWorld → Prop
  | none, none, _ => True
  | some r, some rec, h => GLocal aliased k h0 true r rec h
  | _, _, _ => False

theorem gLoad_sim (E : GHEnv) (hE : E.aliased = aliased) {h : GHWorld} (hk : GKeep aliased k h0 h) (hst : h.store k = h0.store k) :
    GSim aliased k h0 h (hgLoad E k) (gLoad k) (GLoaded aliased k h0) := by
  unfold hgLoad gLoad
  refine .storeCall hk fun h' hs => ?_
  have hk' := hk.same hs
  have hst' : h'.store k = h0.store k := by obtain ⟨_, _, _, rfl⟩ := hs; exact hst
  rw [M.bind_ok_run (show (M.get : M GHWorld GHWorld) h' = (.ok h', h') from rfl)]
  have hval : h'.values.records k = (h'.store k).map h'.view := rfl
  simp only [hval]
  cases hc : h'.store k with
  | none => exact ⟨none, h', rfl, rfl, hk', trivial⟩
  | some r =>
    have hr := hk'.sound.stored k r hc
    simp only [hE]
    cases hal : aliased with
    | true =>
      refine ⟨some r, h', rfl, rfl, hal ▸ hk', ?_⟩
      exact ⟨hal ▸ hk', hr, rfl, fun _ _ => ⟨hc, hst' ▸ hc⟩, fun hn => absurd ⟨rfl, rfl⟩ hn⟩
    | false =>
      obtain ⟨h2, e1, e2, ⟨r1, r2, r3⟩, e4, e5, e6, e7⟩ := gCopyRecord_run hk'.sound hr
      have hk2 : GKeep false k h0 h2 := ⟨e2, by have := hk'.nextRecord; omega, fun b hb => by rw [e4]; exact hk'.others b hb, fun i hi hn => by
        rw [e7 i (Nat.lt_of_lt_of_le hi hk'.nextRecord)]
        exact hk'.views i hi (by simp [hal])⟩
      refine ⟨some h'.nextRecord, h2, ?_, ?_, hk2, ?_⟩
      · simp only [Bool.false_eq_true, if_false]
        rw [M.bind_ok_run e1]
        rfl
      · exact (gvalues_same hk'.sound r1 r2 r3 e4 fun b i hb => e7 i (hk'.sound.stored b i hb)).symm
      · refine ⟨hk2, by omega, e6, fun hn => by simp at hn, fun _ => ⟨fun b hb => ?_, hk'.nextRecord⟩⟩
        rw [e4] at hb
        have := hk'.sound.stored b _ hb
        omega

theorem gStore_sim (E : GHEnv) {loaded : Bool} {r : Nat} {rec : GRecord} {h : GHWorld} (hl : GLocal aliased k h0 loaded r rec h) :
    GSim aliased k h0 h (hgStore E k r) (gStore k rec) (fun _ _ h' => r < h'.nextRecord ∧ h'.view r = rec) := by
  unfold hgStore gStore
  refine .storeCall hl.keep fun h' hs => ?_
  have hl' := hl.same hs
  have hk' := hl'.keep
  by_cases hcp : E.copies = true
  · obtain ⟨h2, e1, e2, ⟨r1, r2, r3⟩, e4, e5, e6, e7⟩ := gCopyRecord_run hk'.sound hl'.lt
    simp only [hcp, if_true]
    rw [M.bind_ok_run e1]
    refine ⟨(), _, rfl, ?_, ⟨⟨?_, fun i hi => ⟨(e2.good i hi).tidy, (e2.good i hi).bound, (e2.good i hi).ids⟩, e2.apart, e2.cells, ?_⟩, ?_, ?_, ?_⟩, ?_, ?_⟩
    · rw [← gvalues_same hk'.sound r1 r2 r3 e4 fun b i hb => e7 i (hk'.sound.stored b i hb)]
      unfold GHWorld.values
      simp only
      congr 1
      funext b
      by_cases hb : b = k
      · subst hb; simp [← hl'.view, ← e6]; rfl
      · rw [upd_ne _ _ hb, upd_ne _ _ hb]; rfl
    · intro b i hb
      simp only [upd] at hb
      split at hb
      · simp only [Option.some.injEq] at hb
        simp only
        omega
      · exact e2.stored b i hb
    · have : ∀ b, h2.store b ≠ some h'.nextRecord := fun b hb => by
        rw [e4] at hb
        have := hk'.sound.stored b _ hb
        omega
      intro b c i hb hc
      simp only [upd] at hb hc
      split at hb
      · split at hc
        · simp_all
        · cases hb; exact absurd hc (this c)
      · split at hc
        · cases hc; exact absurd hb (this b)
        · exact e2.single b c i hb hc
    · have := hk'.nextRecord
      simp only
      omega
    · intro b hb
      simp only [upd_ne _ _ hb, e4]
      exact hk'.others b hb
    · intro i hi hn
      exact (e7 i (Nat.lt_of_lt_of_le hi hk'.nextRecord)).trans (hk'.views i hi hn)
    · have := hl'.lt
      simp only
      omega
    · exact (e7 r hl'.lt).trans hl'.view
  · simp only [hcp, Bool.false_eq_true, if_false]
    refine ⟨(), _, rfl, ?_, ⟨⟨?_, fun i hi => ⟨(hk'.sound.good i hi).tidy, (hk'.sound.good i hi).bound, (hk'.sound.good i hi).ids⟩, hk'.sound.apart, hk'.sound.cells, ?_⟩, hk'.nextRecord, ?_, hk'.views⟩, hl'.lt, hl'.view⟩
    · unfold GHWorld.values
      simp only
      congr 1
      funext b
      by_cases hb : b = k
      · subst hb; simp [← hl'.view]; rfl
      · rw [upd_ne _ _ hb, upd_ne _ _ hb]; rfl
    · intro b i hb
      simp only [upd] at hb
      split at hb
      · simp only [Option.some.injEq] at hb
        have := hl'.lt
        simp only
        omega
      · exact hk'.sound.stored b i hb
    · have hno : ∀ b, b ≠ k → h'.store b ≠ some r := by
        intro b hb hsb
        by_cases hc : aliased = true ∧ loaded = true
        · exact hb (hk'.sound.single b k r hsb (hl'.shared hc.1 hc.2).1)
        · exact (hl'.own hc).1 b hsb
      intro b c i hb hc
      simp only [upd] at hb hc
      split at hb
      · split at hc
        · simp_all
        · cases hb; exact absurd hc (hno c (by assumption))
      · split at hc
        · cases hc; exact absurd hb (hno b (by assumption))
        · exact hk'.sound.single b c i hb hc
    · intro b hb
      simp only [upd_ne _ _ hb]
      exact hk'.others b hb

/-- `NewGroupRecord`. -/
theorem gNewRecord_run {h : GHWorld} (hk : GKeep aliased k h0 h) : ∃ h', gNewRecord h = (.ok h.nextRecord, h') ∧ h'.values = h.values ∧ GLocal aliased k h0 false h.nextRecord [] h' := by
  have hs := hk.sound
  have hp : ∀ i, i ≠ h.nextRecord → ({ h with records := upd h.records h.nextRecord (.make maxSenderKeyStates), nextRecord := h.nextRecord + 1 } : GHWorld).ptrs i = h.ptrs i := fun i hi => by
    unfold GHWorld.ptrs
    simp only [upd_ne _ _ hi]
  have hnew : ({ h with records := upd h.records h.nextRecord (.make maxSenderKeyStates), nextRecord := h.nextRecord + 1 } : GHWorld).ptrs h.nextRecord = [] := by
    unfold GHWorld.ptrs
    simp only [upd_same]
    exact (PtrSlice.Shows.nil _).live
  have hv : ∀ i < h.nextRecord, ({ h with records := upd h.records h.nextRecord (.make maxSenderKeyStates), nextRecord := h.nextRecord + 1 } : GHWorld).view i = h.view i := fun i hi => by
    unfold GHWorld.view
    simp only [upd_ne _ _ (show i ≠ h.nextRecord by omega)]
  refine ⟨_, rfl, ?_, ?_⟩
  · exact gvalues_same hs rfl rfl rfl rfl fun b i hb => hv i (hs.stored b i hb)
  · refine ⟨⟨⟨?_, ?_, ?_, hs.cells, hs.single⟩, Nat.le_succ_of_le hk.nextRecord, hk.others, ?_⟩, Nat.lt_succ_self _, ?_, (fun _ hn => by cases hn), fun _ => ⟨?_, hk.nextRecord⟩⟩
    · exact fun b i hb => Nat.lt_succ_of_lt (hs.stored b i hb)
    · intro i hi
      by_cases he : i = h.nextRecord
      · subst he
        refine ⟨?_, ?_, ?_⟩
        · rw [hnew]
          refine ⟨[], List.replicate maxSenderKeyStates none, ⟨?_, ?_, ?_⟩, (fun x hx => by cases hx), fun x hx => (List.mem_replicate.mp hx).2⟩ <;> simp [PtrSlice.make]
        · rw [hnew]; intro p hp; cases hp
        · rw [hnew]; exact List.nodup_nil
      · have hg := hs.good i (by simp only at hi; omega)
        refine ⟨?_, ?_, ?_⟩
        · rw [hp i he]; simp only [upd_ne _ _ he]; exact hg.tidy
        · rw [hp i he]; exact hg.bound
        · rw [hp i he]; exact hg.ids
    · intro i hi j hj p hpi hpj
      by_cases he : i = h.nextRecord
      · subst he; rw [hnew] at hpi; cases hpi
      · by_cases hf : j = h.nextRecord
        · subst hf; rw [hnew] at hpj; cases hpj
        · rw [hp i he] at hpi
          rw [hp j hf] at hpj
          exact hs.apart i (by simp only at hi; omega) j (by simp only at hj; omega) p hpi hpj
    · exact fun i hi hn => (hv i (Nat.lt_of_lt_of_le hi hk.nextRecord)).trans (hk.views i hi hn)
    · show (({ h with records := upd h.records h.nextRecord (.make maxSenderKeyStates), nextRecord := h.nextRecord + 1 } : GHWorld).ptrs h.nextRecord).map _ = []
      rw [hnew]
      rfl
    · intro b hb
      have := hs.stored b _ hb
      omega

/-! ## Calls -/

/-- The first state of the record, on pointers and on values. -/
theorem hgState_run {r : Nat} {rec : GRecord} {h : GHWorld} (hs : h.Sound) (hr : r < h.nextRecord) (hv : h.view r = rec) :
    (rec = [] ∧ (hgState r >>= gDeref) h = (.err .emptySenderKeyState, h)) ∨
    ∃ p ps, h.ptrs r = p :: ps ∧ (hgState r >>= gDeref) h = (.ok (p, h.states p), h) ∧ rec = (h.states p).value :: rec.drop 1 := by
  obtain ⟨⟨pre, post, hl, _, _⟩, _, _⟩ := hs.good r hr
  have hit : (h.records r).items = (h.ptrs r).map some := hl.items
  have hview : h.view r = (h.ptrs r).map fun p => (h.states p).value := rfl
  rw [hv] at hview
  cases hps : h.ptrs r with
  | nil =>
    rw [hps] at hit hview
    refine .inl ⟨hview, M.bind_err_run ?_⟩
    unfold hgState
    rw [M.bind_ok_run (show gReadRecord r h = (.ok (h.records r), h) from rfl), hit]
    rfl
  | cons p ps =>
    rw [hps] at hit hview
    refine .inr ⟨p, ps, rfl, ?_, by rw [hview]; rfl⟩
    have : hgState r h = (.ok (some p), h) := by
      unfold hgState
      rw [M.bind_ok_run (show gReadRecord r h = (.ok (h.records r), h) from rfl), hit]
      rfl
    rw [M.bind_ok_run this]
    rfl

theorem hgEncrypt_sim (E : GHEnv) (hE : E.aliased = aliased) (a : Address) (d : DistId) (pt : Bytes) (hs : h0.Sound) :
    GSim aliased (a, d) h0 h0 (hgEncrypt E a d pt) (groupEncrypt E.C aliased a d pt) (fun u v _ => u = v) := by
  unfold hgEncrypt groupEncrypt
  refine .bind (gLoad_sim E hE (.start hs) rfl) fun o o' h1 hk hq => ?_
  cases o with
  | none =>
    cases o' with
    | none => exact .throw hk
    | some rec => exact hq.elim
  | some r =>
    cases o' with
    | none => exact hq.elim
    | some rec =>
      have hl : GLocal aliased (a, d) h0 true r rec h1 := hq
      simp only
      rcases hgState_run hk.sound hl.lt hl.view with ⟨hrec, hst⟩ | ⟨p, ps, hps, hrun, hval⟩
      · subst hrec
        unfold GSim
        rw [M.bind_err_run hst, M.bind_err_run (show (M.lift (GRecord.state []) : M GWorld GState) h1.values = (.err .emptySenderKeyState, h1.values) from rfl)]
        exact ⟨rfl, hk, rfl⟩
      · refine .left hrun ?_
        have hgs : GRecord.state rec = .ok (h1.states p).value := by rw [hval]; rfl
        have hlift : ∀ {β} (s : GState) (g : GState → M GWorld β), ((M.lift (.ok s) : M GWorld GState) >>= g) = g s := fun _ _ => rfl
        rw [hgs, hlift]
        simp only
        refine .lift hk fun ct _ => .lift hk fun key _ => .rand hk fun msg h2 hs2 => ?_
        have hl2 := hl.same hs2
        have hps2 : h2.ptrs r = p :: ps := by obtain ⟨_, _, _, rfl⟩ := hs2; exact hps
        have hst2 : h2.states p = h1.states p := by obtain ⟨_, _, _, rfl⟩ := hs2; rfl
        have hmem : p ∈ h2.ptrs r := by rw [hps2]; exact List.mem_cons_self
        have hok : ((h1.states p).setSenderChainKey ((h1.states p).chainKey.next E.C)).Ok := hk.sound.cells p ((hk.sound.good r hl.lt).bound p (by rw [hps]; exact List.mem_cons_self))
        have hg := write_grow hl2.keep.sound hl2.lt hmem hok (by rw [hst2]; rfl)
        have hw := write_head hl2.keep.sound hl2.lt hps2 ((h1.states p).setSenderChainKey ((h1.states p).chainKey.next E.C))
        rw [hl2.view] at hw
        refine .touch hl2 rfl hg hw fun hl3 => ?_
        exact .bind (gStore_sim E hl3) fun _ _ h4 hk4 _ => .pure hk4 rfl

theorem hgDecrypt_sim (E : GHEnv) (hE : E.aliased = aliased) (a : Address) (m : SenderKeyMsg) (hs : h0.Sound) :
    GSim aliased (a, m.distID) h0 h0 (hgDecrypt E a m) (groupDecrypt E.C aliased a m) (fun u v _ => u = v) := by
  unfold hgDecrypt groupDecrypt
  refine .bind (gLoad_sim E hE (.start hs) rfl) fun o o' h1 hk hq => ?_
  cases o with
  | none =>
    cases o' with
    | none => exact .throw hk
    | some rec => exact hq.elim
  | some r =>
    cases o' with
    | none => exact hq.elim
    | some rec =>
      have hl : GLocal aliased (a, m.distID) h0 true r rec h1 := hq
      simp only
      obtain ⟨⟨pre, post, hlay, _, _⟩, hb, hids⟩ := hk.sound.good r hl.lt
      have hfind : hgStateForChainID r m.chainID h1 = (.ok ((h1.ptrs r).find? fun p => m.chainID == (h1.states p).chainId), h1) := by
        unfold hgStateForChainID
        rw [M.bind_ok_run (show gReadRecord r h1 = (.ok (h1.records r), h1) from rfl), hlay.items, M.bind_ok_run (gSearch_run _ h1 _ 0)]
        have := gSearch_found (fun c => m.chainID == c.chainId) h1 (h1.ptrs r) 0
        rw [← this]
        rfl
      have hval : GRecord.stateForChainID rec m.chainID = ((h1.ptrs r).find? fun p => m.chainID == (h1.states p).chainId).map fun p => (h1.states p).value := by
        rw [← hl.view]
        unfold GRecord.stateForChainID
        show ((h1.ptrs r).map fun p => (h1.states p).value).find? _ = _
        rw [List.find?_map]
        congr 1
      refine .left hfind ?_
      cases hf : (h1.ptrs r).find? (fun p => m.chainID == (h1.states p).chainId) with
      | none =>
        rw [hf] at hval
        simp only [Option.map_none] at hval
        rw [hval]
        exact .throw hk
      | some p =>
        rw [hf] at hval
        simp only [Option.map_some] at hval
        rw [hval]
        simp only
        refine .left (show gReadState p h1 = (.ok (h1.states p), h1) from rfl) ?_
        have hver : (h1.states p).value.version = (h1.states p).version := rfl
        rw [hver]
        split
        · exact .throw hk
        · refine .lift hk fun key _ => .lift hk fun valid _ => ?_
          cases valid with
          | false => exact .throw hk
          | true =>
            simp only [if_true]
            have hmem := List.mem_of_find?_eq_some hf
            have hok := hk.sound.cells p (hb p hmem)
            have hmk := GCell.messageKey_ok E.C E.grow hok m.iteration
            cases hg : groupMessageKey E.C (h1.states p).value m.iteration with
            | err e =>
              rw [hg] at hmk
              simp only at hmk
              rw [hmk]
              exact .throw hk
            | panic => rw [hg] at hmk; exact hmk.elim
            | ok out =>
              obtain ⟨mk, s⟩ := out
              rw [hg] at hmk
              obtain ⟨c', e1, e2, e3⟩ := hmk
              rw [e1]
              have hlift : ∀ {γ δ} (x : γ) (g : γ → M GHWorld δ), ((M.lift (.ok x) : M GHWorld γ) >>= g) = g x := fun _ _ => rfl
              have hlift' : ∀ {γ δ} (x : γ) (g : γ → M GWorld δ), ((M.lift (.ok x) : M GWorld γ) >>= g) = g x := fun _ _ => rfl
              rw [hlift, hlift']
              simp only
              have hid : c'.chainId = (h1.states p).chainId := by
                have h1' : s.chainId = (h1.states p).value.chainId := groupMessageKey_chainId hg
                rw [← e3] at h1'
                exact h1'
              have hgr := write_grow hk.sound hl.lt hmem e2 hid
              have hw : ({ h1 with states := upd h1.states p c' } : GHWorld).view r = GRecord.setStateForChainID rec m.chainID s := by
                have := setState_map h1.states m.chainID p c' (h1.ptrs r) (nodup_of_map hids) hf
                rw [e3] at this
                rw [← hl.view]
                exact this
              refine .touch hl rfl hgr hw fun hl3 => ?_
              exact .lift hl3.keep fun pt _ => .bind (gStore_sim E hl3) fun _ _ h4 hk4 _ => .pure hk4 rfl

/-- A new state is made and added to the record, against `AddState` and `gTouch`. -/
theorem GSim.add {γ δ} (grow : Nat → Nat) {loaded : Bool} {r : Nat} {rec : GRecord} {h : GHWorld} {c : GCell} (hc : c.Ok) {f : Unit → M GHWorld γ} {g : GRecord → M GWorld δ} {R : γ → δ → GHWorld → Prop}
    (hl : GLocal aliased k h0 loaded r rec h)
    (hf : ∀ rec' h', GLocal aliased k h0 loaded r rec' h' → GSim aliased k h0 h' (f ()) (g rec') R) :
    GSim aliased k h0 h (gAllocState c >>= fun p => hgAddState grow r p >>= f) (M.lift (GRecord.addState rec c.value) >>= fun rec' => gTouch aliased k loaded rec' >>= fun _ => g rec') R := by
  obtain ⟨res, h', e1, e2, e3⟩ := add_run grow hl.keep.sound hl.lt hc
  have hassoc : (gAllocState c >>= fun p => hgAddState grow r p >>= f) = ((gAllocState c >>= hgAddState grow r) >>= f) := rfl
  rw [hassoc]
  rw [hl.view] at e3
  cases hadd : GRecord.addState rec c.value with
  | ok rec' =>
    rw [hadd] at e3
    obtain ⟨rfl, e4⟩ := e3
    have hlift : ∀ {δ} (x : GRecord) (g : GRecord → M GWorld δ), ((M.lift (.ok x) : M GWorld GRecord) >>= g) = g x := fun _ _ => rfl
    rw [hlift]
    exact .touch hl e1 e2 e4 fun hl' => hf rec' h' hl'
  | err e =>
    rw [hadd] at e3
    obtain ⟨rfl, e4⟩ := e3
    unfold GSim
    rw [M.bind_err_run e1, M.bind_err_run (show (M.lift (.err e) : M GWorld GRecord) h.values = (.err e, h.values) from rfl)]
    exact ⟨(hl.unchanged e2 e4).symm, (hl.grow e2 e4).keep, rfl⟩
  | panic =>
    rw [hadd] at e3
    obtain ⟨rfl, e4⟩ := e3
    unfold GSim
    rw [M.bind_panic_run e1, M.bind_panic_run (show (M.lift .panic : M GWorld GRecord) h.values = (.panic, h.values) from rfl)]
    exact ⟨(hl.unchanged e2 e4).symm, (hl.grow e2 e4).keep, trivial⟩

theorem hgProcess_sim (E : GHEnv) (hE : E.aliased = aliased) (a : Address) (d : DistributionMsg) (hs : h0.Sound) :
    GSim aliased (a, d.distID) h0 h0 (hgProcessDistribution E a d) (processDistribution aliased a d) (fun _ _ _ => True) := by
  unfold hgProcessDistribution processDistribution
  have hcell := newGCell_ok d.version d.chainID d.iteration d.chainKey d.signingKey none
  refine .bind (gLoad_sim E hE (.start hs) rfl) fun o o' h1 hk hq => ?_
  have rest : ∀ (loaded : Bool) (r : Nat) (rec : GRecord) (h2 : GHWorld), GLocal aliased (a, d.distID) h0 loaded r rec h2 →
      GSim aliased (a, d.distID) h0 h2 (do
        let p ← gAllocState (newGCell d.version d.chainID d.iteration d.chainKey d.signingKey none)
        hgAddState E.grow r p
        hgStore E (a, d.distID) r) (do
        let record ← M.lift (GRecord.addState rec (newGroupState d.version d.chainID d.iteration d.chainKey d.signingKey none))
        gTouch aliased (a, d.distID) loaded record
        gStore (a, d.distID) record) (fun _ _ _ => True) := by
    intro loaded r rec h2 hl2
    rw [← hcell.2]
    refine .add E.grow hcell.1 hl2 fun rec' h3 hl3 => ?_
    exact (gStore_sim E hl3).mono fun _ _ _ _ => trivial
  cases o with
  | none =>
    cases o' with
    | some rec => exact hq.elim
    | none =>
      simp only [Option.getD_none, Option.isSome_none]
      obtain ⟨h2, e1, e2, e3⟩ := gNewRecord_run hk
      have := rest false h1.nextRecord [] h2 e3
      unfold GSim at this ⊢
      rw [M.bind_ok_run e1]
      exact e2 ▸ this
  | some r =>
    cases o' with
    | none => exact hq.elim
    | some rec => exact rest true r rec h1 hq

theorem hgCreate_sim (E : GHEnv) (a : Address) (d : DistId) {h : GHWorld} (hk : GKeep aliased (a, d) h0 h) :
    GSim aliased (a, d) h0 h (hgCreateSenderKey E a d) (createSenderKey E.C a d) (fun r rec h' => r < h'.nextRecord ∧ h'.view r = rec) := by
  unfold hgCreateSenderKey createSenderKey
  refine .sysRand hk fun cid h1 hs1 => ?_
  have hk1 := hk.same hs1
  refine .rand hk1 fun key h2 hs2 => ?_
  have hk2 := hk1.same hs2
  refine .rand hk2 fun kp h3 hs3 => ?_
  have hk3 := hk2.same hs3
  have hcell := newGCell_ok 3 (cid >>> 1) 0 key kp.pub (some kp.priv)
  obtain ⟨h4, e1, e2, hl⟩ := gNewRecord_run hk3
  obtain ⟨res, h5, f1, f2, f3⟩ := add_run E.grow hl.keep.sound hl.lt hcell.1
  rw [hl.view, hcell.2] at f3
  have hrun : (gNewRecord >>= fun r => gAllocState (newGCell 3 (cid >>> 1) 0 key kp.pub (some kp.priv)) >>= fun p => hgAddState E.grow r p >>= fun _ => hgStore E (a, d) r >>= fun _ => (Pure.pure r : M GHWorld Nat)) h3 =
      ((gAllocState (newGCell 3 (cid >>> 1) 0 key kp.pub (some kp.priv)) >>= hgAddState E.grow h3.nextRecord) >>= fun _ => hgStore E (a, d) h3.nextRecord >>= fun _ => (Pure.pure h3.nextRecord : M GHWorld Nat)) h4 := by
    rw [M.bind_ok_run e1]
    rfl
  unfold GSim
  rw [hrun, ← e2]
  cases hadd : GRecord.addState [] (newGroupState 3 (cid >>> 1) 0 key kp.pub (some kp.priv)) with
  | ok rec' =>
    rw [hadd] at f3
    obtain ⟨rfl, f4⟩ := f3
    rw [M.bind_ok_run f1]
    have hv5 : h5.values = h4.values := by
      refine gvalues_same hl.keep.sound f2.rand f2.sysRand f2.faults f2.store fun b i hb => ?_
      refine f2.view_other hl.keep.sound hl.lt (hl.keep.sound.stored b i hb) ?_
      rintro rfl
      exact (hl.own (by simp)).1 b hb
    rw [← hv5]
    have := gStore_sim E (hl.grow f2 f4)
    have hb := GSim.bind (f := fun _ => (Pure.pure h3.nextRecord : M GHWorld Nat)) (g := fun _ => (Pure.pure rec' : M GWorld GRecord)) (R := fun r rec h' => r < h'.nextRecord ∧ h'.view r = rec) this
      fun _ _ h6 hk6 hq => .pure hk6 hq
    exact hb
  | err e =>
    rw [hadd] at f3
    obtain ⟨rfl, f4⟩ := f3
    rw [M.bind_err_run f1, M.bind_err_run (show (M.lift (.err e) : M GWorld GRecord) h4.values = (.err e, h4.values) from rfl)]
    exact ⟨(hl.unchanged f2 f4).symm, (hl.grow f2 f4).keep, rfl⟩
  | panic =>
    rw [hadd] at f3
    obtain ⟨rfl, f4⟩ := f3
    rw [M.bind_panic_run f1, M.bind_panic_run (show (M.lift .panic : M GWorld GRecord) h4.values = (.panic, h4.values) from rfl)]
    exact ⟨(hl.unchanged f2 f4).symm, (hl.grow f2 f4).keep, trivial⟩

theorem hgDistribute_sim (E : GHEnv) (hE : E.aliased = aliased) (a : Address) (d : DistId) (hs : h0.Sound) :
    GSim aliased (a, d) h0 h0 (hgNewSenderKeyDistribution E a d) (newSenderKeyDistribution E.C a d) (fun u v _ => u = v) := by
  unfold hgNewSenderKeyDistribution newSenderKeyDistribution
  refine .bind (gLoad_sim E hE (.start hs) rfl) fun o o' h1 hk hq => ?_
  have rest : ∀ (r : Nat) (rec : GRecord) (h2 : GHWorld), GKeep aliased (a, d) h0 h2 → r < h2.nextRecord ∧ h2.view r = rec →
      GSim aliased (a, d) h0 h2 (do
        let (_, state) ← hgState r >>= gDeref
        let signingKey ← M.lift state.publicSigningKey
        return newDistribution state.version.toUInt8 d state.chainId state.chainKey.iteration state.chainKey.seed signingKey) (do
        let state ← M.lift (GRecord.state rec)
        let signingKey ← M.lift state.publicSigningKey
        return newDistribution state.version.toUInt8 d state.chainId state.chainKey.iteration state.chainKey.seed signingKey) (fun u v _ => u = v) := by
    intro r rec h2 hk2 hq2
    rcases hgState_run hk2.sound hq2.1 hq2.2 with ⟨hrec, hst⟩ | ⟨p, ps, hps, hrun, hval⟩
    · subst hrec
      unfold GSim
      rw [M.bind_err_run hst, M.bind_err_run (show (M.lift (GRecord.state []) : M GWorld GState) h2.values = (.err .emptySenderKeyState, h2.values) from rfl)]
      exact ⟨rfl, hk2, rfl⟩
    · refine .left hrun ?_
      have hgs : GRecord.state rec = .ok (h2.states p).value := by rw [hval]; rfl
      rw [hgs]
      show GSim aliased (a, d) h0 h2 (M.lift (h2.states p).publicSigningKey >>= _) (M.lift (h2.states p).publicSigningKey >>= _) _
      exact .lift hk2 fun key _ => .pure hk2 rfl
  cases o with
  | none =>
    cases o' with
    | some rec => exact hq.elim
    | none => exact .bind (hgCreate_sim E a d hk) fun r rec h2 hk2 hq2 => rest r rec h2 hk2 hq2
  | some r =>
    cases o' with
    | none => exact hq.elim
    | some rec =>
      have hl : GLocal aliased (a, d) h0 true r rec h1 := hq
      exact rest r rec h1 hk ⟨hl.lt, hl.view⟩

end

end Verif
