import Verif.Proofs.GroupHeapCalls

/-!
Group histories: pointers and values agree, and records stay apart.
-/

namespace Verif

theorem GHWorld.start_sound (r s : Bytes) (f : List Fault) : (GHWorld.start r s f).Sound :=
  ⟨fun _ _ h => by simp [GHWorld.start] at h, fun _ h => by simp [GHWorld.start] at h, fun _ h => by simp [GHWorld.start] at h, fun _ h => by simp [GHWorld.start] at h, fun _ _ _ h => by simp [GHWorld.start] at h⟩

theorem GSim.out {α} {aliased : Bool} {k : Address × DistId} {h0 h : GHWorld} {x : M GHWorld α} {y : M GWorld α} (f : α → GOut) (hs : GSim aliased k h0 h x y (fun u v _ => u = v)) :
    GOut.of f (x h).1 = GOut.of f (y h.values).1 ∧ (x h).2.values = (y h.values).2 := by
  obtain ⟨h1, _, h3⟩ := hs
  refine ⟨?_, h1.symm⟩
  split at h3
  · next e1 e2 => rw [e1, e2, h3]
  · next e1 e2 => rw [e1, e2, h3]
  · next e1 e2 => rw [e1, e2]
  · exact h3.elim

/-- What one call about `k` does to the objects there are. -/
structure GStable (aliased : Bool) (k : Address × DistId) (h h' : GHWorld) : Prop where
  sound : h'.Sound
  nextRecord : h.nextRecord ≤ h'.nextRecord
  others : ∀ b, b ≠ k → h'.store b = h.store b
  views : ∀ i < h.nextRecord, h'.view i ≠ h.view i → aliased = true ∧ h.store k = some i

theorem GKeep.stable {aliased : Bool} {k : Address × DistId} {h h' : GHWorld} (hk : GKeep aliased k h h') : GStable aliased k h h' := by
  refine ⟨hk.sound, hk.nextRecord, hk.others, fun i hi hv => ?_⟩
  by_cases hal : aliased = true
  · exact ⟨hal, Classical.byContradiction fun hn => hv (hk.views i hi fun _ => hn)⟩
  · exact absurd (hk.views i hi fun hc => absurd hc hal) hv

theorem GStable.of_same {aliased : Bool} {k : Address × DistId} {h h1 h' : GHWorld} (he : h.Same h1) (hs : GStable aliased k h1 h') : GStable aliased k h h' := by
  obtain ⟨_, _, _, rfl⟩ := he
  exact ⟨hs.sound, hs.nextRecord, hs.others, hs.views⟩

theorem gcall_sim (E : GHEnv) (c : GCall) {h : GHWorld} (hs : h.Sound) :
    (c.heapRun E h).1 = (c.run E.toGEnv h.values).1 ∧ (c.heapRun E h).2.values = (c.run E.toGEnv h.values).2 ∧ GStable E.aliased c.op.key h (c.heapRun E h).2 := by
  obtain ⟨op, rand, sysRand, faults⟩ := c
  have he : h.Same { h with rand := rand, sysRand := sysRand, faults := faults } := ⟨_, _, _, rfl⟩
  have hs1 := he.sound hs
  cases op with
  | encrypt a d pt =>
    have := hgEncrypt_sim E rfl a d pt hs1
    exact ⟨(this.out _).1, (this.out (.ciphertext a d)).2, this.2.1.stable.of_same he⟩
  | decrypt a m =>
    have := hgDecrypt_sim E rfl a m hs1
    exact ⟨(this.out _).1, (this.out (.plaintext a m)).2, this.2.1.stable.of_same he⟩
  | process a d =>
    have := (hgProcess_sim E rfl a d hs1).mono (Q' := fun u v _ => u = v) fun _ _ _ _ => rfl
    exact ⟨(this.out _).1, (this.out fun _ => .done).2, this.2.1.stable.of_same he⟩
  | distribute a d =>
    have := hgDistribute_sim E rfl a d hs1
    exact ⟨(this.out _).1, (this.out (.distribution a d)).2, this.2.1.stable.of_same he⟩

/-- The application loads a record: nothing that exists changes, and what it gets has the stored value. -/
theorem gAppLoad_sim (E : GHEnv) (k : Address × DistId) {h : GHWorld} (hs : h.Sound) :
    (gAppLoad E k h).2.values = h.values ∧ (gAppLoad E k h).2.Sound ∧ h.nextRecord ≤ (gAppLoad E k h).2.nextRecord ∧ (gAppLoad E k h).2.store = h.store ∧
      (∀ i < h.nextRecord, (gAppLoad E k h).2.view i = h.view i) ∧
      ((gAppLoad E k h).1.map (gAppLoad E k h).2.view = h.values.records k) ∧
      ∀ r, (gAppLoad E k h).1 = some r → r < (gAppLoad E k h).2.nextRecord ∧ (E.aliased = true → h.store k = some r) ∧ (E.aliased = false → h.nextRecord ≤ r) := by
  unfold gAppLoad hgLoad hgStoreCall
  simp only
  rw [M.bind_ok_run (show (M.get : M GHWorld GHWorld) { h with faults := [] } = (.ok { h with faults := [] }, _) from rfl)]
  have hval : h.values.records k = (h.store k).map h.view := rfl
  rw [hval]
  simp only
  have hgood : ∀ i < h.nextRecord, h.Good i := hs.good
  cases hst : h.store k with
  | none => exact ⟨rfl, hs, Nat.le_refl _, rfl, fun _ _ => rfl, rfl, fun r hr => by cases hr⟩
  | some r =>
    have hr := hs.stored k r hst
    simp only
    cases hal : E.aliased with
    | true =>
      exact ⟨rfl, hs, Nat.le_refl _, rfl, fun _ _ => rfl, rfl, fun r' he => by
        have he : some r = some r' := he
        cases he
        exact ⟨hr, fun _ => rfl, fun hn => by cases hn⟩⟩
    | false =>
      have hs1 : ({ h with faults := [] } : GHWorld).Sound := GHWorld.Same.sound ⟨_, _, _, rfl⟩ hs
      obtain ⟨h2, e1, e2, ⟨r1, r2, r3⟩, e4, e5, e6, e7⟩ := gCopyRecord_run hs1 hr
      simp only [Bool.false_eq_true, if_false]
      rw [M.bind_ok_run e1]
      refine ⟨?_, GHWorld.Same.sound ⟨_, _, _, rfl⟩ e2, ?_, e4, e7, ?_, ?_⟩
      · exact gvalues_same hs r1 r2 rfl e4 fun b i hb => e7 i (hs.stored b i hb)
      · show h.nextRecord ≤ h2.nextRecord
        rw [e5]
        exact Nat.le_succ _
      · show some (h2.view h.nextRecord) = some (h.view r)
        rw [e6]
        rfl
      · intro r' he
        have he : some h.nextRecord = some r' := he
        cases he
        refine ⟨?_, fun hn => absurd hn (by simp), fun _ => Nat.le_refl _⟩
        show h.nextRecord < h2.nextRecord
        rw [e5]
        exact Nat.lt_succ_self _

theorem gHeapRun_sim (E : GHEnv) : ∀ (evs : List GHeapEvent) {h : GHWorld}, h.Sound →
    (gHeapRun E evs h).1 = (runGCalls E.toGEnv (gCalls evs) h.values).1 ∧ (gHeapRun E evs h).2.values = (runGCalls E.toGEnv (gCalls evs) h.values).2 ∧ (gHeapRun E evs h).2.Sound ∧
      h.nextRecord ≤ (gHeapRun E evs h).2.nextRecord := by
  intro evs
  induction evs with
  | nil => exact fun hs => ⟨rfl, rfl, hs, Nat.le_refl _⟩
  | cons ev evs ih =>
    intro h hs
    cases ev with
    | call c =>
      obtain ⟨e1, e2, e3⟩ := gcall_sim E c hs
      obtain ⟨f1, f2, f3, f4⟩ := ih e3.sound
      rw [e2] at f1 f2
      refine ⟨?_, ?_, f3, Nat.le_trans e3.nextRecord f4⟩
      · show (c.heapRun E h).1 :: (gHeapRun E evs (c.heapRun E h).2).1 = (c.run E.toGEnv h.values).1 :: _
        rw [e1, f1]
        rfl
      · exact f2
    | load a =>
      obtain ⟨e1, e2, e3, _⟩ := gAppLoad_sim E a hs
      obtain ⟨f1, f2, f3, f4⟩ := ih e2
      rw [e1] at f1 f2
      exact ⟨f1, f2, f3, Nat.le_trans e3 f4⟩

theorem gHeapRun_kept (E : GHEnv) (k : Address × DistId) (r : Nat) : ∀ (evs : List GHeapEvent) {h : GHWorld}, h.Sound → r < h.nextRecord → (E.aliased = true → h.store k = some r ∧ GNotAbout k evs) →
    (gHeapRun E evs h).2.view r = h.view r := by
  intro evs
  induction evs with
  | nil => exact fun _ _ _ => rfl
  | cons ev evs ih =>
    intro h hs hr hst
    have hrest : E.aliased = true → GNotAbout k evs := fun hal c hc => (hst hal).2 c (by
      cases ev with
      | call c' => exact List.mem_cons_of_mem _ hc
      | load b => exact hc)
    cases ev with
    | call c =>
      obtain ⟨e1, e2, e3⟩ := gcall_sim E c hs
      have hne : E.aliased = true → c.op.key ≠ k := fun hal => (hst hal).2 c (by exact List.mem_cons_self)
      have := ih e3.sound (Nat.lt_of_lt_of_le hr e3.nextRecord) (fun hal => ⟨(e3.others k (hne hal).symm).trans (hst hal).1, hrest hal⟩)
      refine Eq.trans this ?_
      refine Classical.byContradiction fun hv => ?_
      obtain ⟨hal, hsb⟩ := e3.views r hr hv
      exact hne hal (hs.single _ _ r hsb (hst hal).1)
    | load b =>
      obtain ⟨e1, e2, e3, e4, e5, _⟩ := gAppLoad_sim E b hs
      have := ih e2 (Nat.lt_of_lt_of_le hr e3) (fun hal => ⟨by rw [e4]; exact (hst hal).1, hrest hal⟩)
      exact this.trans (e5 r hr)

end Verif
