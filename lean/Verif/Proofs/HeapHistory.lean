import Verif.Proofs.HeapCalls
import Verif.Spec.Heap

/-!
Histories: pointers and values agree, and records stay apart.
-/

namespace Verif

theorem HWorld.start_sound (w : World) : (HWorld.start w).Sound :=
  ⟨fun _ _ h => by simp [HWorld.start] at h, fun _ h => by simp [HWorld.start] at h, fun _ h => by simp [HWorld.start] at h, fun _ _ _ h => by simp [HWorld.start] at h⟩

theorem HWorld.start_values {w : World} (hw : w.NoSessions) : (HWorld.start w).values = w := by
  have : w.sessions = fun _ => none := funext hw
  cases w
  simp only at this
  subst this
  rfl

/-- One call. -/
theorem HSim.out {α} {aliased : Bool} {a : Address} {h0 h : HWorld} {x : M HWorld α} {y : M World α} (f : α → Out) (hs : HSim aliased a h0 h x y (fun u v _ => u = v)) :
    Out.of f (x h).1 = Out.of f (y h.values).1 ∧ (x h).2.values = (y h.values).2 := by
  obtain ⟨h1, _, h3⟩ := hs
  refine ⟨?_, h1.symm⟩
  split at h3
  · next e1 e2 => rw [e1, e2, h3]
  · next e1 e2 => rw [e1, e2, h3]
  · next e1 e2 => rw [e1, e2]
  · exact h3.elim

/-- What one call does to the objects there are. -/
structure Stable (aliased : Bool) (o : Option Address) (h h' : HWorld) : Prop where
  sound : h'.Sound
  nextRecord : h.nextRecord ≤ h'.nextRecord
  others : ∀ b, o ≠ some b → h'.store b = h.store b
  views : ∀ i < h.nextRecord, h'.view i ≠ h.view i → aliased = true ∧ ∃ a, o = some a ∧ h.store a = some i

theorem Keep.stable {aliased : Bool} {a : Address} {h h' : HWorld} (hk : Keep aliased a h h') : Stable aliased (some a) h h' := by
  refine ⟨hk.sound, hk.nextRecord, fun b hb => hk.others b fun he => hb (by rw [he]), fun i hi hv => ?_⟩
  by_cases hal : aliased = true
  · refine ⟨hal, a, rfl, ?_⟩
    exact Classical.byContradiction fun hn => hv (hk.views i hi fun _ => hn)
  · exact absurd (hk.views i hi fun hc => absurd hc hal) hv

theorem Stable.rest {aliased : Bool} {o : Option Address} {h h' : HWorld} {w : World} (hs : Stable aliased o { h with rest := w } h') : Stable aliased o h h' :=
  ⟨hs.sound, hs.nextRecord, hs.others, hs.views⟩

theorem call_hsim (E : HEnv) (c : Call) {h : HWorld} (hs : h.Sound) :
    (c.heapRun E h).1 = (c.run E.toEnv h.values).1 ∧ (c.heapRun E h).2.values = (c.run E.toEnv h.values).2 ∧ Stable E.aliased c.op.address h (c.heapRun E h).2 := by
  obtain ⟨op, rand, faults⟩ := c
  have hs1 : ({ h with rest := { h.rest with rand := rand, faults := faults } } : HWorld).Sound := HWorld.Same.sound ⟨_, rfl⟩ hs
  cases op with
  | encrypt a pt =>
    have := encryptMessage_hsim (a := a) E rfl pt hs1
    exact ⟨(this.out _).1, (this.out (.ciphertext a)).2, this.2.1.stable.rest⟩
  | decrypt a m =>
    have := decryptMessage_hsim (a := a) E rfl m hs1
    exact ⟨(this.out _).1, (this.out (.plaintext a)).2, this.2.1.stable.rest⟩
  | bundle a b =>
    have := processPreKeyBundle_hsim (a := a) E rfl b hs1
    exact ⟨(this.out _).1, (this.out fun _ => .done).2, this.2.1.stable.rest⟩
  | addPreKey id k => exact ⟨rfl, rfl, ⟨hs.stored, hs.valid, hs.apart, hs.single⟩, Nat.le_refl _, fun _ _ => rfl, fun _ _ hv => absurd rfl hv⟩
  | addSignedPreKey id k => exact ⟨rfl, rfl, ⟨hs.stored, hs.valid, hs.apart, hs.single⟩, Nat.le_refl _, fun _ _ => rfl, fun _ _ hv => absurd rfl hv⟩

/-- The application loads a session: nothing that exists changes, and what it gets has the stored value. -/
theorem appLoad_hsim (E : HEnv) (a : Address) {h : HWorld} (hs : h.Sound) :
    (appLoad E a h).2.values = h.values ∧ (appLoad E a h).2.Sound ∧ h.nextRecord ≤ (appLoad E a h).2.nextRecord ∧ (appLoad E a h).2.store = h.store ∧
      (∀ i < h.nextRecord, (appLoad E a h).2.view i = h.view i) ∧
      ((appLoad E a h).1.map (appLoad E a h).2.view = h.values.sessions a) ∧
      ∀ r, (appLoad E a h).1 = some r → r < (appLoad E a h).2.nextRecord ∧ (E.aliased = true → h.store a = some r) ∧ (E.aliased = false → h.nextRecord ≤ r) := by
  unfold appLoad hLoadSession hStoreCall
  simp only
  rw [M.bind_ok_run (show (M.get : M HWorld HWorld) { h with rest := { h.rest with faults := [] } } = (.ok { h with rest := { h.rest with faults := [] } }, _) from rfl)]
  have hval : h.values.sessions a = (h.store a).map h.view := rfl
  rw [hval]
  simp only
  cases hst : h.store a with
  | none => exact ⟨rfl, ⟨hs.stored, hs.valid, hs.apart, hs.single⟩, Nat.le_refl _, rfl, fun _ _ => rfl, rfl, fun r hr => by cases hr⟩
  | some r =>
    have hr := hs.stored a r hst
    simp only
    cases hal : E.aliased with
    | true =>
      exact ⟨rfl, ⟨hs.stored, hs.valid, hs.apart, hs.single⟩, Nat.le_refl _, rfl, fun _ _ => rfl, rfl, fun r' he => by
        have he : some r = some r' := he
        cases he
        exact ⟨hr, fun _ => rfl, fun hn => by cases hn⟩⟩
    | false =>
      obtain ⟨h2, e1, e2, e3, e4, e5, e6, e7⟩ := copyRecord_run (h := { h with rest := { h.rest with faults := [] } }) ⟨hs.stored, hs.valid, hs.apart, hs.single⟩ hr
      simp only [Bool.false_eq_true, if_false]
      rw [M.bind_ok_run e1]
      refine ⟨?_, ⟨e2.stored, e2.valid, e2.apart, e2.single⟩, ?_, e4, e7, ?_, ?_⟩
      · exact values_same hs rfl e4 e7
      · show h.nextRecord ≤ h2.nextRecord
        rw [e5]
        exact Nat.le_succ _
      · show some (h2.view h.nextRecord) = some (h.view r)
        rw [e6]
        rfl
      · intro r' he
        have he : some h.nextRecord = some r' := he
        cases he
        refine ⟨?_, fun hn => absurd hn (by simp), fun _ => Nat.le_refl _⟩
        show h.nextRecord < h2.nextRecord
        rw [e5]
        exact Nat.lt_succ_self _

theorem heapRun_hsim (E : HEnv) : ∀ (evs : List HeapEvent) {h : HWorld}, h.Sound →
    (heapRun E evs h).1 = (runCalls E.toEnv (calls evs) h.values).1 ∧ (heapRun E evs h).2.values = (runCalls E.toEnv (calls evs) h.values).2 ∧ (heapRun E evs h).2.Sound ∧ h.nextRecord ≤ (heapRun E evs h).2.nextRecord := by
  intro evs
  induction evs with
  | nil => exact fun hs => ⟨rfl, rfl, hs, Nat.le_refl _⟩
  | cons ev evs ih =>
    intro h hs
    cases ev with
    | call c =>
      obtain ⟨e1, e2, e3⟩ := call_hsim E c hs
      obtain ⟨f1, f2, f3, f4⟩ := ih e3.sound
      rw [e2] at f1 f2
      refine ⟨?_, ?_, f3, Nat.le_trans e3.nextRecord f4⟩
      · show (c.heapRun E h).1 :: (heapRun E evs (c.heapRun E h).2).1 = (c.run E.toEnv h.values).1 :: _
        rw [e1, f1]
        rfl
      · exact f2
    | load a =>
      obtain ⟨e1, e2, e3, _⟩ := appLoad_hsim E a hs
      obtain ⟨f1, f2, f3, f4⟩ := ih e2
      rw [e1] at f1 f2
      exact ⟨f1, f2, f3, Nat.le_trans e3 f4⟩

theorem heapRun_kept (E : HEnv) (a : Address) (r : Nat) : ∀ (evs : List HeapEvent) {h : HWorld}, h.Sound → r < h.nextRecord → (E.aliased = true → h.store a = some r ∧ NotAbout a evs) →
    (heapRun E evs h).2.view r = h.view r := by
  intro evs
  induction evs with
  | nil => exact fun _ _ _ => rfl
  | cons ev evs ih =>
    intro h hs hr hst
    have hrest : E.aliased = true → NotAbout a evs := fun hal c hc => (hst hal).2 c (by
      cases ev with
      | call c' => exact List.mem_cons_of_mem _ hc
      | load b => exact hc)
    cases ev with
    | call c =>
      obtain ⟨e1, e2, e3⟩ := call_hsim E c hs
      have hne : E.aliased = true → c.op.address ≠ some a := fun hal => (hst hal).2 c (by exact List.mem_cons_self)
      have := ih e3.sound (Nat.lt_of_lt_of_le hr e3.nextRecord) (fun hal => ⟨(e3.others a (hne hal)).trans (hst hal).1, hrest hal⟩)
      refine Eq.trans this ?_
      refine Classical.byContradiction fun hv => ?_
      obtain ⟨hal, b, hb, hsb⟩ := e3.views r hr hv
      have := hs.single a b r (hst hal).1 hsb
      exact hne hal (by rw [hb, this])
    | load b =>
      obtain ⟨e1, e2, e3, e4, e5, _⟩ := appLoad_hsim E b hs
      have := ih e2 (Nat.lt_of_lt_of_le hr e3) (fun hal => ⟨by rw [e4]; exact (hst hal).1, hrest hal⟩)
      exact this.trans (e5 r hr)

end Verif
