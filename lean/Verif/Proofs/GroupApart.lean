import Verif.Spec.Apart
import Verif.Proofs.Ops

/-!
Two runs of the group code on memories that agree on the objects of one sender key.
-/

namespace Verif

/-- Everything the array of the slice points to. -/
def PtrSlice.Within {α : Type} (P : α → Prop) (s : PtrSlice α) : Prop := ∀ x, some x ∈ s.array → P x

namespace PtrSlice.Within

variable {α : Type} {P : α → Prop} {s : PtrSlice α}

theorem items (h : s.Within P) {x : α} (hx : some x ∈ s.items) : P x := h x (List.mem_of_mem_drop (List.mem_of_mem_take hx))

theorem live (h : s.Within P) {x : α} (hx : x ∈ s.live) : P x := by
  obtain ⟨y, hy, he⟩ := List.mem_filterMap.1 hx
  cases y with
  | none => cases he
  | some z => cases he; exact h.items hy

theorem append (h : s.Within P) (grow : Nat → Nat) {xs : List (Option α)} (hxs : ∀ x, some x ∈ xs → P x) : (s.append grow xs).Within P := by
  intro x hx
  unfold PtrSlice.append at hx
  split at hx
  · simp only [List.mem_append] at hx
    rcases hx with (hx | hx) | hx
    · exact h x (List.mem_of_mem_take hx)
    · exact hxs x hx
    · exact h x (List.mem_of_mem_drop hx)
  · simp only [List.mem_append] at hx
    rcases hx with (hx | hx) | hx
    · exact h.items hx
    · exact hxs x hx
    · have := List.eq_of_mem_replicate hx
      cases this

theorem setNil (h : s.Within P) {i : Nat} {t : PtrSlice α} (ht : s.setNil i = .ok t) : t.Within P := by
  unfold PtrSlice.setNil at ht
  split at ht
  · cases ht
    intro x hx
    rcases List.mem_or_eq_of_mem_set hx with hx | hx
    · exact h x hx
    · cases hx
  · cases ht

theorem tail (h : s.Within P) {t : PtrSlice α} (ht : s.tail = .ok t) : t.Within P := by
  unfold PtrSlice.tail at ht
  split at ht
  · cases ht; exact h
  · cases ht

theorem cut (h : s.Within P) {grow : Nat → Nat} {i : Nat} {t : PtrSlice α} (ht : s.cut grow i = .ok t) : t.Within P := by
  unfold PtrSlice.cut at ht
  split at ht
  · cases ht
    exact append (s := { s with len := i }) h grow fun x hx => h.items (List.mem_of_mem_drop hx)
  · cases ht

end PtrSlice.Within

/-- The objects of a sender key during one call: those it has, and those that the call makes. -/
structure GKeyOwn where
  rc : Nat → Prop
  st : Nat → Prop

namespace GKeyOwn

variable (O : GKeyOwn) (k : Address × DistId)

/-- The memories agree on the objects of the sender key, and these refer only to each other. -/
structure Rel (h h' : GHWorld) : Prop where
  rand : h'.rand = h.rand
  sysRand : h'.sysRand = h.sysRand
  faults : h'.faults = h.faults
  entry : h'.store k = h.store k
  recs : ∀ r, O.rc r → h'.records r = h.records r
  sts : ∀ p, O.st p → h'.states p = h.states p
  nr : h'.nextRecord = h.nextRecord
  ns : h'.nextState = h.nextState
  stored : ∀ r, h.store k = some r → O.rc r ∧ r < h.nextRecord
  current : ∀ r, O.rc r → r < h.nextRecord → (h.records r).Within fun p => O.st p ∧ p < h.nextState
  newR : ∀ r, h.nextRecord ≤ r → O.rc r
  newS : ∀ p, h.nextState ≤ p → O.st p

/-- Nothing but objects of the sender key has been written. -/
structure Kept (h l : GHWorld) : Prop where
  store : ∀ j, j ≠ k → l.store j = h.store j
  recs : ∀ r, ¬ O.rc r → l.records r = h.records r
  sts : ∀ p, ¬ O.st p → l.states p = h.states p
  nr : h.nextRecord ≤ l.nextRecord
  ns : h.nextState ≤ l.nextState

/-- Two runs of related code. -/
def Pair {α} (n m : Nat) (x y : M GHWorld α) (Q : α → Nat → Nat → Prop) : Prop :=
  ∀ h h', O.Rel k h h' → n ≤ h.nextRecord → m ≤ h.nextState →
    (y h').1 = (x h).1 ∧ O.Rel k (x h).2 (y h').2 ∧ O.Kept k h (x h).2 ∧ O.Kept k h' (y h').2 ∧
      ∀ v, (x h).1 = .ok v → Q v (x h).2.nextRecord (x h).2.nextState

variable {O} {k}

theorem Kept.refl (h : GHWorld) : O.Kept k h h := ⟨fun _ _ => rfl, fun _ _ => rfl, fun _ _ => rfl, Nat.le_refl _, Nat.le_refl _⟩

theorem Kept.trans {h i l : GHWorld} (h1 : O.Kept k h i) (h2 : O.Kept k i l) : O.Kept k h l :=
  ⟨fun b hb => (h2.store b hb).trans (h1.store b hb), fun r hr => (h2.recs r hr).trans (h1.recs r hr), fun p hp => (h2.sts p hp).trans (h1.sts p hp),
    Nat.le_trans h1.nr h2.nr, Nat.le_trans h1.ns h2.ns⟩

theorem Rel.setFaults {h h' : GHWorld} (hr : O.Rel k h h') (fs : List Fault) : O.Rel k { h with faults := fs } { h' with faults := fs } :=
  ⟨hr.rand, hr.sysRand, rfl, hr.entry, hr.recs, hr.sts, hr.nr, hr.ns, hr.stored, hr.current, hr.newR, hr.newS⟩

theorem Rel.setRest {h h' : GHWorld} (hr : O.Rel k h h') (rand sysRand : Bytes) (fs : List Fault) :
    O.Rel k { h with rand := rand, sysRand := sysRand, faults := fs } { h' with rand := rand, sysRand := sysRand, faults := fs } :=
  ⟨rfl, rfl, rfl, hr.entry, hr.recs, hr.sts, hr.nr, hr.ns, hr.stored, hr.current, hr.newR, hr.newS⟩

theorem Kept.setFaults {h l : GHWorld} (fs : List Fault) (hk : O.Kept k { h with faults := fs } l) : O.Kept k h l := ⟨hk.store, hk.recs, hk.sts, hk.nr, hk.ns⟩

theorem Kept.setRest {h l : GHWorld} (rand sysRand : Bytes) (fs : List Fault) (hk : O.Kept k { h with rand := rand, sysRand := sysRand, faults := fs } l) : O.Kept k h l :=
  ⟨hk.store, hk.recs, hk.sts, hk.nr, hk.ns⟩

namespace Pair

variable {n m : Nat}

theorem bind {α β} {x y : M GHWorld α} {f g : α → M GHWorld β} {Q : α → Nat → Nat → Prop} {R : β → Nat → Nat → Prop} (hx : O.Pair k n m x y Q)
    (hf : ∀ v n' m', n ≤ n' → m ≤ m' → Q v n' m' → O.Pair k n' m' (f v) (g v) R) : O.Pair k n m (x >>= f) (y >>= g) R := by
  intro h h' hr hn hm
  obtain ⟨e, r1, k1, k2, q⟩ := hx h h' hr hn hm
  rw [M.bind_run, M.bind_run]
  rcases hxh : x h with ⟨v, l⟩
  rcases hyh : y h' with ⟨v', l'⟩
  rw [hxh, hyh] at e r1
  rw [hxh] at k1 q
  rw [hyh] at k2
  simp only at e r1 k1 k2 q
  subst e
  cases v' with
  | ok v =>
    obtain ⟨e, r2, l1, l2, q2⟩ := hf v _ _ (Nat.le_trans hn k1.nr) (Nat.le_trans hm k1.ns) (q v rfl) l l' r1 (Nat.le_refl _) (Nat.le_refl _)
    exact ⟨e, r2, k1.trans l1, k2.trans l2, q2⟩
  | err e => exact ⟨rfl, r1, k1, k2, fun v hv => by cases hv⟩
  | panic => exact ⟨rfl, r1, k1, k2, fun v hv => by cases hv⟩

theorem mono {α} {x y : M GHWorld α} {Q R : α → Nat → Nat → Prop} (hx : O.Pair k n m x y Q) (hq : ∀ v n' m', n ≤ n' → m ≤ m' → Q v n' m' → R v n' m') :
    O.Pair k n m x y R := by
  intro h h' hr hn hm
  obtain ⟨e, r1, k1, k2, q⟩ := hx h h' hr hn hm
  exact ⟨e, r1, k1, k2, fun v hv => hq v _ _ (Nat.le_trans hn k1.nr) (Nat.le_trans hm k1.ns) (q v hv)⟩

theorem pure {α} {v : α} {Q : α → Nat → Nat → Prop} (hq : ∀ n' m', n ≤ n' → m ≤ m' → Q v n' m') : O.Pair k n m (Pure.pure v) (Pure.pure v) Q :=
  fun h h' hr hn hm => ⟨rfl, hr, .refl _, .refl _, fun _ hv => by cases hv; exact hq _ _ hn hm⟩

theorem throw {α} {e : Err} {Q : α → Nat → Nat → Prop} : O.Pair k n m (M.throw e) (M.throw e) Q :=
  fun h h' hr _ _ => ⟨rfl, hr, .refl _, .refl _, fun _ hv => by cases hv⟩

theorem panic {α} {Q : α → Nat → Nat → Prop} : O.Pair k n m M.panic M.panic Q :=
  fun h h' hr _ _ => ⟨rfl, hr, .refl _, .refl _, fun _ hv => by cases hv⟩

theorem lift {α} {r : Res α} : O.Pair k n m (M.lift r) (M.lift r) (fun v _ _ => r = .ok v) :=
  fun h h' hr _ _ => ⟨rfl, hr, .refl _, .refl _, fun _ hv => hv⟩

theorem withRand {α} {x : M Bytes α} : O.Pair k n m (hgWithRand x) (hgWithRand x) (fun _ _ _ => True) := by
  intro h h' hr _ _
  unfold hgWithRand
  rw [hr.rand]
  exact ⟨rfl, ⟨rfl, hr.sysRand, hr.faults, hr.entry, hr.recs, hr.sts, hr.nr, hr.ns, hr.stored, hr.current, hr.newR, hr.newS⟩,
    ⟨fun _ _ => rfl, fun _ _ => rfl, fun _ _ => rfl, Nat.le_refl _, Nat.le_refl _⟩, ⟨fun _ _ => rfl, fun _ _ => rfl, fun _ _ => rfl, Nat.le_refl _, Nat.le_refl _⟩, fun _ _ => trivial⟩

theorem withSysRand {α} {x : M Bytes α} : O.Pair k n m (hgWithSysRand x) (hgWithSysRand x) (fun _ _ _ => True) := by
  intro h h' hr _ _
  unfold hgWithSysRand
  rw [hr.sysRand]
  exact ⟨rfl, ⟨hr.rand, rfl, hr.faults, hr.entry, hr.recs, hr.sts, hr.nr, hr.ns, hr.stored, hr.current, hr.newR, hr.newS⟩,
    ⟨fun _ _ => rfl, fun _ _ => rfl, fun _ _ => rfl, Nat.le_refl _, Nat.le_refl _⟩, ⟨fun _ _ => rfl, fun _ _ => rfl, fun _ _ => rfl, Nat.le_refl _, Nat.le_refl _⟩, fun _ _ => trivial⟩

theorem readState {p : Nat} (hp : O.st p) : O.Pair k n m (gReadState p) (gReadState p) (fun _ _ _ => True) :=
  fun h h' hr _ _ => ⟨by unfold gReadState; rw [hr.sts p hp], hr, .refl _, .refl _, fun _ _ => trivial⟩

theorem readRecord {r : Nat} (ho : O.rc r) (hlt : r < n) :
    O.Pair k n m (gReadRecord r) (gReadRecord r) (fun s _ m' => s.Within fun p => O.st p ∧ p < m') := by
  intro h h' hr hn hm
  refine ⟨by unfold gReadRecord; rw [hr.recs r ho], hr, .refl _, .refl _, ?_⟩
  rintro _ ⟨⟩
  exact hr.current r ho (Nat.lt_of_lt_of_le hlt hn)

theorem writeState {p : Nat} {c : GCell} (hp : O.st p) : O.Pair k n m (gWriteState p c) (gWriteState p c) (fun _ _ _ => True) := by
  intro h h' hr _ _
  have hk : ∀ l : GHWorld, O.Kept k l { l with states := upd l.states p c } := fun l =>
    ⟨fun _ _ => rfl, fun _ _ => rfl, fun q hq => upd_ne _ _ fun he => hq (he ▸ hp), Nat.le_refl _, Nat.le_refl _⟩
  refine ⟨rfl, ⟨hr.rand, hr.sysRand, hr.faults, hr.entry, hr.recs, fun q hq => ?_, hr.nr, hr.ns, hr.stored, hr.current, hr.newR, hr.newS⟩, hk h, hk h', fun _ _ => trivial⟩
  show upd h'.states p c q = upd h.states p c q
  by_cases he : q = p
  · subst he; rw [upd_same, upd_same]
  · rw [upd_ne _ _ he, upd_ne _ _ he]; exact hr.sts q hq

theorem writeRecord {r : Nat} {s : PtrSlice Nat} (ho : O.rc r) (hs : s.Within fun p => O.st p ∧ p < m) :
    O.Pair k n m (gWriteRecord r s) (gWriteRecord r s) (fun _ _ _ => True) := by
  intro h h' hr _ hm
  have hk : ∀ l : GHWorld, O.Kept k l { l with records := upd l.records r s } := fun l =>
    ⟨fun _ _ => rfl, fun q hq => upd_ne _ _ fun he => hq (he ▸ ho), fun _ _ => rfl, Nat.le_refl _, Nat.le_refl _⟩
  refine ⟨rfl, ⟨hr.rand, hr.sysRand, hr.faults, hr.entry, fun q hq => ?_, hr.sts, hr.nr, hr.ns, hr.stored, fun q hq hlt p hp => ?_, hr.newR, hr.newS⟩, hk h, hk h', fun _ _ => trivial⟩
  · show upd h'.records r s q = upd h.records r s q
    by_cases he : q = r
    · subst he; rw [upd_same, upd_same]
    · rw [upd_ne _ _ he, upd_ne _ _ he]; exact hr.recs q hq
  · change some p ∈ (upd h.records r s q).array at hp
    by_cases he : q = r
    · subst he
      rw [upd_same] at hp
      exact ⟨(hs p hp).1, Nat.lt_of_lt_of_le (hs p hp).2 hm⟩
    · rw [upd_ne _ _ he] at hp
      exact hr.current q hq hlt p hp

theorem allocState {c : GCell} : O.Pair k n m (gAllocState c) (gAllocState c) (fun p _ m' => O.st p ∧ p < m') := by
  intro h h' hr _ _
  have hk : ∀ l : GHWorld, l.nextState = h.nextState → O.Kept k l { l with states := upd l.states l.nextState c, nextState := l.nextState + 1 } := fun l he =>
    ⟨fun _ _ => rfl, fun _ _ => rfl, fun q hq => upd_ne _ _ fun hx => hq (hr.newS q (by omega)), Nat.le_refl _, Nat.le_succ _⟩
  refine ⟨?_, ⟨hr.rand, hr.sysRand, hr.faults, hr.entry, hr.recs, fun q hq => ?_, hr.nr, ?_, hr.stored, fun r hor hlt p hp => ?_, hr.newR, fun p hp => ?_⟩, hk h rfl, hk h' hr.ns, ?_⟩
  · unfold gAllocState; rw [hr.ns]
  · show upd h'.states h'.nextState c q = upd h.states h.nextState c q
    rw [hr.ns]
    by_cases he : q = h.nextState
    · subst he; rw [upd_same, upd_same]
    · rw [upd_ne _ _ he, upd_ne _ _ he]; exact hr.sts q hq
  · show h'.nextState + 1 = h.nextState + 1
    rw [hr.ns]
  · obtain ⟨h1, h2⟩ := hr.current r hor hlt p hp
    exact ⟨h1, Nat.lt_succ_of_lt h2⟩
  · exact hr.newS p (Nat.le_of_succ_le hp)
  · rintro _ ⟨⟩
    exact ⟨hr.newS _ (Nat.le_refl _), Nat.lt_succ_self _⟩

theorem allocRecord {s : PtrSlice Nat} (hs : s.Within fun p => O.st p ∧ p < m) :
    O.Pair k n m (gAllocRecord s) (gAllocRecord s) (fun r n' _ => O.rc r ∧ r < n') := by
  intro h h' hr _ hm
  have hk : ∀ l : GHWorld, l.nextRecord = h.nextRecord → O.Kept k l { l with records := upd l.records l.nextRecord s, nextRecord := l.nextRecord + 1 } := fun l he =>
    ⟨fun _ _ => rfl, fun q hq => upd_ne _ _ fun hx => hq (hr.newR q (by omega)), fun _ _ => rfl, Nat.le_succ _, Nat.le_refl _⟩
  refine ⟨?_, ⟨hr.rand, hr.sysRand, hr.faults, hr.entry, fun q hq => ?_, hr.sts, ?_, hr.ns, fun r hst => ?_, fun r hor hlt p hp => ?_, fun p hp => ?_, hr.newS⟩, hk h rfl, hk h' hr.nr, ?_⟩
  · unfold gAllocRecord; rw [hr.nr]
  · show upd h'.records h'.nextRecord s q = upd h.records h.nextRecord s q
    rw [hr.nr]
    by_cases he : q = h.nextRecord
    · subst he; rw [upd_same, upd_same]
    · rw [upd_ne _ _ he, upd_ne _ _ he]; exact hr.recs q hq
  · show h'.nextRecord + 1 = h.nextRecord + 1
    rw [hr.nr]
  · exact ⟨(hr.stored r hst).1, Nat.lt_succ_of_lt (hr.stored r hst).2⟩
  · change some p ∈ (upd h.records h.nextRecord s r).array at hp
    by_cases he : r = h.nextRecord
    · subst he
      rw [upd_same] at hp
      exact ⟨(hs p hp).1, Nat.lt_of_lt_of_le (hs p hp).2 hm⟩
    · rw [upd_ne _ _ he] at hp
      exact hr.current r hor (Nat.lt_of_le_of_ne (Nat.lt_succ_iff.1 hlt) he) p hp
  · exact hr.newR p (Nat.le_of_succ_le hp)
  · rintro _ ⟨⟩
    exact ⟨hr.newR _ (Nat.le_refl _), Nat.lt_succ_self _⟩

theorem putEntry {r : Nat} (ho : O.rc r) (hlt : r < n) :
    O.Pair k n m (M.modify fun h => { h with store := upd h.store k (some r) }) (M.modify fun h => { h with store := upd h.store k (some r) }) (fun _ _ _ => True) := by
  intro h h' hr hn _
  have hk : ∀ l : GHWorld, O.Kept k l { l with store := upd l.store k (some r) } := fun l =>
    ⟨fun b hb => upd_ne _ _ hb, fun _ _ => rfl, fun _ _ => rfl, Nat.le_refl _, Nat.le_refl _⟩
  refine ⟨rfl, ⟨hr.rand, hr.sysRand, hr.faults, ?_, hr.recs, hr.sts, hr.nr, hr.ns, fun q hq => ?_, hr.current, hr.newR, hr.newS⟩, hk h, hk h', fun _ _ => trivial⟩
  · show upd h'.store k (some r) k = upd h.store k (some r) k
    rw [upd_same, upd_same]
  · change upd h.store k (some r) k = some q at hq
    rw [upd_same] at hq
    cases hq
    exact ⟨ho, Nat.lt_of_lt_of_le hlt hn⟩

theorem storeCall {α} {x y : M GHWorld α} {Q : α → Nat → Nat → Prop} (hx : O.Pair k n m x y Q) : O.Pair k n m (hgStoreCall x) (hgStoreCall y) Q := by
  intro h h' hr hn hm
  unfold hgStoreCall
  rw [hr.faults]
  cases hf : h.faults with
  | nil => exact hx h h' hr hn hm
  | cons f fs =>
    have hr1 := hr.setFaults fs
    obtain ⟨e, r1, k1, k2, q⟩ := hx _ _ hr1 hn hm
    cases f with
    | none => exact ⟨e, r1, .setFaults _ k1, .setFaults _ k2, q⟩
    | before => exact ⟨rfl, hr1, .setFaults fs (.refl _), .setFaults fs (.refl _), fun _ hv => by cases hv⟩
    | after => exact ⟨rfl, r1, .setFaults _ k1, .setFaults _ k2, fun _ hv => by cases hv⟩

/-! ## The functions of the library -/

theorem newRecord : O.Pair k n m gNewRecord gNewRecord (fun r n' _ => O.rc r ∧ r < n') := allocRecord fun x hx => by
  have := List.eq_of_mem_replicate hx
  cases this

theorem copyStates (l : List Nat) : ∀ n m, (∀ p ∈ l, O.st p) → O.Pair k n m (gCopyStates l) (gCopyStates l) (fun ps _ m' => ∀ p ∈ ps, O.st p ∧ p < m') := by
  induction l with
  | nil => exact fun n m _ => pure fun _ _ _ _ p hp => by cases hp
  | cons p ps ih =>
    intro n m hps
    refine (readState (hps p (List.mem_cons_self ..))).bind fun c n1 m1 _ _ _ => allocState.bind fun q n2 m2 _ _ hq =>
      (ih n2 m2 fun x hx => hps x (List.mem_cons_of_mem _ hx)).bind fun qs n3 m3 _ h3 hqs => pure fun n4 m4 _ h4 x hx => ?_
    rcases List.mem_cons.1 hx with rfl | hx
    · exact ⟨hq.1, by omega⟩
    · exact ⟨(hqs x hx).1, Nat.lt_of_lt_of_le (hqs x hx).2 h4⟩

theorem copyRecord {r : Nat} (ho : O.rc r) (hlt : r < n) : O.Pair k n m (gCopyRecord r) (gCopyRecord r) (fun q n' _ => O.rc q ∧ q < n') := by
  refine (readRecord ho hlt).bind fun s n1 m1 _ _ hs => (copyStates s.live n1 m1 fun p hp => (hs.live hp).1).bind fun qs n2 m2 _ _ hqs => allocRecord fun x hx => ?_
  obtain ⟨y, hy, he⟩ := List.mem_map.1 hx
  cases he
  exact hqs _ hy

theorem load (E : GHEnv) : O.Pair k n m (hgLoad E k) (hgLoad E k) (fun v n' _ => ∀ r, v = some r → O.rc r ∧ r < n') := by
  refine storeCall ?_
  intro h h' hr hn hm
  rw [M.bind_ok_run (M.get_run _), M.bind_ok_run (M.get_run _)]
  simp only [hr.entry]
  cases hs : h.store k with
  | none => exact ⟨rfl, hr, .refl _, .refl _, fun v hv r hvr => by cases hv; cases hvr⟩
  | some r =>
    obtain ⟨ho, hlt⟩ := hr.stored r hs
    by_cases ha : E.aliased = true
    · simp only [ha, if_true]
      exact ⟨rfl, hr, .refl _, .refl _, fun v hv q hq => by cases hv; cases hq; exact ⟨ho, hlt⟩⟩
    · simp only [ha]
      exact ((copyRecord (m := m) ho hlt).bind (n := h.nextRecord) (R := fun v n' _ => ∀ r, v = some r → O.rc r ∧ r < n') fun q n' m' _ _ hq =>
        pure fun n2 _ h2 _ x hx => by cases hx; exact ⟨hq.1, Nat.lt_of_lt_of_le hq.2 h2⟩) h h' hr (Nat.le_refl _) hm

theorem store (E : GHEnv) {r : Nat} (ho : O.rc r) (hlt : r < n) : O.Pair k n m (hgStore E k r) (hgStore E k r) (fun _ _ _ => True) := by
  refine storeCall ?_
  dsimp only
  split
  · exact (copyRecord ho hlt).bind fun q n' m' _ _ hq => putEntry hq.1 hq.2
  · exact putEntry ho hlt

theorem search {test : GCell → Bool} : ∀ (l : List (Option Nat)) (i n m : Nat), (∀ p, some p ∈ l → O.st p ∧ p < m) →
    O.Pair k n m (gSearch test i l) (gSearch test i l) (fun v _ m' => ∀ x, v = some x → O.st x.2 ∧ x.2 < m') := by
  intro l
  induction l with
  | nil => exact fun i n m _ => pure fun _ _ _ _ x hx => by cases hx
  | cons o l ih =>
    intro i n m hl
    cases o with
    | none => exact panic
    | some p =>
      have hp := hl p (List.mem_cons_self ..)
      refine (readState hp.1).bind fun c n1 m1 _ h1 _ => ?_
      split
      · exact pure fun _ m2 _ h2 x hx => by cases hx; exact ⟨hp.1, by omega⟩
      · exact ih _ n1 m1 fun q hq => ⟨(hl q (List.mem_cons_of_mem _ hq)).1, Nat.lt_of_lt_of_le (hl q (List.mem_cons_of_mem _ hq)).2 h1⟩

theorem state {r : Nat} (ho : O.rc r) (hlt : r < n) : O.Pair k n m (hgState r) (hgState r) (fun v _ m' => ∀ p, v = some p → O.st p ∧ p < m') := by
  refine (readRecord ho hlt).bind fun s n1 m1 _ _ hs => ?_
  have hi : ∀ p, some p ∈ s.items → O.st p ∧ p < m1 := fun p hp => hs.items hp
  generalize s.items = l at hi
  cases l with
  | nil => exact throw
  | cons o l =>
    refine pure fun _ m2 _ h2 p hp => ?_
    subst hp
    exact ⟨(hi p (List.mem_cons_self ..)).1, Nat.lt_of_lt_of_le (hi p (List.mem_cons_self ..)).2 h2⟩

theorem stateForChainID {r : Nat} {id : UInt32} (ho : O.rc r) (hlt : r < n) :
    O.Pair k n m (hgStateForChainID r id) (hgStateForChainID r id) (fun v _ m' => ∀ p, v = some p → O.st p ∧ p < m') := by
  refine (readRecord ho hlt).bind fun s n1 m1 _ _ hs => (search _ _ n1 m1 fun p hp => hs.items hp).bind fun v n2 m2 _ _ hv => pure fun _ m3 _ h3 p hp => ?_
  cases v with
  | none => cases hp
  | some x => cases hp; exact ⟨(hv x rfl).1, Nat.lt_of_lt_of_le (hv x rfl).2 h3⟩

theorem removeState {grow : Nat → Nat} {r : Nat} {id : UInt32} {key : PubKey} (ho : O.rc r) (hlt : r < n) :
    O.Pair k n m (hgRemoveState grow r id key) (hgRemoveState grow r id key) (fun v _ m' => ∀ p, v = some p → O.st p ∧ p < m') := by
  refine (readRecord ho hlt).bind fun s n1 m1 _ _ hs => (search _ _ n1 m1 fun p hp => hs.items hp).bind fun v n2 m2 _ h2 hv => ?_
  cases v with
  | none => exact pure fun _ _ _ _ p hp => by cases hp
  | some x =>
    obtain ⟨idx, q⟩ := x
    refine lift.bind fun s' n3 m3 _ h3 hs' => (writeRecord ho fun p hp => ?_).bind fun _ n4 m4 _ h4 _ => pure fun _ m5 _ h5 p hp => ?_
    · have := hs.cut hs' p hp
      exact ⟨this.1, by omega⟩
    · cases hp
      have := hv _ rfl
      exact ⟨this.1, by have := this.2; simp only at this; omega⟩

theorem filterLoop {grow : Nat → Nat} {id : UInt32} : ∀ (j i : Nat) (s : PtrSlice Nat) (n m : Nat), (s.Within fun p => O.st p ∧ p < m) →
    O.Pair k n m (gFilterLoop grow id j i s) (gFilterLoop grow id j i s) (fun t _ m' => t.Within fun p => O.st p ∧ p < m') := by
  intro j
  induction j with
  | zero => exact fun i s n m hs => pure fun _ m' _ h2 p hp => ⟨(hs p hp).1, Nat.lt_of_lt_of_le (hs p hp).2 h2⟩
  | succ j ih =>
    intro i s n m hs
    unfold gFilterLoop
    cases hq : s.array[s.off + i]?.join with
    | none => exact panic
    | some p =>
      have hp : O.st p ∧ p < m := by
        refine hs p ?_
        cases hx : s.array[s.off + i]? with
        | none => rw [hx] at hq; cases hq
        | some o => rw [hx] at hq; cases hq; exact List.mem_of_getElem? hx
      refine (readState hp.1).bind fun c n1 m1 _ h1 _ => ?_
      have hs1 : s.Within fun p => O.st p ∧ p < m1 := fun q hq => ⟨(hs q hq).1, Nat.lt_of_lt_of_le (hs q hq).2 h1⟩
      split
      · exact ih _ s n1 m1 hs1
      · exact ih _ _ n1 m1 (hs1.append grow fun x hx => by
          rw [List.mem_singleton] at hx; cases hx; exact ⟨hp.1, Nat.lt_of_lt_of_le hp.2 h1⟩)

theorem removeStates {grow : Nat → Nat} {r : Nat} {id : UInt32} (ho : O.rc r) (hlt : r < n) :
    O.Pair k n m (hgRemoveStates grow r id) (hgRemoveStates grow r id) (fun _ _ _ => True) :=
  (readRecord ho hlt).bind fun s n1 m1 _ _ hs => (filterLoop s.len 0 { s with len := 0 } n1 m1 hs).bind fun _ _ _ _ _ ht => writeRecord ho ht

theorem addState {grow : Nat → Nat} {r p : Nat} (ho : O.rc r) (hlt : r < n) (hp : O.st p) (hpm : p < m) :
    O.Pair k n m (hgAddState grow r p) (hgAddState grow r p) (fun _ _ _ => True) := by
  refine (readState hp).bind fun c n1 m1 _ h1 _ => lift.bind fun key n2 m2 _ h2 _ => (removeState ho (by omega)).bind fun ex n3 m3 _ h3 hex =>
    (removeStates ho (by omega)).bind fun _ n4 m4 _ h4 _ => (readRecord ho (by omega)).bind fun s n5 m5 _ h5 hs => lift.bind fun s' n6 m6 _ h6 hs' => writeRecord ho ?_
  have hw : s'.Within fun p => O.st p ∧ p < m6 := by
    have : s'.Within fun p => O.st p ∧ p < m5 := by
      split at hs'
      · obtain ⟨t, ht, ht'⟩ := Res.bind_eq_ok.1 hs'
        exact (hs.setNil ht).tail ht'
      · cases hs'; exact hs
    exact fun q hq => ⟨(this q hq).1, Nat.lt_of_lt_of_le (this q hq).2 h6⟩
  refine hw.append grow fun x hx => ?_
  rw [List.mem_singleton] at hx
  cases hx
  cases ex with
  | none => exact ⟨hp, by simp only [Option.getD_none]; omega⟩
  | some q =>
    have := hex q rfl
    exact ⟨this.1, by simp only [Option.getD_some]; omega⟩

theorem deref {o : Option Nat} (ho : ∀ p, o = some p → O.st p ∧ p < m) : O.Pair k n m (gDeref o) (gDeref o) (fun v _ m' => O.st v.1 ∧ v.1 < m') := by
  cases o with
  | none => exact panic
  | some p => exact (readState (ho p rfl).1).bind fun c n1 m1 _ h1 _ => pure fun _ m2 _ h2 => ⟨(ho p rfl).1, by have := (ho p rfl).2; simp only; omega⟩

theorem stateDeref {r : Nat} (ho : O.rc r) (hlt : r < n) : O.Pair k n m (hgState r >>= gDeref) (hgState r >>= gDeref) (fun v _ m' => O.st v.1 ∧ v.1 < m') :=
  (state ho hlt).bind fun _ _ _ _ _ hv => deref hv

theorem encrypt (E : GHEnv) {pt : Bytes} : O.Pair k n m (hgEncrypt E k.1 k.2 pt) (hgEncrypt E k.1 k.2 pt) (fun _ _ _ => True) := by
  refine (load E).bind fun v n1 m1 _ _ hv => ?_
  cases v with
  | none => exact throw
  | some r =>
    obtain ⟨ho, hlt⟩ := hv r rfl
    refine (stateDeref ho hlt).bind fun x n2 m2 _ _ hx => ?_
    obtain ⟨p, state⟩ := x
    exact lift.bind fun ct n3 m3 _ _ _ => lift.bind fun key n4 m4 _ _ _ => withRand.bind fun msg n5 m5 _ _ _ => (writeState hx.1).bind fun _ n6 m6 _ _ _ =>
      (store E ho (by omega)).bind fun _ _ _ _ _ _ => pure fun _ _ _ _ => trivial

theorem decrypt (E : GHEnv) {a : Address} {msg : SenderKeyMsg} (hk : k = (a, msg.distID)) : O.Pair k n m (hgDecrypt E a msg) (hgDecrypt E a msg) (fun _ _ _ => True) := by
  subst hk
  refine (load E).bind fun v n1 m1 _ _ hv => ?_
  cases v with
  | none => exact throw
  | some r =>
    obtain ⟨ho, hlt⟩ := hv r rfl
    refine (stateForChainID ho hlt).bind fun v n2 m2 _ _ hx => ?_
    cases v with
    | none => exact throw
    | some p =>
      have hp := (hx p rfl).1
      refine (readState hp).bind fun st n3 m3 _ _ _ => ?_
      dsimp only
      split
      · exact throw
      · refine lift.bind fun key n4 m4 _ _ _ => lift.bind fun valid n5 m5 _ _ _ => ?_
        cases valid
        · exact throw
        · refine lift.bind fun x n6 m6 _ _ _ => ?_
          obtain ⟨mk, st'⟩ := x
          exact (writeState hp).bind fun _ n7 m7 _ _ _ => lift.bind fun pt n8 m8 _ _ _ => (store E ho (by omega)).bind fun _ _ _ _ _ _ => pure fun _ _ _ _ => trivial

theorem processDistribution (E : GHEnv) {a : Address} {msg : DistributionMsg} (hk : k = (a, msg.distID)) :
    O.Pair k n m (hgProcessDistribution E a msg) (hgProcessDistribution E a msg) (fun _ _ _ => True) := by
  subst hk
  have tail : ∀ r n' m', O.rc r → r < n' → O.Pair (a, msg.distID) n' m'
      (do let p ← gAllocState (newGCell msg.version msg.chainID msg.iteration msg.chainKey msg.signingKey none)
          hgAddState E.grow r p
          hgStore E (a, msg.distID) r)
      (do let p ← gAllocState (newGCell msg.version msg.chainID msg.iteration msg.chainKey msg.signingKey none)
          hgAddState E.grow r p
          hgStore E (a, msg.distID) r) (fun _ _ _ => True) := fun r n' m' ho hlt =>
    allocState.bind fun p n1 m1 _ _ hp => (addState ho (by omega) hp.1 hp.2).bind fun _ n2 m2 _ _ _ => store E ho (by omega)
  refine (load E).bind fun v n1 m1 _ _ hv => ?_
  cases v with
  | none => exact newRecord.bind fun r n2 m2 _ _ hr => tail r n2 m2 hr.1 hr.2
  | some r => exact tail r n1 m1 (hv r rfl).1 (hv r rfl).2

theorem createSenderKey (E : GHEnv) : O.Pair k n m (hgCreateSenderKey E k.1 k.2) (hgCreateSenderKey E k.1 k.2) (fun r n' _ => O.rc r ∧ r < n') :=
  withSysRand.bind fun _ _ _ _ _ _ => withRand.bind fun _ _ _ _ _ _ => withRand.bind fun _ _ _ _ _ _ => newRecord.bind fun r n1 m1 _ _ hr =>
    allocState.bind fun p n2 m2 _ _ hp => (addState hr.1 (by omega) hp.1 hp.2).bind fun _ n3 m3 _ _ _ => (store E hr.1 (by omega)).bind fun _ n4 m4 _ _ _ =>
      pure fun n5 _ h5 _ => ⟨hr.1, by omega⟩

theorem newSenderKeyDistribution (E : GHEnv) : O.Pair k n m (hgNewSenderKeyDistribution E k.1 k.2) (hgNewSenderKeyDistribution E k.1 k.2) (fun _ _ _ => True) := by
  have tail : ∀ r n' m', O.rc r → r < n' → O.Pair k n' m'
      (do let (_, state) ← hgState r >>= gDeref
          let signingKey ← M.lift state.publicSigningKey
          return newDistribution state.version.toUInt8 k.2 state.chainId state.chainKey.iteration state.chainKey.seed signingKey)
      (do let (_, state) ← hgState r >>= gDeref
          let signingKey ← M.lift state.publicSigningKey
          return newDistribution state.version.toUInt8 k.2 state.chainId state.chainKey.iteration state.chainKey.seed signingKey) (fun _ _ _ => True) := fun r n' m' ho hlt =>
    (stateDeref ho hlt).bind fun x _ _ _ _ _ => lift.bind fun _ _ _ _ _ _ => pure fun _ _ _ _ => trivial
  refine (load E).bind fun v n1 m1 _ _ hv => ?_
  cases v with
  | none => exact (createSenderKey E).bind fun r n2 m2 _ _ hr => tail r n2 m2 hr.1 hr.2
  | some r => exact tail r n1 m1 (hv r rfl).1 (hv r rfl).2

end Pair

/-- Two runs of one call about the sender key. -/
theorem call (E : GHEnv) (c : GCall) (hc : c.op.key = k) {h h' : GHWorld} (hr : O.Rel k h h') :
    (c.heapRun E h').1 = (c.heapRun E h).1 ∧ O.Rel k (c.heapRun E h).2 (c.heapRun E h').2 ∧ O.Kept k h (c.heapRun E h).2 ∧ O.Kept k h' (c.heapRun E h').2 := by
  have hr1 := hr.setRest c.rand c.sysRand c.faults
  have key : ∀ {α} {x : M GHWorld α} (f : α → GOut), O.Pair k 0 0 x x (fun _ _ _ => True) →
      GOut.of f (x { h' with rand := c.rand, sysRand := c.sysRand, faults := c.faults }).1 = GOut.of f (x { h with rand := c.rand, sysRand := c.sysRand, faults := c.faults }).1 ∧
      O.Rel k (x { h with rand := c.rand, sysRand := c.sysRand, faults := c.faults }).2 (x { h' with rand := c.rand, sysRand := c.sysRand, faults := c.faults }).2 ∧
      O.Kept k h (x { h with rand := c.rand, sysRand := c.sysRand, faults := c.faults }).2 ∧
      O.Kept k h' (x { h' with rand := c.rand, sysRand := c.sysRand, faults := c.faults }).2 := by
    intro α x f hp
    obtain ⟨e, r1, k1, k2, -⟩ := hp _ _ hr1 (Nat.zero_le _) (Nat.zero_le _)
    exact ⟨by rw [e], r1, .setRest _ _ _ k1, .setRest _ _ _ k2⟩
  obtain ⟨op, rand, sysRand, faults⟩ := c
  unfold GCall.heapRun
  cases op with
  | encrypt a d pt => subst hc; exact key _ (Pair.encrypt E)
  | decrypt a msg => exact key _ (Pair.decrypt E hc.symm)
  | process a msg => exact key _ (Pair.processDistribution E hc.symm)
  | distribute a d => subst hc; exact key _ (Pair.newSenderKeyDistribution E)

end GKeyOwn

end Verif
