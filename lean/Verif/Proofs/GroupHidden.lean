import Verif.Proofs.GroupHeapHistory

/-!
What the arrays of message keys still point to.
-/

namespace Verif

/-- Outside the window every slot is nil. -/
def PtrSlice.Clean {α : Type} (s : PtrSlice α) : Prop := ∃ pre l post, s.Lays pre l post ∧ AllNil pre ∧ AllNil post

theorem PtrSlice.Clean.nothingHidden {α : Type} {s : PtrSlice α} (h : s.Clean) : s.NothingHidden := by
  obtain ⟨pre, l, post, hl, h1, h2⟩ := h
  intro x hx
  rw [hl.shows.live]
  rw [hl.array, List.mem_append, List.mem_append] at hx
  rcases hx with hx | hx | hx
  · cases h1 _ hx
  · simpa using hx
  · cases h2 _ hx

theorem PtrSlice.Clean.fresh {α : Type} (l : List α) : (⟨l.map some, 0, l.length⟩ : PtrSlice α).Clean :=
  ⟨[], l, [], ⟨by simp, rfl, rfl⟩, (fun x hx => by cases hx), fun x hx => by cases hx⟩

theorem PtrSlice.Clean.append {α : Type} {s : PtrSlice α} (h : s.Clean) (grow : Nat → Nat) (x : α) : (s.append grow [some x]).Clean := by
  obtain ⟨pre, l, post, hl, h1, h2⟩ := h
  cases post with
  | nil => exact ⟨_, _, _, hl.append_new grow x, (fun x hx => by cases hx), fun y hy => (List.mem_replicate.mp hy).2⟩
  | cons y post => exact ⟨_, _, _, hl.append_in grow x, h1, fun z hz => h2 z (List.mem_cons_of_mem _ hz)⟩

theorem PtrSlice.Clean.dropFirst {α : Type} {s s1 s2 : PtrSlice α} (h : s.Clean) (e1 : s.setNil 0 = .ok s1) (e2 : s1.tail = .ok s2) : s2.Clean := by
  obtain ⟨pre, l, post, hl, h1, h2⟩ := h
  cases l with
  | nil =>
    unfold PtrSlice.setNil at e1
    rw [if_neg (by rw [hl.len]; simp)] at e1
    cases e1
  | cons x l =>
    obtain ⟨s', e3, e4⟩ := hl.dropFirst
    have e3 : s.setNil 0 >>= PtrSlice.tail = .ok s' := e3
    rw [e1] at e3
    have e3 : s1.tail = .ok s' := e3
    rw [e2] at e3
    cases e3
    refine ⟨_, _, _, e4, ?_, h2⟩
    intro y hy
    rcases List.mem_append.mp hy with hy | hy
    · exact h1 y hy
    · simpa using hy

theorem PtrSlice.Clean.nilCut {α : Type} {s s1 s2 : PtrSlice α} (h : s.Clean) {grow : Nat → Nat} {i : Nat} (e1 : s.setNil i = .ok s1) (e2 : s1.cut grow i = .ok s2) :
    s2.NothingHidden ∧ (i + 1 = s.live.length → s2.Clean) := by
  obtain ⟨pre, l, post, hl, h1, h2⟩ := h
  rw [hl.shows.live]
  unfold PtrSlice.setNil at e1
  split at e1
  · next hi =>
    rw [hl.len] at hi
    cases e1
    have hli : l = l.take i ++ l[i] :: l.drop (i + 1) := by rw [List.getElem_cons_drop, List.take_append_drop]
    have hti : (l.take i).length = i := by rw [List.length_take]; omega
    have harr : s.array.set (s.off + i) none = pre ++ ((l.take i).map some ++ none :: ((l.drop (i + 1)).map some ++ post)) := by
      have h3 : s.array = pre ++ ((l.take i).map some ++ some l[i] :: ((l.drop (i + 1)).map some ++ post)) := by
        rw [hl.array]
        congr 1
        rw [← List.cons_append, ← List.map_cons, ← List.append_assoc, ← List.map_append, ← hli]
      rw [h3, hl.off, List.set_append_right _ _ (by omega)]
      congr 1
      have : pre.length + i - pre.length = ((l.take i).map some).length := by rw [List.length_map, hti]; omega
      rw [this, List.set_append_right _ _ (Nat.le_refl _)]
      simp
    obtain ⟨s', f1, f2⟩ := PtrSlice.cut_lays (s := { s with array := s.array.set (s.off + i) none }) none grow harr hl.off (by rw [hl.len, hti, List.length_drop]; omega)
    rw [hti, e2] at f1
    cases f1
    refine ⟨?_, ?_⟩
    · intro x hx
      rw [f2.shows.live]
      rw [f2.array, List.mem_append, List.mem_append, List.mem_cons] at hx
      rcases hx with hx | hx | hx | hx
      · cases h1 _ hx
      · rw [List.mem_map] at hx
        obtain ⟨y, hy, he⟩ := hx
        cases he
        exact hy
      · split at hx
        · cases hx
        · next y hy =>
          cases hx
          exact List.mem_append_right _ (List.mem_of_getLast? hy)
      · cases h2 _ hx
    · intro hlast
      have hd : l.drop (i + 1) = [] := List.drop_eq_nil_iff.mpr (by omega)
      rw [hd] at f2
      refine ⟨_, _, _, f2, h1, ?_⟩
      intro x hx
      rcases List.mem_cons.mp hx with hx | hx
      · exact hx
      · exact h2 x hx
  · cases e1

/-! ## States -/

theorem GCell.addMessageKey_clean {grow : Nat → Nat} {c c' : GCell} {k : SKMessageKey} (h : c.keys.Clean) (e : c.addMessageKey grow k = .ok c') : c'.keys.Clean := by
  have h1 := h.append grow ({ seed := k.seed, iteration := k.iteration } : SKChainKey)
  unfold GCell.addMessageKey at e
  simp only at e
  split at e
  · rw [Res.bind_eq_ok] at e
    obtain ⟨s1, e1, e⟩ := e
    rw [Res.bind_eq_ok] at e
    obtain ⟨s2, e2, e⟩ := e
    cases e
    exact h1.dropFirst e1 e2
  · cases e
    exact h1

theorem GCell.skipLoop_clean (C : Crypto) {grow : Nat → Nat} {n : UInt32} : ∀ {fuel : Nat} {ck ck' : SKChainKey} {c c' : GCell}, c.keys.Clean → GCell.skipLoop C grow n fuel ck c = .ok (ck', c') →
    c'.keys.Clean := by
  intro fuel
  induction fuel with
  | zero => intro ck ck' c c' h e; cases e; exact h
  | succ m ih =>
    intro ck ck' c c' h e
    unfold GCell.skipLoop at e
    split at e
    · rw [Res.bind_eq_ok] at e
      obtain ⟨c1, e1, e⟩ := e
      exact ih (GCell.addMessageKey_clean h e1) e
    · cases e; exact h

theorem GCell.messageKey_clean {C : Crypto} {grow : Nat → Nat} {n : UInt32} {c c' : GCell} {k : SKMessageKey} (h : c.keys.Clean) (e : c.messageKey C grow n = .ok (k, c')) :
    c'.keys.NothingHidden ∧ ((∀ before k after, c.value.messageKeys = before ++ k :: after → k.iteration = n → after = []) → c'.keys.Clean) := by
  unfold GCell.messageKey at e
  split at e
  · rw [Res.bind_eq_ok] at e
    obtain ⟨o, e1, e⟩ := e
    cases o with
    | none => cases e
    | some out =>
      cases e
      unfold GCell.removeMessageKeys at e1
      split at e1
      · cases e1
      · next idx hidx =>
        simp only at e1
        rw [Res.bind_eq_ok] at e1
        obtain ⟨s1, f1, e1⟩ := e1
        rw [Res.bind_eq_ok] at e1
        obtain ⟨s2, f2, e1⟩ := e1
        cases e1
        have := h.nilCut f1 f2
        refine ⟨this.1, fun hlast => this.2 ?_⟩
        obtain ⟨pre, l, post, hl, h1, h2⟩ := h
        have hlive := hl.shows.live
        rw [hl.items, List.findIdx?_map, List.findIdx?_eq_some_iff_getElem] at hidx
        obtain ⟨hlt, hp, _⟩ := hidx
        rw [hlive]
        have hv : c.value.messageKeys = l.take idx ++ l[idx] :: l.drop (idx + 1) := by
          rw [List.getElem_cons_drop, List.take_append_drop]
          exact hlive
        have := hlast _ _ _ hv (of_decide_eq_true hp)
        rw [List.drop_eq_nil_iff] at this
        omega
  · split at e
    · cases e
    · rw [Res.bind_eq_ok] at e
      obtain ⟨⟨ck, c1⟩, e1, e⟩ := e
      cases e
      have := GCell.skipLoop_clean C h e1
      exact ⟨this.nothingHidden, fun _ => this⟩

/-! ## The whole heap -/

section
variable (J : PtrSlice SKChainKey → Prop)

/-- All states. -/
def GHWorld.AllKeys (h : GHWorld) : Prop := ∀ p, J (h.states p).keys

/-- `x` keeps `J`, and its result has `Q`. -/
def Keeps {α} (h : GHWorld) (x : M GHWorld α) (Q : α → GHWorld → Prop) : Prop := (x h).2.AllKeys J ∧ ∀ v, (x h).1 = .ok v → Q v (x h).2

variable {J}

theorem Keeps.bind {α β} {h : GHWorld} {x : M GHWorld α} {f : α → M GHWorld β} {Q : α → GHWorld → Prop} {R : β → GHWorld → Prop} (hx : Keeps J h x Q)
    (hf : ∀ v h', h'.AllKeys J → Q v h' → Keeps J h' (f v) R) : Keeps J h (x >>= f) R := by
  obtain ⟨h1, h2⟩ := hx
  cases hr : x h with
  | mk r h' =>
    rw [hr] at h1 h2
    cases r with
    | ok v =>
      have := hf v h' h1 (h2 v rfl)
      unfold Keeps
      rw [M.bind_ok_run hr]
      exact this
    | err e =>
      unfold Keeps
      rw [M.bind_err_run hr]
      exact ⟨h1, fun v hv => by cases hv⟩
    | panic =>
      unfold Keeps
      rw [M.bind_panic_run hr]
      exact ⟨h1, fun v hv => by cases hv⟩

theorem Keeps.pure {α} {h : GHWorld} {v : α} {Q : α → GHWorld → Prop} (hj : h.AllKeys J) (hq : Q v h) : Keeps J h (Pure.pure v) Q :=
  ⟨hj, fun u hu => by cases hu; exact hq⟩

theorem Keeps.throw {α} {h : GHWorld} {e : Err} {Q : α → GHWorld → Prop} (hj : h.AllKeys J) : Keeps J h (M.throw e) Q := ⟨hj, fun u hu => by cases hu⟩

theorem Keeps.panic {α} {h : GHWorld} {Q : α → GHWorld → Prop} (hj : h.AllKeys J) : Keeps J h M.panic Q := ⟨hj, fun u hu => by cases hu⟩

theorem Keeps.lift {α} {h : GHWorld} {r : Res α} (hj : h.AllKeys J) : Keeps J h (M.lift r) (fun v h' => r = .ok v ∧ h' = h) :=
  ⟨hj, fun _ hu => ⟨hu, rfl⟩⟩

theorem Keeps.mono {α} {h : GHWorld} {x : M GHWorld α} {Q R : α → GHWorld → Prop} (hx : Keeps J h x Q) (hi : ∀ v h', Q v h' → R v h') : Keeps J h x R :=
  ⟨hx.1, fun v hv => hi _ _ (hx.2 v hv)⟩

theorem Keeps.alloc {h : GHWorld} {c : GCell} (hj : h.AllKeys J) (hc : J c.keys) : Keeps J h (gAllocState c) (fun p h' => p = h.nextState ∧ (h'.states p).keys = c.keys) := by
  refine ⟨fun p => ?_, fun v hv => ?_⟩
  · by_cases hp : p = h.nextState
    · subst hp; simpa [gAllocState] using hc
    · simp only [gAllocState, upd_ne _ _ hp]; exact hj p
  · cases hv
    exact ⟨rfl, by simp [gAllocState]⟩

theorem Keeps.write {h : GHWorld} {p : Nat} {c : GCell} (hj : h.AllKeys J) (hc : J c.keys) : Keeps J h (gWriteState p c) (fun _ _ => True) := by
  refine ⟨fun q => ?_, fun v hv => trivial⟩
  by_cases hp : q = p
  · subst hp; simpa [gWriteState] using hc
  · simp only [gWriteState, upd_ne _ _ hp]; exact hj q

theorem Keeps.writeRecord {h : GHWorld} {r : Nat} {s : PtrSlice Nat} (hj : h.AllKeys J) : Keeps J h (gWriteRecord r s) (fun _ _ => True) := ⟨hj, fun _ _ => trivial⟩

theorem Keeps.readState {h : GHWorld} {p : Nat} (hj : h.AllKeys J) : Keeps J h (gReadState p) (fun c h' => h' = h ∧ c = h.states p) :=
  ⟨hj, fun _ hv => by cases hv; exact ⟨rfl, rfl⟩⟩

theorem Keeps.readRecord {h : GHWorld} {r : Nat} (hj : h.AllKeys J) : Keeps J h (gReadRecord r) (fun s h' => h' = h ∧ s = h.records r) :=
  ⟨hj, fun _ hv => by cases hv; exact ⟨rfl, rfl⟩⟩

theorem Keeps.rand {α} {h : GHWorld} {z : M Bytes α} (hj : h.AllKeys J) : Keeps J h (hgWithRand z) (fun _ h' => h'.states = h.states) := ⟨hj, fun _ _ => rfl⟩

theorem Keeps.sysRand {α} {h : GHWorld} {z : M Bytes α} (hj : h.AllKeys J) : Keeps J h (hgWithSysRand z) (fun _ h' => h'.states = h.states) := ⟨hj, fun _ _ => rfl⟩

theorem Keeps.storeCall {α} {h : GHWorld} {x : M GHWorld α} {Q : α → GHWorld → Prop} (hj : h.AllKeys J) (hx : ∀ fs, Keeps J { h with faults := fs } x Q) : Keeps J h (hgStoreCall x) Q := by
  unfold Keeps hgStoreCall
  split
  · have := hx h.faults
    exact this
  · next fs _ => exact hx fs
  · exact ⟨hj, fun _ hv => by cases hv⟩
  · next fs _ => exact ⟨(hx fs).1, fun _ hv => by cases hv⟩

/-- The search finds a state of the list that passes the test, and changes nothing. -/
theorem gSearch_keeps (test : GCell → Bool) {h : GHWorld} (hj : h.AllKeys J) : ∀ (l : List (Option Nat)) (i : Nat),
    Keeps J h (gSearch test i l) (fun o h' => h' = h ∧ ∀ q ∈ o, some q.2 ∈ l ∧ test (h.states q.2) = true) := by
  intro l
  induction l with
  | nil => exact fun i => .pure hj ⟨rfl, fun q hq => by cases hq⟩
  | cons x l ih =>
    intro i
    cases x with
    | none => exact .panic hj
    | some p =>
      unfold gSearch
      refine .bind (.readState hj) fun c h' hj' hq => ?_
      obtain ⟨rfl, rfl⟩ := hq
      split
      · next ht => exact .pure hj ⟨rfl, fun q hq => by cases hq; exact ⟨List.mem_cons_self, ht⟩⟩
      · exact (ih (i + 1)).mono fun o h'' ho => ⟨ho.1, fun q hq => ⟨List.mem_cons_of_mem _ (ho.2 q hq).1, (ho.2 q hq).2⟩⟩

theorem gFilterLoop_keeps (grow : Nat → Nat) (cid : UInt32) : ∀ (n i : Nat) (f : PtrSlice Nat) {h : GHWorld}, h.AllKeys J → Keeps J h (gFilterLoop grow cid n i f) (fun _ _ => True) := by
  intro n
  induction n with
  | zero => exact fun _ _ _ hj => .pure hj trivial
  | succ n ih =>
    intro i f h hj
    unfold gFilterLoop
    split
    · exact .panic hj
    · refine .bind (.readState hj) fun c h' hj' _ => ?_
      split
      · exact ih _ _ hj'
      · exact ih _ _ hj'

theorem hgAddState_keeps (grow : Nat → Nat) (r p : Nat) {h : GHWorld} (hj : h.AllKeys J) : Keeps J h (hgAddState grow r p) (fun _ _ => True) := by
  unfold hgAddState
  refine .bind (.readState hj) fun c h1 hj1 _ => .bind (.lift hj1) fun key h2 hj2 _ => .bind (Q := fun _ _ => True) ?_ fun o h3 hj3 _ => .bind (Q := fun _ _ => True) ?_ fun _ h4 hj4 _ =>
    .bind (.readRecord hj4) fun s h5 hj5 _ => .bind (.lift hj5) fun s h6 hj6 _ => .writeRecord hj6
  · unfold hgRemoveState
    refine .bind (.readRecord hj2) fun s h3 hj3 _ => .bind (gSearch_keeps _ hj3 _ _) fun o h4 hj4 _ => ?_
    cases o with
    | none => exact .pure hj4 trivial
    | some q => exact .bind (.lift hj4) fun s h5 hj5 _ => .bind (.writeRecord hj5) fun _ h6 hj6 _ => .pure hj6 trivial
  · unfold hgRemoveStates
    exact .bind (.readRecord hj3) fun s h4 hj4 _ => .bind (gFilterLoop_keeps _ _ _ _ _ hj4) fun f h5 hj5 _ => .writeRecord hj5

variable (hJ : ∀ l : List SKChainKey, J ⟨l.map some, 0, l.length⟩)
include hJ

/-- Copies of states have new arrays; nothing else changes. -/
theorem gCopyStates_keeps : ∀ (ps : List Nat) {h : GHWorld}, h.AllKeys J →
    Keeps J h (gCopyStates ps) (fun qs h' => (∀ q ∈ qs, (h'.states q).keys.Clean ∧ h.nextState ≤ q ∧ q < h'.nextState) ∧ h.nextState ≤ h'.nextState ∧ ∀ p < h.nextState, h'.states p = h.states p) := by
  intro ps
  induction ps with
  | nil => exact fun hj => .pure hj ⟨(fun q hq => by cases hq), Nat.le_refl _, fun _ _ => rfl⟩
  | cons p ps ih =>
    intro h hj
    unfold gCopyStates
    refine .bind (.readState hj) fun c h1 hj1 hq => ?_
    obtain ⟨rfl, rfl⟩ := hq
    refine .bind (Q := fun q h' => q = h1.nextState ∧ (h'.states q).keys.Clean ∧ h'.nextState = h1.nextState + 1 ∧ ∀ p < h1.nextState, h'.states p = h1.states p) ?_ fun q h2 hj2 hq => ?_
    · refine ⟨(Keeps.alloc hj1 (hJ _)).1, fun v hv => ?_⟩
      cases hv
      refine ⟨rfl, ?_, rfl, fun p hp => ?_⟩
      · simp only [gAllocState, upd_same]
        exact .fresh _
      · exact upd_ne _ _ (by omega)
    · obtain ⟨rfl, hc, hn, hold⟩ := hq
      refine .bind (ih hj2) fun qs h3 hj3 hq => .pure hj3 ?_
      obtain ⟨g1, g2, g3⟩ := hq
      refine ⟨fun q hq => ?_, by omega, fun p hp => (g3 p (by omega)).trans (hold p hp)⟩
      rcases List.mem_cons.mp hq with rfl | hq
      · refine ⟨?_, Nat.le_refl _, by omega⟩
        rw [g3 _ (by omega)]
        exact hc
      · obtain ⟨a, b, c⟩ := g1 q hq
        exact ⟨a, by omega, c⟩

theorem gCopyRecord_keeps (r : Nat) {h : GHWorld} (hj : h.AllKeys J) : Keeps J h (gCopyRecord r) (fun r' h' => ∀ p ∈ h'.ptrs r', (h'.states p).keys.Clean) := by
  unfold gCopyRecord
  refine .bind (.readRecord hj) fun s h1 hj1 _ => .bind (gCopyStates_keeps hJ _ hj1) fun qs h2 hj2 hq => ⟨hj2, fun v hv p hp => ?_⟩
  cases hv
  have : (gAllocRecord ⟨qs.map some, 0, qs.length⟩ h2).2.ptrs h2.nextRecord = qs := by
    unfold GHWorld.ptrs gAllocRecord
    simp only [upd_same]
    exact (PtrSlice.Shows.fresh qs).live
  rw [this] at hp
  exact (hq.1 p hp).1

theorem hgLoad_keeps (E : GHEnv) (k : Address × DistId) {h : GHWorld} (hj : h.AllKeys J) :
    Keeps J h (hgLoad E k) (fun o h' => E.aliased = false → ∀ r, o = some r → ∀ p ∈ h'.ptrs r, (h'.states p).keys.Clean) := by
  unfold hgLoad
  refine .storeCall hj fun fs => ?_
  refine .bind (Q := fun _ _ => True) ⟨hj, fun _ _ => trivial⟩ fun h1 h2 hj2 _ => ?_
  split
  · exact .pure hj2 fun _ r hr => by cases hr
  · split
    · next hal => exact .pure hj2 fun hn => by rw [hal] at hn; cases hn
    · refine .bind (gCopyRecord_keeps hJ _ hj2) fun r' h3 hj3 hq => .pure hj3 fun _ r hr => ?_
      cases hr
      exact hq

theorem hgStore_keeps (E : GHEnv) (k : Address × DistId) (r : Nat) {h : GHWorld} (hj : h.AllKeys J) : Keeps J h (hgStore E k r) (fun _ _ => True) := by
  unfold hgStore
  refine .storeCall hj fun fs => ?_
  split
  · exact .bind (gCopyRecord_keeps hJ _ hj) fun p h1 hj1 _ => ⟨hj1, fun _ _ => trivial⟩
  · exact .bind (Q := fun _ _ => True) (.pure hj trivial) fun p h1 hj1 _ => ⟨hj1, fun _ _ => trivial⟩

omit hJ in
theorem hgState_keeps (r : Nat) {h : GHWorld} (hj : h.AllKeys J) : Keeps J h (hgState r >>= gDeref) (fun q _ => J q.2.keys) := by
  refine .bind (Q := fun _ _ => True) ?_ fun o h1 hj1 _ => ?_
  · unfold hgState
    refine .bind (.readRecord hj) fun s h1 hj1 _ => ?_
    split
    · exact .throw hj1
    · exact .pure hj1 trivial
  · cases o with
    | none => exact .panic hj1
    | some p => exact .bind (.readState hj1) fun c h2 hj2 hq => .pure hj2 (by rw [hq.2]; exact hj1 p)

theorem hgEncrypt_keeps (E : GHEnv) (a : Address) (d : DistId) (pt : Bytes) {h : GHWorld} (hj : h.AllKeys J) : Keeps J h (hgEncrypt E a d pt) (fun _ _ => True) := by
  unfold hgEncrypt
  refine .bind (hgLoad_keeps hJ E _ hj) fun o h1 hj1 _ => ?_
  cases o with
  | none => exact .throw hj1
  | some r =>
    refine .bind (hgState_keeps r hj1) fun q h2 hj2 hq => ?_
    refine .bind (.lift hj2) fun ct h3 hj3 _ => .bind (.lift hj3) fun sk h4 hj4 _ => .bind (.rand hj4) fun m h5 hj5 _ => .bind (.write hj5 hq) fun _ h6 hj6 _ =>
      .bind (hgStore_keeps hJ E _ _ hj6) fun _ h7 hj7 _ => .pure hj7 trivial

theorem hgProcess_keeps (E : GHEnv) (a : Address) (m : DistributionMsg) {h : GHWorld} (hj : h.AllKeys J) : Keeps J h (hgProcessDistribution E a m) (fun _ _ => True) := by
  unfold hgProcessDistribution
  refine .bind (hgLoad_keeps hJ E _ hj) fun o h1 hj1 _ => ?_
  have rest : ∀ r h2, GHWorld.AllKeys J h2 → Keeps J h2 (do
      let p ← gAllocState (newGCell m.version m.chainID m.iteration m.chainKey m.signingKey none)
      hgAddState E.grow r p
      hgStore E (a, m.distID) r) (fun _ _ => True) := fun r h2 hj2 =>
    .bind (.alloc hj2 (hJ [])) fun p h3 hj3 _ => .bind (hgAddState_keeps _ _ _ hj3) fun _ h4 hj4 _ => hgStore_keeps hJ E _ _ hj4
  cases o with
  | none => exact .bind (Q := fun _ _ => True) ⟨hj1, fun _ _ => trivial⟩ fun r h2 hj2 _ => rest r h2 hj2
  | some r => exact .bind (Q := fun _ _ => True) (.pure hj1 trivial) fun r h2 hj2 _ => rest r h2 hj2

theorem hgDistribute_keeps (E : GHEnv) (a : Address) (d : DistId) {h : GHWorld} (hj : h.AllKeys J) : Keeps J h (hgNewSenderKeyDistribution E a d) (fun _ _ => True) := by
  unfold hgNewSenderKeyDistribution
  refine .bind (hgLoad_keeps hJ E _ hj) fun o h1 hj1 _ => ?_
  cases o with
  | some r =>
    exact .bind (Q := fun _ _ => True) (.pure hj1 trivial) fun r h2 hj2 _ => .bind (hgState_keeps r hj2) fun q h3 hj3 _ => .bind (.lift hj3) fun k h4 hj4 _ => .pure hj4 trivial
  | none =>
    refine .bind (Q := fun _ _ => True) ?_ fun r h2 hj2 _ => .bind (hgState_keeps r hj2) fun q h3 hj3 _ => .bind (.lift hj3) fun k h4 hj4 _ => .pure hj4 trivial
    unfold hgCreateSenderKey
    exact .bind (.sysRand hj1) fun c h2 hj2 _ => .bind (.rand hj2) fun sk h3 hj3 _ => .bind (.rand hj3) fun kp h4 hj4 _ =>
      .bind (Q := fun _ _ => True) ⟨hj4, fun _ _ => trivial⟩ fun r h5 hj5 _ => .bind (.alloc hj5 (hJ [])) fun p h6 hj6 _ => .bind (hgAddState_keeps _ _ _ hj6) fun _ h7 hj7 _ =>
      .bind (hgStore_keeps hJ E _ _ hj7) fun _ h8 hj8 _ => .pure hj8 trivial

/-- Reading a message: what matters is the state that it takes the key from. -/
theorem hgDecrypt_keeps (E : GHEnv) (a : Address) (m : SenderKeyMsg) {h : GHWorld} (hj : h.AllKeys J)
    (hstep : ∀ h1 r, hgLoad E (a, m.distID) h = (.ok (some r), h1) → ∀ p ∈ h1.ptrs r, (h1.states p).chainId = m.chainID → ∀ mk c', (h1.states p).messageKey E.C E.grow m.iteration = .ok (mk, c') → J c'.keys) :
    Keeps J h (hgDecrypt E a m) (fun _ _ => True) := by
  unfold hgDecrypt
  have hl := hgLoad_keeps hJ E (a, m.distID) hj
  refine .bind (Q := fun o h1 => hgLoad E (a, m.distID) h = (.ok o, h1)) ⟨hl.1, fun v hv => ?_⟩ fun o h1 hj1 hload => ?_
  · exact Prod.ext hv rfl
  · cases o with
    | none => exact .throw hj1
    | some r =>
      refine .bind (Q := fun o h2 => h2 = h1 ∧ ∀ p ∈ o, p ∈ h1.ptrs r ∧ (h1.states p).chainId = m.chainID) ?_ fun o h2 hj2 hq => ?_
      · unfold hgStateForChainID
        refine .bind (.readRecord hj1) fun s h2 hj2 hq => ?_
        obtain ⟨rfl, rfl⟩ := hq
        refine .bind (gSearch_keeps _ hj2 _ _) fun o h3 hj3 hq => .pure hj3 ⟨hq.1, fun p hp => ?_⟩
        cases o with
        | none => cases hp
        | some q =>
          cases hp
          obtain ⟨g1, g2⟩ := hq.2 q rfl
          refine ⟨?_, ?_⟩
          · unfold GHWorld.ptrs PtrSlice.live
            rw [List.mem_filterMap]
            exact ⟨_, g1, rfl⟩
          · simpa using (beq_iff_eq.mp g2).symm
      · obtain ⟨rfl, hq⟩ := hq
        cases o with
        | none => exact .throw hj2
        | some p =>
          obtain ⟨g1, g2⟩ := hq p rfl
          refine .bind (.readState hj2) fun c h3 hj3 hq => ?_
          obtain ⟨rfl, rfl⟩ := hq
          split
          · exact .throw hj3
          · refine .bind (.lift hj3) fun sk h4 hj4 hq => ?_
            obtain ⟨_, rfl⟩ := hq
            refine .bind (.lift hj4) fun valid h5 hj5 hq => ?_
            obtain ⟨_, rfl⟩ := hq
            split
            · refine .bind (.lift hj5) fun out h6 hj6 hq => ?_
              obtain ⟨he, rfl⟩ := hq
              refine .bind (.write hj6 (hstep _ r hload p g1 g2 out.1 out.2 he)) fun _ h7 hj7 _ => .bind (.lift hj7) fun pt h8 hj8 _ => .bind (hgStore_keeps hJ E _ _ hj8) fun _ h9 hj9 _ => .pure hj9 trivial
            · exact .throw hj5

theorem gcall_keeps (E : GHEnv) (c : GCall) {h : GHWorld} (hj : h.AllKeys J)
    (hstep : ∀ a m, c.op = .decrypt a m → ∀ h1 r, hgLoad E (a, m.distID) { h with rand := c.rand, sysRand := c.sysRand, faults := c.faults } = (.ok (some r), h1) →
      ∀ p ∈ h1.ptrs r, (h1.states p).chainId = m.chainID → ∀ mk c', (h1.states p).messageKey E.C E.grow m.iteration = .ok (mk, c') → J c'.keys) : (c.heapRun E h).2.AllKeys J := by
  obtain ⟨op, rand, sysRand, faults⟩ := c
  cases op with
  | encrypt a d pt => exact (hgEncrypt_keeps hJ E a d pt (h := { h with rand := rand, sysRand := sysRand, faults := faults }) hj).1
  | decrypt a m => exact (hgDecrypt_keeps hJ E a m (h := { h with rand := rand, sysRand := sysRand, faults := faults }) hj (hstep a m rfl)).1
  | process a d => exact (hgProcess_keeps hJ E a d (h := { h with rand := rand, sysRand := sysRand, faults := faults }) hj).1
  | distribute a d => exact (hgDistribute_keeps hJ E a d (h := { h with rand := rand, sysRand := sysRand, faults := faults }) hj).1

theorem gAppLoad_keeps (E : GHEnv) (k : Address × DistId) {h : GHWorld} (hj : h.AllKeys J) : (gAppLoad E k h).2.AllKeys J := by
  have := (hgLoad_keeps hJ E k (h := { h with faults := [] }) hj).1
  unfold gAppLoad
  split
  · next e => rw [e] at this; exact this
  · next e => rw [e] at this; exact this

end

/-- What `Load` returns has the stored value. -/
theorem hgLoad_value (E : GHEnv) (k : Address × DistId) {h h1 : GHWorld} {r : Nat} (hs : h.Sound) (e : hgLoad E k h = (.ok (some r), h1)) :
    h.values.records k = some (h1.view r) ∧ ∀ p ∈ h1.ptrs r, p < h1.nextState := by
  have hcall : ∀ fs, ((do
      let h ← (M.get : M GHWorld GHWorld)
      match h.store k with
      | none => return none
      | some r =>
        if E.aliased then return some r
        else
          let r' ← gCopyRecord r
          return some r') : M GHWorld (Option Nat)) { h with faults := fs } = (.ok (some r), h1) → h.values.records k = some (h1.view r) ∧ ∀ p ∈ h1.ptrs r, p < h1.nextState := by
    intro fs he
    have hs' : ({ h with faults := fs } : GHWorld).Sound := GHWorld.Same.sound ⟨_, _, _, rfl⟩ hs
    rw [M.bind_ok_run (show (M.get : M GHWorld GHWorld) { h with faults := fs } = (.ok { h with faults := fs }, { h with faults := fs }) from rfl)] at he
    have hval : h.values.records k = (h.store k).map h.view := rfl
    rw [hval]
    simp only at he
    cases hst : h.store k with
    | none => rw [hst] at he; cases he
    | some r0 =>
      rw [hst] at he
      have hr0 := hs.stored k r0 hst
      simp only at he
      cases hal : E.aliased with
      | true =>
        rw [hal] at he
        cases he
        exact ⟨rfl, (hs.good r hr0).bound⟩
      | false =>
        rw [hal] at he
        simp only [Bool.false_eq_true, if_false] at he
        obtain ⟨h2, e1, e2, _, _, e5, e6, _⟩ := gCopyRecord_run hs' hr0
        rw [M.bind_ok_run e1] at he
        cases he
        refine ⟨?_, (e2.good _ (by rw [e5]; exact Nat.lt_succ_self _)).bound⟩
        show some (h.view r0) = some (h1.view h.nextRecord)
        exact congrArg some e6.symm
  unfold hgLoad hgStoreCall at e
  split at e
  · exact hcall h.faults e
  · next fs _ => exact hcall fs e
  · cases e
  · cases e

theorem gHeapRun_nothingHidden (E : GHEnv) (hE : E.aliased = false) : ∀ (evs : List GHeapEvent) {h : GHWorld}, h.AllKeys PtrSlice.NothingHidden → (gHeapRun E evs h).2.AllKeys PtrSlice.NothingHidden := by
  have hJ : ∀ l : List SKChainKey, (⟨l.map some, 0, l.length⟩ : PtrSlice SKChainKey).NothingHidden := fun l => (PtrSlice.Clean.fresh l).nothingHidden
  intro evs
  induction evs with
  | nil => exact fun hj => hj
  | cons ev evs ih =>
    intro h hj
    cases ev with
    | load k => exact ih (gAppLoad_keeps hJ E k hj)
    | call c =>
      refine ih (gcall_keeps hJ E c hj fun a m _ h1 r hl p hp _ mk c' he => ?_)
      have := (hgLoad_keeps hJ E (a, m.distID) (h := { h with rand := c.rand, sysRand := c.sysRand, faults := c.faults }) hj).2 (some r) (by rw [hl])
      rw [hl] at this
      exact (GCell.messageKey_clean (this hE r rfl p hp) he).1

theorem gHeapRun_clean (E : GHEnv) : ∀ (evs : List GHeapEvent) {h : GHWorld}, h.Sound → h.AllKeys PtrSlice.Clean → LastKeptFirst E.toGEnv (gCalls evs) h.values →
    (gHeapRun E evs h).2.AllKeys PtrSlice.Clean := by
  intro evs
  induction evs with
  | nil => exact fun _ hj _ => hj
  | cons ev evs ih =>
    intro h hs hj hf
    cases ev with
    | load k =>
      obtain ⟨e1, e2, _⟩ := gAppLoad_sim E k hs
      exact ih e2 (gAppLoad_keeps PtrSlice.Clean.fresh E k hj) (by rw [e1]; exact hf)
    | call c =>
      obtain ⟨_, e2, e3⟩ := gcall_sim E c hs
      have hf : c.UsesLastKept h.values ∧ LastKeptFirst E.toGEnv (gCalls evs) (c.run E.toGEnv h.values).2 := hf
      refine ih e3.sound (gcall_keeps PtrSlice.Clean.fresh E c hj fun a m hop h1 r hl p hp hid mk c' he => ?_) (e2.symm ▸ hf.2)
      have hu := hf.1
      unfold GCall.UsesLastKept at hu
      rw [hop] at hu
      have hs1 : ({ h with rand := c.rand, sysRand := c.sysRand, faults := c.faults } : GHWorld).Sound := GHWorld.Same.sound ⟨_, _, _, rfl⟩ hs
      have hc := (hgLoad_keeps PtrSlice.Clean.fresh E (a, m.distID) (h := { h with rand := c.rand, sysRand := c.sysRand, faults := c.faults }) hj).1
      rw [hl] at hc
      have hv := (hgLoad_value E _ hs1 hl).1
      exact (GCell.messageKey_clean (hc p) he).2 (hu _ (h1.states p).value hv (List.mem_map_of_mem hp) hid)

end Verif
