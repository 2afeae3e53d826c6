import Verif.Spec.Apart
import Verif.Proofs.SessionKept

/-!
Two runs of the same code on memories that agree on the objects of one peer.
-/

namespace Verif

/-- The objects of a peer during one call: those it has, and those that the call makes. -/
structure Own where
  rc : Nat → Prop
  st : Nat → Prop

namespace Own

variable (O : Own) (a : Address)

/-- The memories agree on the objects of the peer, and these refer only to each other. -/
structure Rel (h h' : ZWorld) : Prop where
  rest : h'.rest = h.rest
  entry : h'.store a = h.store a
  recs : ∀ r, O.rc r → h'.records r = h.records r
  sts : ∀ p, O.st p → h'.states p = h.states p
  nr : h'.nextRecord = h.nextRecord
  ns : h'.nextState = h.nextState
  grow : h'.grow = h.grow
  stored : ∀ r, h.store a = some r → O.rc r ∧ r < h.nextRecord
  current : ∀ r, O.rc r → r < h.nextRecord → ∀ p, (h.records r).current = some p → O.st p ∧ p < h.nextState
  newR : ∀ r, h.nextRecord ≤ r → O.rc r
  newS : ∀ p, h.nextState ≤ p → O.st p

/-- Nothing but objects of the peer has been written. -/
structure Kept (h k : ZWorld) : Prop where
  store : ∀ b, b ≠ a → k.store b = h.store b
  recs : ∀ r, ¬ O.rc r → k.records r = h.records r
  sts : ∀ p, ¬ O.st p → k.states p = h.states p
  nr : h.nextRecord ≤ k.nextRecord
  ns : h.nextState ≤ k.nextState

/-- Two runs of related code. -/
def Pair {α} (n m : Nat) (x y : M ZWorld α) (Q : α → Nat → Nat → Prop) : Prop :=
  ∀ h h', O.Rel a h h' → n ≤ h.nextRecord → m ≤ h.nextState →
    (y h').1 = (x h).1 ∧ O.Rel a (x h).2 (y h').2 ∧ O.Kept a h (x h).2 ∧ O.Kept a h' (y h').2 ∧
      ∀ v, (x h).1 = .ok v → Q v (x h).2.nextRecord (x h).2.nextState

variable {O} {a}

theorem Kept.refl (h : ZWorld) : O.Kept a h h := ⟨fun _ _ => rfl, fun _ _ => rfl, fun _ _ => rfl, Nat.le_refl _, Nat.le_refl _⟩

theorem Kept.trans {h k l : ZWorld} (h1 : O.Kept a h k) (h2 : O.Kept a k l) : O.Kept a h l :=
  ⟨fun b hb => (h2.store b hb).trans (h1.store b hb), fun r hr => (h2.recs r hr).trans (h1.recs r hr), fun p hp => (h2.sts p hp).trans (h1.sts p hp),
    Nat.le_trans h1.nr h2.nr, Nat.le_trans h1.ns h2.ns⟩

theorem Rel.setRest {h h' : ZWorld} (hr : O.Rel a h h') (w : World) : O.Rel a { h with rest := w } { h' with rest := w } :=
  ⟨rfl, hr.entry, hr.recs, hr.sts, hr.nr, hr.ns, hr.grow, hr.stored, hr.current, hr.newR, hr.newS⟩

theorem Kept.setRest {h k : ZWorld} (w : World) (hk : O.Kept a { h with rest := w } k) : O.Kept a h k := ⟨hk.store, hk.recs, hk.sts, hk.nr, hk.ns⟩

namespace Pair

variable {n m : Nat}

theorem bind {α β} {x y : M ZWorld α} {f g : α → M ZWorld β} {Q : α → Nat → Nat → Prop} {R : β → Nat → Nat → Prop} (hx : O.Pair a n m x y Q)
    (hf : ∀ v n' m', n ≤ n' → m ≤ m' → Q v n' m' → O.Pair a n' m' (f v) (g v) R) : O.Pair a n m (x >>= f) (y >>= g) R := by
  intro h h' hr hn hm
  obtain ⟨e, r1, k1, k2, q⟩ := hx h h' hr hn hm
  rw [M.bind_run, M.bind_run]
  rcases hxh : x h with ⟨v, k⟩
  rcases hyh : y h' with ⟨v', k'⟩
  rw [hxh, hyh] at e r1
  rw [hxh] at k1 q
  rw [hyh] at k2
  simp only at e r1 k1 k2 q
  subst e
  cases v' with
  | ok v =>
    obtain ⟨e, r2, l1, l2, q2⟩ := hf v _ _ (Nat.le_trans hn k1.nr) (Nat.le_trans hm k1.ns) (q v rfl) k k' r1 (Nat.le_refl _) (Nat.le_refl _)
    exact ⟨e, r2, k1.trans l1, k2.trans l2, q2⟩
  | err e => exact ⟨rfl, r1, k1, k2, fun v hv => by cases hv⟩
  | panic => exact ⟨rfl, r1, k1, k2, fun v hv => by cases hv⟩

theorem mono {α} {x y : M ZWorld α} {Q R : α → Nat → Nat → Prop} (hx : O.Pair a n m x y Q) (hq : ∀ v n' m', n ≤ n' → m ≤ m' → Q v n' m' → R v n' m') :
    O.Pair a n m x y R := by
  intro h h' hr hn hm
  obtain ⟨e, r1, k1, k2, q⟩ := hx h h' hr hn hm
  exact ⟨e, r1, k1, k2, fun v hv => hq v _ _ (Nat.le_trans hn k1.nr) (Nat.le_trans hm k1.ns) (q v hv)⟩

theorem pure {α} {v : α} {Q : α → Nat → Nat → Prop} (hq : ∀ n' m', n ≤ n' → m ≤ m' → Q v n' m') : O.Pair a n m (Pure.pure v) (Pure.pure v) Q :=
  fun h h' hr hn hm => ⟨rfl, hr, .refl _, .refl _, fun _ hv => by cases hv; exact hq _ _ hn hm⟩

theorem throw {α} {e : Err} {Q : α → Nat → Nat → Prop} : O.Pair a n m (M.throw e) (M.throw e) Q :=
  fun h h' hr _ _ => ⟨rfl, hr, .refl _, .refl _, fun _ hv => by cases hv⟩

theorem panic {α} {Q : α → Nat → Nat → Prop} : O.Pair a n m M.panic M.panic Q :=
  fun h h' hr _ _ => ⟨rfl, hr, .refl _, .refl _, fun _ hv => by cases hv⟩

theorem lift {α} {r : Res α} : O.Pair a n m (M.lift r) (M.lift r) (fun v _ _ => r = .ok v) :=
  fun h h' hr _ _ => ⟨rfl, hr, .refl _, .refl _, fun _ hv => hv⟩

theorem rest {α} {x : M World α} : O.Pair a n m (zRest x) (zRest x) (fun _ _ _ => True) := by
  intro h h' hr _ _
  unfold zRest
  rw [hr.rest]
  exact ⟨rfl, hr.setRest _, .setRest _ (.refl _), .setRest _ (.refl _), fun _ _ => trivial⟩

theorem attempt {α} {x y : M ZWorld α} {Q : α → Nat → Nat → Prop} (hx : O.Pair a n m x y Q) :
    O.Pair a n m (M.attempt x) (M.attempt y) (fun o n' m' => ∀ v, o = .ok v → Q v n' m') := by
  intro h h' hr hn hm
  obtain ⟨e, r1, k1, k2, q⟩ := hx h h' hr hn hm
  unfold M.attempt
  rcases hxh : x h with ⟨v, k⟩
  rcases hyh : y h' with ⟨v', k'⟩
  rw [hxh, hyh] at e r1
  rw [hxh] at k1 q
  rw [hyh] at k2
  simp only at e r1 k1 k2 q
  subst e
  cases v' with
  | ok v => exact ⟨rfl, r1, k1, k2, fun o ho u hu => by cases ho; cases hu; exact q _ rfl⟩
  | err e => exact ⟨rfl, r1, k1, k2, fun o ho u hu => by cases ho; cases hu⟩
  | panic => exact ⟨rfl, r1, k1, k2, fun o ho => by cases ho⟩

/-- Code that looks at the whole memory. -/
theorem get {β} {f g : ZWorld → M ZWorld β} {R : β → Nat → Nat → Prop} (hf : ∀ h h', O.Rel a h h' → O.Pair a n m (f h) (g h') R) :
    O.Pair a n m (M.get >>= f) (M.get >>= g) R := fun h h' hr hn hm => hf h h' hr h h' hr hn hm

theorem readCell {p : Nat} (hp : O.st p) : O.Pair a n m (zReadCell p) (zReadCell p) (fun _ _ _ => True) :=
  fun h h' hr _ _ => ⟨by unfold zReadCell; rw [hr.sts p hp], hr, .refl _, .refl _, fun _ _ => trivial⟩

theorem readState {p : Nat} (hp : O.st p) : O.Pair a n m (zReadState p) (zReadState p) (fun _ _ _ => True) :=
  fun h h' hr _ _ => ⟨by unfold zReadState; rw [hr.sts p hp], hr, .refl _, .refl _, fun _ _ => trivial⟩

theorem readRecord {r : Nat} (ho : O.rc r) (hlt : r < n) :
    O.Pair a n m (zReadRecord r) (zReadRecord r) (fun c _ m' => ∀ p, c.current = some p → O.st p ∧ p < m') := by
  intro h h' hr hn hm
  refine ⟨by unfold zReadRecord; rw [hr.recs r ho], hr, .refl _, .refl _, ?_⟩
  rintro _ ⟨⟩ p hp
  exact hr.current r ho (Nat.lt_of_lt_of_le hlt hn) p hp

theorem getRecord {α} {r : Nat} {f : Record → Res α} (ho : O.rc r) (hlt : r < n) : O.Pair a n m (zGetRecord r f) (zGetRecord r f) (fun _ _ _ => True) := by
  intro h h' hr hn hm
  refine ⟨?_, hr, .refl _, .refl _, fun _ _ => trivial⟩
  have : h'.view r = h.view r := by
    unfold ZWorld.view
    rw [hr.recs r ho]
    cases hc : (h.records r).current with
    | none => rfl
    | some p => simp only [Option.map_some, hr.sts p (hr.current r ho (Nat.lt_of_lt_of_le hlt hn) p hc).1]
  unfold zGetRecord
  rw [this]

theorem writeCell {p : Nat} {c : SCell} (hp : O.st p) : O.Pair a n m (zWriteCell p c) (zWriteCell p c) (fun _ _ _ => True) := by
  intro h h' hr _ _
  have hk : ∀ k : ZWorld, O.Kept a k { k with states := upd k.states p c } := fun k =>
    ⟨fun _ _ => rfl, fun _ _ => rfl, fun q hq => upd_ne _ _ fun he => hq (he ▸ hp), Nat.le_refl _, Nat.le_refl _⟩
  refine ⟨rfl, ⟨hr.rest, hr.entry, hr.recs, fun q hq => ?_, hr.nr, hr.ns, hr.grow, hr.stored, hr.current, hr.newR, hr.newS⟩, hk h, hk h', fun _ _ => trivial⟩
  show upd h'.states p c q = upd h.states p c q
  by_cases he : q = p
  · subst he; rw [upd_same, upd_same]
  · rw [upd_ne _ _ he, upd_ne _ _ he]; exact hr.sts q hq

theorem writeRecord {r : Nat} {c : ZRecordCell} (ho : O.rc r) (hc : ∀ p, c.current = some p → O.st p ∧ p < m) :
    O.Pair a n m (zWriteRecord r c) (zWriteRecord r c) (fun _ _ _ => True) := by
  intro h h' hr _ hm
  have hk : ∀ k : ZWorld, O.Kept a k { k with records := upd k.records r c } := fun k =>
    ⟨fun _ _ => rfl, fun q hq => upd_ne _ _ fun he => hq (he ▸ ho), fun _ _ => rfl, Nat.le_refl _, Nat.le_refl _⟩
  refine ⟨rfl, ⟨hr.rest, hr.entry, fun q hq => ?_, hr.sts, hr.nr, hr.ns, hr.grow, hr.stored, fun q hq hlt p hp => ?_, hr.newR, hr.newS⟩, hk h, hk h', fun _ _ => trivial⟩
  · show upd h'.records r c q = upd h.records r c q
    by_cases he : q = r
    · subst he; rw [upd_same, upd_same]
    · rw [upd_ne _ _ he, upd_ne _ _ he]; exact hr.recs q hq
  · change (upd h.records r c q).current = some p at hp
    by_cases he : q = r
    · subst he
      rw [upd_same] at hp
      exact ⟨(hc p hp).1, Nat.lt_of_lt_of_le (hc p hp).2 hm⟩
    · rw [upd_ne _ _ he] at hp
      exact hr.current q hq hlt p hp

theorem allocState {s : SState} : O.Pair a n m (zAllocState s) (zAllocState s) (fun p _ m' => O.st p ∧ p < m') := by
  intro h h' hr _ _
  have hk : ∀ k : ZWorld, k.nextState = h.nextState → O.Kept a k { k with states := upd k.states k.nextState (.fresh k.grow s), nextState := k.nextState + 1 } := fun k he =>
    ⟨fun _ _ => rfl, fun _ _ => rfl, fun q hq => upd_ne _ _ fun hx => hq (hr.newS q (by omega)), Nat.le_refl _, Nat.le_succ _⟩
  refine ⟨?_, ⟨hr.rest, hr.entry, hr.recs, fun q hq => ?_, hr.nr, ?_, hr.grow, hr.stored, fun r hor hlt p hp => ?_, hr.newR, fun p hp => ?_⟩, hk h rfl, hk h' hr.ns, ?_⟩
  · unfold zAllocState; rw [hr.ns]
  · show upd h'.states h'.nextState (.fresh h'.grow s) q = upd h.states h.nextState (.fresh h.grow s) q
    rw [hr.ns, hr.grow]
    by_cases he : q = h.nextState
    · subst he; rw [upd_same, upd_same]
    · rw [upd_ne _ _ he, upd_ne _ _ he]; exact hr.sts q hq
  · show h'.nextState + 1 = h.nextState + 1
    rw [hr.ns]
  · obtain ⟨h1, h2⟩ := hr.current r hor hlt p hp
    exact ⟨h1, Nat.lt_succ_of_lt h2⟩
  · exact hr.newS p (Nat.le_of_succ_le hp)
  · rintro _ ⟨⟩
    exact ⟨hr.newS _ (Nat.le_refl _), Nat.lt_succ_self _⟩

theorem allocRecord {c : ZRecordCell} (hc : ∀ p, c.current = some p → O.st p ∧ p < m) :
    O.Pair a n m (zAllocRecord c) (zAllocRecord c) (fun r n' _ => O.rc r ∧ r < n') := by
  intro h h' hr _ hm
  have hk : ∀ k : ZWorld, k.nextRecord = h.nextRecord → O.Kept a k { k with records := upd k.records k.nextRecord c, nextRecord := k.nextRecord + 1 } := fun k he =>
    ⟨fun _ _ => rfl, fun q hq => upd_ne _ _ fun hx => hq (hr.newR q (by omega)), fun _ _ => rfl, Nat.le_succ _, Nat.le_refl _⟩
  refine ⟨?_, ⟨hr.rest, hr.entry, fun q hq => ?_, hr.sts, ?_, hr.ns, hr.grow, fun r hs => ?_, fun r hor hlt p hp => ?_, fun p hp => ?_, hr.newS⟩, hk h rfl, hk h' hr.nr, ?_⟩
  · unfold zAllocRecord; rw [hr.nr]
  · show upd h'.records h'.nextRecord c q = upd h.records h.nextRecord c q
    rw [hr.nr]
    by_cases he : q = h.nextRecord
    · subst he; rw [upd_same, upd_same]
    · rw [upd_ne _ _ he, upd_ne _ _ he]; exact hr.recs q hq
  · show h'.nextRecord + 1 = h.nextRecord + 1
    rw [hr.nr]
  · exact ⟨(hr.stored r hs).1, Nat.lt_succ_of_lt (hr.stored r hs).2⟩
  · change (upd h.records h.nextRecord c r).current = some p at hp
    by_cases he : r = h.nextRecord
    · subst he
      rw [upd_same] at hp
      exact ⟨(hc p hp).1, Nat.lt_of_lt_of_le (hc p hp).2 hm⟩
    · rw [upd_ne _ _ he] at hp
      exact hr.current r hor (Nat.lt_of_le_of_ne (Nat.lt_succ_iff.1 hlt) he) p hp
  · exact hr.newR p (Nat.le_of_succ_le hp)
  · rintro _ ⟨⟩
    exact ⟨hr.newR _ (Nat.le_refl _), Nat.lt_succ_self _⟩

theorem putEntry {r : Nat} (ho : O.rc r) (hlt : r < n) :
    O.Pair a n m (M.modify fun h => { h with store := upd h.store a (some r) }) (M.modify fun h => { h with store := upd h.store a (some r) }) (fun _ _ _ => True) := by
  intro h h' hr hn _
  have hk : ∀ k : ZWorld, O.Kept a k { k with store := upd k.store a (some r) } := fun k =>
    ⟨fun b hb => upd_ne _ _ hb, fun _ _ => rfl, fun _ _ => rfl, Nat.le_refl _, Nat.le_refl _⟩
  refine ⟨rfl, ⟨hr.rest, ?_, hr.recs, hr.sts, hr.nr, hr.ns, hr.grow, fun q hq => ?_, hr.current, hr.newR, hr.newS⟩, hk h, hk h', fun _ _ => trivial⟩
  · show upd h'.store a (some r) a = upd h.store a (some r) a
    rw [upd_same, upd_same]
  · change upd h.store a (some r) a = some q at hq
    rw [upd_same] at hq
    cases hq
    exact ⟨ho, Nat.lt_of_lt_of_le hlt hn⟩

theorem storeCall {α} {x y : M ZWorld α} {Q : α → Nat → Nat → Prop} (hx : O.Pair a n m x y Q) : O.Pair a n m (zStoreCall x) (zStoreCall y) Q := by
  intro h h' hr hn hm
  unfold zStoreCall
  rw [hr.rest]
  cases hf : h.rest.faults with
  | nil => exact hx h h' hr hn hm
  | cons f fs =>
    have hr1 := hr.setRest { h.rest with faults := fs }
    obtain ⟨e, r1, k1, k2, q⟩ := hx _ _ hr1 hn hm
    cases f with
    | none => exact ⟨e, r1, .setRest _ k1, .setRest _ k2, q⟩
    | before => exact ⟨rfl, hr1, .setRest _ (.refl _), .setRest _ (.refl _), fun _ hv => by cases hv⟩
    | after => exact ⟨rfl, r1, .setRest _ k1, .setRest _ k2, fun _ hv => by cases hv⟩

/-! ## The functions of the library -/

theorem getState {α} {p : Nat} {f : SState → Res α} (hp : O.st p) : O.Pair a n m (zGetState p f) (zGetState p f) (fun _ _ _ => True) :=
  (readState hp).bind fun _ _ _ _ _ _ => lift.mono fun _ _ _ _ _ _ => trivial

theorem changeFields {p : Nat} {f : SState → SState} (hp : O.st p) : O.Pair a n m (zChangeFields p f) (zChangeFields p f) (fun _ _ _ => True) :=
  (readCell hp).bind fun _ _ _ _ _ _ => writeCell hp

theorem changeChains {p : Nat} {f : (Nat → Nat) → SCell → Res SCell} (hp : O.st p) : O.Pair a n m (zChangeChains p f) (zChangeChains p f) (fun _ _ _ => True) :=
  get fun h h' hr => (readCell hp).bind fun _ _ _ _ _ _ => by rw [hr.grow]; exact lift.bind fun _ _ _ _ _ _ => writeCell hp

theorem clone {p : Nat} (hp : O.st p) : O.Pair a n m (zClone p) (zClone p) (fun q _ m' => O.st q ∧ q < m') :=
  (readState hp).bind fun _ _ _ _ _ _ => allocState

theorem newRecord : O.Pair a n m zNewRecord zNewRecord (fun r n' _ => O.rc r ∧ r < n') := allocRecord fun _ hp => by cases hp

theorem copyRecord {r : Nat} (ho : O.rc r) (hlt : r < n) : O.Pair a n m (zCopyRecord r) (zCopyRecord r) (fun q n' _ => O.rc q ∧ q < n') := by
  refine get fun h h' hr => (readRecord ho hlt).bind fun c n1 m1 _ _ hc => ?_
  rw [hr.grow]
  cases hcc : c.current with
  | none => exact allocRecord fun _ hp => by cases hp
  | some p => exact (clone (hc p hcc).1).bind fun q n2 m2 _ _ hq => allocRecord fun _ hp => by cases hp; exact hq

theorem loadSession (E : HEnv) : O.Pair a n m (zLoadSession E a) (zLoadSession E a) (fun v n' _ => ∀ r, v = some r → O.rc r ∧ r < n') := by
  refine storeCall ?_
  intro h h' hr hn hm
  rw [M.bind_ok_run (M.get_run _), M.bind_ok_run (M.get_run _)]
  simp only [hr.entry]
  cases hs : h.store a with
  | none => exact ⟨rfl, hr, .refl _, .refl _, fun v hv r hvr => by cases hv; cases hvr⟩
  | some r =>
    obtain ⟨ho, hlt⟩ := hr.stored r hs
    by_cases ha : E.aliased = true
    · simp only [ha, if_true]
      exact ⟨rfl, hr, .refl _, .refl _, fun v hv q hq => by cases hv; cases hq; exact ⟨ho, hlt⟩⟩
    · simp only [ha]
      exact ((copyRecord (m := m) ho hlt).bind (n := h.nextRecord) (R := fun v n' _ => ∀ r, v = some r → O.rc r ∧ r < n') fun q n' m' _ _ hq =>
        pure fun n2 _ h2 _ x hx => by cases hx; exact ⟨hq.1, Nat.lt_of_lt_of_le hq.2 h2⟩) h h' hr (Nat.le_refl _) hm

theorem storeSession (E : HEnv) {r : Nat} (ho : O.rc r) (hlt : r < n) : O.Pair a n m (zStoreSession E a r) (zStoreSession E a r) (fun _ _ _ => True) := by
  refine storeCall ?_
  dsimp only
  split
  · exact (copyRecord ho hlt).bind fun q n' m' _ _ hq => putEntry hq.1 hq.2
  · exact putEntry ho hlt

theorem setSessionState {r p : Nat} (ho : O.rc r) (hlt : r < n) (hp : O.st p) (hpm : p < m) :
    O.Pair a n m (zSetSessionState r p) (zSetSessionState r p) (fun _ _ _ => True) :=
  (readRecord ho hlt).bind fun c n1 m1 _ h2 hc => writeRecord ho fun q hq => by cases hq; exact ⟨hp, Nat.lt_of_lt_of_le hpm h2⟩

theorem archiveCurrentState {r : Nat} (ho : O.rc r) (hlt : r < n) : O.Pair a n m (zArchiveCurrentState r) (zArchiveCurrentState r) (fun _ _ _ => True) := by
  refine get fun h h' hr => (readRecord ho hlt).bind fun c n1 m1 _ _ hc => ?_
  rw [hr.grow]
  cases hcc : c.current with
  | none => exact pure fun _ _ _ _ => trivial
  | some p =>
    exact (readState (hc p hcc).1).bind fun s n2 m2 _ h2 _ => lift.bind fun l n3 m3 _ h3 _ => writeRecord ho fun q hq => by
      cases hq
      exact ⟨(hc p hcc).1, by have := (hc p hcc).2; omega⟩

theorem promoteState {r p : Nat} (ho : O.rc r) (hlt : r < n) (hp : O.st p) (hpm : p < m) : O.Pair a n m (zPromoteState r p) (zPromoteState r p) (fun _ _ _ => True) :=
  (archiveCurrentState ho hlt).bind fun _ _ _ h1 h2 _ => setSessionState ho (Nat.lt_of_lt_of_le hlt h1) hp (Nat.lt_of_lt_of_le hpm h2)

theorem promoteOldState {r idx p : Nat} (ho : O.rc r) (hlt : r < n) (hp : O.st p) (hpm : p < m) :
    O.Pair a n m (zPromoteOldState r idx p) (zPromoteOldState r idx p) (fun _ _ _ => True) := by
  refine get fun h h' hr => (readRecord ho hlt).bind fun c n1 m1 g1 g2 hc => ?_
  rw [hr.grow]
  split
  · exact pure fun _ _ _ _ => trivial
  · refine lift.bind fun l n2 m2 k1 k2 _ => lift.bind fun l' n3 m3 l1 l2 _ => (writeRecord ho fun q hq => ?_).bind fun _ n4 m4 q1 q2 _ =>
      promoteState ho (by omega) hp (by omega)
    have := hc q hq
    exact ⟨this.1, by omega⟩

theorem allocStates (l : List SState) : ∀ n m, O.Pair a n m (zAllocStates l) (zAllocStates l) (fun ps _ m' => ∀ p ∈ ps, O.st p ∧ p < m') := by
  induction l with
  | nil => exact fun n m => pure fun _ _ _ _ p hp => by cases hp
  | cons s ss ih =>
    intro n m
    refine allocState.bind fun p n1 m1 _ _ hp => (ih n1 m1).bind fun ps n2 m2 _ h2 hps => pure fun n3 m3 _ h3 q hq => ?_
    rcases List.mem_cons.1 hq with rfl | hq
    · exact ⟨hp.1, by omega⟩
    · exact ⟨(hps q hq).1, Nat.lt_of_lt_of_le (hps q hq).2 h3⟩

theorem takeMessageKeys {p : Nat} {sender : PubKey} {counter : UInt32} (hp : O.st p) :
    O.Pair a n m (zTakeMessageKeys p sender counter) (zTakeMessageKeys p sender counter) (fun _ _ _ => True) := by
  refine get fun h h' hr => (readCell hp).bind fun c _ _ _ _ _ => ?_
  rw [hr.grow]
  refine lift.bind fun v _ _ _ _ _ => ?_
  obtain ⟨found, c'⟩ := v
  refine (writeCell hp).bind fun _ _ _ _ _ _ => ?_
  cases found with
  | none => exact pure fun _ _ _ _ => trivial
  | some k => exact lift.bind fun _ _ _ _ _ _ => pure fun _ _ _ _ => trivial

theorem chainKey {C : Crypto} {p : Nat} {k : PubKey} (hp : O.st p) : O.Pair a n m (zChainKey C p k) (zChainKey C p k) (fun _ _ _ => True) := by
  refine (getState hp).bind fun v _ _ _ _ _ => ?_
  cases v with
  | some c => exact pure fun _ _ _ _ => trivial
  | none =>
    refine (getState hp).bind fun rk _ _ _ _ _ => (getState hp).bind fun oe _ _ _ _ _ => lift.bind fun v _ _ _ _ _ => ?_
    obtain ⟨rr, rc⟩ := v
    refine rest.bind fun ne _ _ _ _ _ => lift.bind fun v _ _ _ _ _ => ?_
    obtain ⟨sr, sc⟩ := v
    exact (getState hp).bind fun _ _ _ _ _ _ => (changeFields hp).bind fun _ _ _ _ _ _ => (changeChains hp).bind fun _ _ _ _ _ _ =>
      (changeFields hp).bind fun _ _ _ _ _ _ => (changeFields hp).bind fun _ _ _ _ _ _ => pure fun _ _ _ _ => trivial

theorem skipLoop {C : Crypto} {p : Nat} {k : PubKey} {counter : UInt32} (hp : O.st p) : ∀ (fuel : Nat) (ck : ChainKey) (n m : Nat),
    O.Pair a n m (zSkipLoop C p k counter fuel ck) (zSkipLoop C p k counter fuel ck) (fun _ _ _ => True) := by
  intro fuel
  induction fuel with
  | zero => exact fun ck n m => pure fun _ _ _ _ => trivial
  | succ f ih =>
    intro ck n m
    unfold zSkipLoop
    split
    · exact (changeChains hp).bind fun _ n' m' _ _ _ => ih _ n' m'
    · exact pure fun _ _ _ _ => trivial

theorem messageKeys {C : Crypto} {p : Nat} {k : PubKey} {ck : ChainKey} {counter : UInt32} (hp : O.st p) :
    O.Pair a n m (zMessageKeys C p k ck counter) (zMessageKeys C p k ck counter) (fun _ _ _ => True) := by
  unfold zMessageKeys
  split
  · refine (takeMessageKeys hp).bind fun v _ _ _ _ _ => ?_
    cases v with
    | some k => exact pure fun _ _ _ _ => trivial
    | none => exact throw
  · have tail : ∀ n m, O.Pair a n m (do
        let ck ← zSkipLoop C p k counter (counter.toNat - ck.index.toNat) ck
        zChangeChains p fun _ c => c.setReceiverChainKey k ck
        return ck.messageKeys C) (do
        let ck ← zSkipLoop C p k counter (counter.toNat - ck.index.toNat) ck
        zChangeChains p fun _ c => c.setReceiverChainKey k ck
        return ck.messageKeys C) (fun _ _ _ => True) := fun n m =>
      (skipLoop hp _ _ n m).bind fun _ _ _ _ _ _ => (changeChains hp).bind fun _ _ _ _ _ _ => pure fun _ _ _ _ => trivial
    dsimp only
    split
    · refine (getState hp).bind fun v n1 m1 _ _ _ => ?_
      cases v
      · exact throw (α := Unit) (Q := fun _ _ _ => True) |>.bind fun _ n' m' _ _ _ => tail n' m'
      · exact tail n1 m1
    · exact tail n m

theorem decryptMessageSession {C : Crypto} {p : Nat} {msg : Signal} (hp : O.st p) :
    O.Pair a n m (zDecryptMessageSession C p msg) (zDecryptMessageSession C p msg) (fun _ _ _ => True) := by
  refine (readState hp).bind fun s _ _ _ _ _ => ?_
  cases s.senderChain with
  | none => exact throw
  | some _ =>
    dsimp only
    split
    · exact throw
    · refine (chainKey hp).bind fun _ _ _ _ _ _ => (messageKeys hp).bind fun _ _ _ _ _ _ => (getState hp).bind fun v _ _ _ _ _ => ?_
      cases v with
      | none => exact throw
      | some _ =>
        refine (getState hp).bind fun _ _ _ _ _ _ => lift.bind fun v _ _ _ _ _ => ?_
        cases v
        · exact throw
        · exact lift.bind fun _ _ _ _ _ _ => (changeFields hp).bind fun _ _ _ _ _ _ => pure fun _ _ _ _ => trivial

theorem tryPrevious {C : Crypto} {msg : Signal} : ∀ (ps : List Nat) (i : Nat) (found : Option (Nat × Nat × Bytes)) (n m : Nat),
    (∀ p ∈ ps, O.st p ∧ p < m) → (∀ x, found = some x → O.st x.2.1 ∧ x.2.1 < m) →
    O.Pair a n m (zTryPrevious C msg ps i found) (zTryPrevious C msg ps i found) (fun v _ m' => ∀ x, v = some x → O.st x.2.1 ∧ x.2.1 < m') := by
  intro ps
  induction ps with
  | nil => exact fun i found n m _ hf => pure fun _ m' _ h2 x hx => ⟨(hf x hx).1, Nat.lt_of_lt_of_le (hf x hx).2 h2⟩
  | cons p ps ih =>
    intro i found n m hps hf
    have hp := hps p (List.mem_cons_self ..)
    refine (decryptMessageSession hp.1).attempt.bind fun o n1 m1 h1 h2 _ => ?_
    have hps1 : ∀ q ∈ ps, O.st q ∧ q < m1 := fun q hq => ⟨(hps q (List.mem_cons_of_mem _ hq)).1, Nat.lt_of_lt_of_le (hps q (List.mem_cons_of_mem _ hq)).2 h2⟩
    have hf1 : ∀ x, found = some x → O.st x.2.1 ∧ x.2.1 < m1 := fun x hx => ⟨(hf x hx).1, Nat.lt_of_lt_of_le (hf x hx).2 h2⟩
    cases o with
    | ok pt => exact ih _ _ n1 m1 hps1 fun x hx => by cases hx; exact ⟨hp.1, Nat.lt_of_lt_of_le hp.2 h2⟩
    | error e => cases e <;> first | exact throw | exact ih _ _ n1 m1 hps1 hf1

theorem decryptPrevious {C : Crypto} {r : Nat} {msg : Signal} (ho : O.rc r) (hlt : r < n) :
    O.Pair a n m (zDecryptPrevious C r msg) (zDecryptPrevious C r msg) (fun _ _ _ => True) := by
  refine (getRecord ho hlt).bind fun l n1 m1 g1 _ _ => (allocStates l n1 m1).bind fun ps n2 m2 g2 _ hps => (tryPrevious ps 0 none n2 m2 hps fun _ hx => by cases hx).bind
    fun v n3 m3 g3 _ hv => ?_
  rcases v with _ | ⟨idx, p, pt⟩
  · exact throw
  · exact (promoteOldState ho (by omega) (hv _ rfl).1 (hv _ rfl).2).bind fun _ _ _ _ _ _ => pure fun _ _ _ _ => trivial

theorem decryptRecord {C : Crypto} {r : Nat} {msg : Signal} (ho : O.rc r) (hlt : r < n) :
    O.Pair a n m (zDecryptRecord C r msg) (zDecryptRecord C r msg) (fun _ _ _ => True) := by
  refine (readRecord ho hlt).bind fun c n1 m1 g1 _ hc => ?_
  cases hcc : c.current with
  | none => exact decryptPrevious ho (by omega)
  | some p =>
    refine (clone (hc p hcc).1).bind fun q n2 m2 g2 _ hq => (decryptMessageSession hq.1).attempt.bind fun o n3 m3 g3 f3 _ => ?_
    cases o with
    | ok pt => exact (setSessionState ho (by omega) hq.1 (by omega)).bind fun _ _ _ _ _ _ => pure fun _ _ _ _ => trivial
    | error e => cases e <;> first | exact throw | exact decryptPrevious ho (by omega)

theorem encryptMessage (E : HEnv) {pt : Bytes} : O.Pair a n m (zEncryptMessage E a pt) (zEncryptMessage E a pt) (fun _ _ _ => True) := by
  refine (loadSession E).bind fun v n1 m1 _ _ hv => ?_
  cases v with
  | none => exact throw
  | some r =>
    obtain ⟨ho, hlt⟩ := hv r rfl
    refine (readRecord ho hlt).bind fun c n2 m2 g2 _ hc => ?_
    cases hcc : c.current with
    | none => exact throw
    | some p =>
      have hp := (hc p hcc).1
      refine (getState hp).bind fun x n3 m3 g3 _ _ => ?_
      obtain ⟨msg, next, k⟩ := x
      refine (changeFields hp).bind fun _ n4 m4 g4 _ _ => rest.bind fun t n5 m5 g5 _ _ => ?_
      cases t
      · exact throw
      · exact rest.bind fun _ n6 m6 g6 _ _ => (storeSession E ho (by omega)).bind fun _ _ _ _ _ _ => pure fun _ _ _ _ => trivial

theorem processPreKeyV3 (E : HEnv) {r : Nat} {msg : PreKeyMsg} (ho : O.rc r) (hlt : r < n) :
    O.Pair a n m (zProcessPreKeyV3 E r msg) (zProcessPreKeyV3 E r msg) (fun _ _ _ => True) := by
  refine (getRecord ho hlt).bind fun found n1 m1 g1 _ _ => ?_
  cases found with
  | true => exact pure fun _ _ _ _ => trivial
  | false =>
    refine rest.bind fun sp n2 m2 g2 _ _ => ?_
    have tail : ∀ (pid : Option UInt32) (op : Option KeyPair) n' m', n2 ≤ n' → O.Pair a n' m' (do
        let h ← M.get
        let s ← M.lift (orPanic (initializeBobSession E.C
          { ourIdentityKeyPair := h.rest.identity, ourSignedPreKeyPair := sp,
            ourOneTimePreKeyPair := op, ourRatchetKeyPair := sp,
            theirIdentityKey := msg.identityKey, theirBaseKey := msg.baseKey }))
        let p ← zAllocState s
        zChangeFields p fun s => { s with localRegistrationId := h.rest.regId }
        zChangeFields p fun s => { s with remoteRegistrationId := msg.registrationID }
        zChangeFields p fun s => { s with aliceBaseKey := msg.baseKey.bytes }
        zPromoteState r p
        return pid) (do
        let h ← M.get
        let s ← M.lift (orPanic (initializeBobSession E.C
          { ourIdentityKeyPair := h.rest.identity, ourSignedPreKeyPair := sp,
            ourOneTimePreKeyPair := op, ourRatchetKeyPair := sp,
            theirIdentityKey := msg.identityKey, theirBaseKey := msg.baseKey }))
        let p ← zAllocState s
        zChangeFields p fun s => { s with localRegistrationId := h.rest.regId }
        zChangeFields p fun s => { s with remoteRegistrationId := msg.registrationID }
        zChangeFields p fun s => { s with aliceBaseKey := msg.baseKey.bytes }
        zPromoteState r p
        return pid) (fun _ _ _ => True) := by
      intro pid op n' m' hn'
      refine get fun h h' hr => ?_
      rw [hr.rest]
      exact lift.bind fun s n3 m3 _ _ _ => allocState.bind fun p n4 m4 _ _ hp => (changeFields hp.1).bind fun _ n5 m5 _ _ _ => (changeFields hp.1).bind fun _ n6 m6 _ _ _ =>
        (changeFields hp.1).bind fun _ n7 m7 _ _ _ => (promoteState ho (by omega) hp.1 (by omega)).bind fun _ _ _ _ _ _ => pure fun _ _ _ _ => trivial
    cases msg.preKeyID with
    | none => exact tail none none n2 m2 (Nat.le_refl _)
    | some id => exact rest.bind fun op n' m' hn' _ _ => tail (some id) op n' m' hn'

theorem processPreKey (E : HEnv) {r : Nat} {msg : PreKeyMsg} (ho : O.rc r) (hlt : r < n) :
    O.Pair a n m (zProcessPreKey E a r msg) (zProcessPreKey E a r msg) (fun _ _ _ => True) := by
  refine rest.bind fun t n1 m1 g1 _ _ => ?_
  cases t
  · exact throw
  · exact (processPreKeyV3 E ho (by omega)).bind fun _ _ _ _ _ _ => rest.bind fun _ _ _ _ _ _ => pure fun _ _ _ _ => trivial

theorem loadOrNew (E : HEnv) : O.Pair a n m (zLoadOrNew E a) (zLoadOrNew E a) (fun r n' _ => O.rc r ∧ r < n') := by
  refine (loadSession E).bind fun v n1 m1 _ _ hv => ?_
  cases v with
  | none => exact newRecord
  | some r => exact pure fun n' _ h1 _ => ⟨(hv r rfl).1, Nat.lt_of_lt_of_le (hv r rfl).2 h1⟩

theorem decryptPreKey (E : HEnv) {msg : PreKeyMsg} : O.Pair a n m (zDecryptPreKey E a msg) (zDecryptPreKey E a msg) (fun _ _ _ => True) := by
  refine (loadOrNew E).bind fun r n1 m1 _ _ hr => (processPreKey E hr.1 hr.2).bind fun id n2 m2 _ _ _ => (decryptRecord hr.1 (by omega)).bind fun pt n3 m3 _ _ _ =>
    (storeSession E hr.1 (by omega)).bind fun _ n4 m4 _ _ _ => ?_
  cases id with
  | none => exact pure fun _ _ _ _ => trivial
  | some id => exact rest.bind fun _ _ _ _ _ _ => pure fun _ _ _ _ => trivial

theorem decryptSignal (E : HEnv) {msg : Signal} : O.Pair a n m (zDecryptSignal E a msg) (zDecryptSignal E a msg) (fun _ _ _ => True) := by
  refine (loadSession E).bind fun v n1 m1 _ _ hv => ?_
  cases v with
  | none => exact throw
  | some r =>
    obtain ⟨ho, hlt⟩ := hv r rfl
    refine (decryptRecord ho hlt).attempt.bind fun o n2 m2 g2 _ _ => (readRecord ho (by omega)).bind fun c n3 m3 g3 _ hc => ?_
    cases hcc : c.current with
    | none => exact throw
    | some p =>
      refine (readState (hc p hcc).1).bind fun s n4 m4 g4 _ _ => ?_
      cases s.remoteIdentityKey with
      | err e => exact throw
      | panic => exact panic
      | ok k =>
        cases k with
        | none => exact throw
        | some k =>
          refine rest.bind fun t n5 m5 g5 _ _ => ?_
          cases t
          · exact throw
          · exact rest.bind fun _ n6 m6 g6 _ _ => (storeSession E ho (by omega)).bind fun _ _ _ _ _ _ => pure fun _ _ _ _ => trivial

theorem decryptMessage (E : HEnv) {c : Ciphertext} : O.Pair a n m (zDecryptMessage E a c) (zDecryptMessage E a c) (fun _ _ _ => True) := by
  cases c with
  | preKey msg => exact (decryptPreKey E).bind fun _ _ _ _ _ _ => pure fun _ _ _ _ => trivial
  | signal msg => exact decryptSignal E
  | _ => exact throw

theorem processPreKeyBundle (E : HEnv) {b : Bundle} : O.Pair a n m (zProcessPreKeyBundle E a b) (zProcessPreKeyBundle E a b) (fun _ _ _ => True) := by
  refine rest.bind fun t n1 m1 _ _ _ => ?_
  cases t
  · exact throw
  · refine lift.bind fun ok n2 m2 _ _ _ => ?_
    cases ok
    · exact throw
    · refine (loadOrNew E).bind fun r n3 m3 _ _ hr => rest.bind fun kp n4 m4 _ _ _ => get fun h h' hrel => ?_
      rw [hrel.rest]
      exact rest.bind fun s n5 m5 _ _ _ => allocState.bind fun p n6 m6 _ _ hp => (changeFields hp.1).bind fun _ n7 m7 _ _ _ => (changeFields hp.1).bind fun _ n8 m8 _ _ _ =>
        (changeFields hp.1).bind fun _ n9 m9 _ _ _ => (changeFields hp.1).bind fun _ n10 m10 _ _ _ => rest.bind fun _ n11 m11 _ _ _ =>
        (promoteState hr.1 (by omega) hp.1 (by omega)).bind fun _ n12 m12 _ _ _ => storeSession E hr.1 (by omega)

end Pair

/-- Two runs of one call about the peer. -/
theorem call (E : HEnv) (c : Call) (hc : c.op.address = some a) {h h' : ZWorld} (hr : O.Rel a h h') :
    (c.sliceRun E h').1 = (c.sliceRun E h).1 ∧ O.Rel a (c.sliceRun E h).2 (c.sliceRun E h').2 ∧ O.Kept a h (c.sliceRun E h).2 ∧ O.Kept a h' (c.sliceRun E h').2 := by
  have hr1 := hr.setRest { h.rest with rand := c.rand, faults := c.faults }
  have key : ∀ {α} {x : M ZWorld α} (f : α → Out), O.Pair a 0 0 x x (fun _ _ _ => True) →
      Out.of f (x { h' with rest := { h.rest with rand := c.rand, faults := c.faults } }).1 = Out.of f (x { h with rest := { h.rest with rand := c.rand, faults := c.faults } }).1 ∧
      O.Rel a (x { h with rest := { h.rest with rand := c.rand, faults := c.faults } }).2 (x { h' with rest := { h.rest with rand := c.rand, faults := c.faults } }).2 ∧
      O.Kept a h (x { h with rest := { h.rest with rand := c.rand, faults := c.faults } }).2 ∧
      O.Kept a h' (x { h' with rest := { h.rest with rand := c.rand, faults := c.faults } }).2 := by
    intro α x f hp
    obtain ⟨e, r1, k1, k2, -⟩ := hp _ _ hr1 (Nat.zero_le _) (Nat.zero_le _)
    exact ⟨by rw [e], r1, .setRest _ k1, .setRest _ k2⟩
  obtain ⟨op, rand, faults⟩ := c
  unfold Call.sliceRun
  rw [hr.rest]
  cases op with
  | encrypt b pt => cases hc; exact key _ (Pair.encryptMessage E)
  | decrypt b ct => cases hc; exact key _ (Pair.decryptMessage E)
  | bundle b bd => cases hc; exact key _ (Pair.processPreKeyBundle E)
  | addPreKey id k => cases hc
  | addSignedPreKey id k => cases hc

end Own

end Verif
