import Verif.Proofs.HeapRecord

/-!
The session API on pointers agrees with the session API on values.
-/

namespace Verif

/-- Every record object has its own state, and the store has one object per address. -/
structure HWorld.Sound (h : HWorld) : Prop where
  stored : ∀ a i, h.store a = some i → i < h.nextRecord
  valid : ∀ i < h.nextRecord, h.Valid i
  apart : ∀ i < h.nextRecord, ∀ j < h.nextRecord, ∀ p, (h.records i).current = some p → (h.records j).current = some p → i = j
  single : ∀ a b i, h.store a = some i → h.store b = some i → a = b

/-- What a call about `a`, started at `h0`, has kept. -/
structure Keep (aliased : Bool) (a : Address) (h0 h : HWorld) : Prop where
  sound : h.Sound
  nextRecord : h0.nextRecord ≤ h.nextRecord
  others : ∀ b, b ≠ a → h.store b = h0.store b
  views : ∀ i < h0.nextRecord, (aliased = true → h0.store a ≠ some i) → h.view i = h0.view i

theorem Keep.start {aliased : Bool} {a : Address} {h : HWorld} (hs : h.Sound) : Keep aliased a h h := ⟨hs, Nat.le_refl _, fun _ _ => rfl, fun _ _ _ => rfl⟩

/-- From `h`, `x` on pointers and `y` on values do the same. -/
def HSim {α β} (aliased : Bool) (a : Address) (h0 h : HWorld) (x : M HWorld α) (y : M World β) (Q : α → β → HWorld → Prop) : Prop :=
  (y h.values).2 = (x h).2.values ∧ Keep aliased a h0 (x h).2 ∧
    match (x h).1, (y h.values).1 with
    | .ok u, .ok v => Q u v (x h).2
    | .err e, .err e' => e = e'
    | .panic, .panic => True
    | _, _ => False

section
variable {aliased : Bool} {a : Address} {h0 : HWorld}

theorem HSim.pure {α β} {h : HWorld} {u : α} {v : β} {Q : α → β → HWorld → Prop} (hk : Keep aliased a h0 h) (hq : Q u v h) :
    HSim aliased a h0 h (Pure.pure u) (Pure.pure v) Q := ⟨rfl, hk, hq⟩

theorem HSim.throw {α β} {h : HWorld} {e : Err} {Q : α → β → HWorld → Prop} (hk : Keep aliased a h0 h) : HSim aliased a h0 h (M.throw e) (M.throw e) Q := ⟨rfl, hk, rfl⟩

theorem HSim.panic {α β} {h : HWorld} {Q : α → β → HWorld → Prop} (hk : Keep aliased a h0 h) : HSim aliased a h0 h M.panic M.panic Q := ⟨rfl, hk, trivial⟩

theorem HSim.bind {α β γ δ} {h : HWorld} {x : M HWorld α} {y : M World β} {Q : α → β → HWorld → Prop} {f : α → M HWorld γ} {g : β → M World δ} {R : γ → δ → HWorld → Prop}
    (hx : HSim aliased a h0 h x y Q) (hf : ∀ u v h', Keep aliased a h0 h' → Q u v h' → HSim aliased a h0 h' (f u) (g v) R) : HSim aliased a h0 h (x >>= f) (y >>= g) R := by
  unfold HSim at hx
  unfold HSim
  rw [M.bind_run, M.bind_run]
  rcases hxe : x h with ⟨r, h'⟩
  rcases hye : y h.values with ⟨r', w'⟩
  rw [hxe, hye] at hx
  obtain ⟨e1, e2, e3⟩ := hx
  simp only at e1 e2 e3
  subst e1
  cases r with
  | ok u =>
    cases r' with
    | ok v => exact hf u v h' e2 e3
    | err e => exact e3.elim
    | panic => exact e3.elim
  | err e =>
    cases r' with
    | ok v => exact e3.elim
    | err e' => exact ⟨rfl, e2, e3⟩
    | panic => exact e3.elim
  | panic =>
    cases r' with
    | ok v => exact e3.elim
    | err e => exact e3.elim
    | panic => exact ⟨rfl, e2, trivial⟩

theorem HSim.lift {α γ δ} {h : HWorld} {r : Res α} {f : α → M HWorld γ} {g : α → M World δ} {R : γ → δ → HWorld → Prop} (hk : Keep aliased a h0 h)
    (hf : ∀ u, r = .ok u → HSim aliased a h0 h (f u) (g u) R) : HSim aliased a h0 h (M.lift r >>= f) (M.lift r >>= g) R := by
  cases r with
  | ok u => exact hf u rfl
  | err e => exact .throw hk
  | panic => exact .panic hk

/-! ## Code that does not look at sessions -/

/-- The sessions are neither read nor written. -/
def Oblivious {α} (y : M World α) : Prop := ∀ w s, y { w with sessions := s } = ((y w).1, { (y w).2 with sessions := s })

theorem Oblivious.storeCall {α} {act : World → α × World} (h : ∀ w s, act { w with sessions := s } = ((act w).1, { (act w).2 with sessions := s })) : Oblivious (storeCall act) := by
  intro w s
  unfold Verif.storeCall
  cases hf : w.faults with
  | nil =>
    have := h w s
    simp only [hf] at this
    simp only
    rw [this]
  | cons f fs =>
    cases f <;> simp only
    · have := h { w with faults := fs } s
      simp only at this
      rw [this]
    · have := h { w with faults := fs } s
      simp only at this
      rw [this]

theorem Oblivious.bind {α β} {y : M World α} {g : α → M World β} (hy : Oblivious y) (hg : ∀ u, Oblivious (g u)) : Oblivious (y >>= g) := by
  intro w s
  rw [M.bind_run, M.bind_run, hy w s]
  rcases y w with ⟨r, w'⟩
  cases r with
  | ok u => exact hg u w' s
  | err e => rfl
  | panic => rfl

theorem oblivious_isTrusted (E : Env) (b : Address) (k : PubKey) (d : Direction) : Oblivious (isTrusted E b k d) := .storeCall fun _ _ => rfl
theorem oblivious_storeIdentity (b : Address) (k : PubKey) : Oblivious (storeIdentity b k) := .storeCall fun _ _ => rfl
theorem oblivious_deletePreKey (id : UInt32) : Oblivious (deletePreKey id) := .storeCall fun _ _ => rfl
theorem oblivious_withRand {α} (z : M Bytes α) : Oblivious (withRand z) := fun _ _ => rfl
theorem oblivious_optKeyPair (o : Option PreKeyRec) : Oblivious (optKeyPair o) := by
  cases o with
  | none => exact fun _ _ => rfl
  | some p =>
    intro w s
    unfold optKeyPair
    simp only
    rw [M.bind_run, M.bind_run, M.lift_run, M.lift_run]
    cases p.keyPair <;> rfl
theorem oblivious_loadPreKey (id : UInt32) : Oblivious (loadPreKey id >>= optKeyPair) := .bind (.storeCall fun _ _ => rfl) oblivious_optKeyPair
theorem oblivious_loadSignedPreKey (id : UInt32) : Oblivious (loadSignedPreKey id >>= optKeyPair) := .bind (.storeCall fun _ _ => rfl) oblivious_optKeyPair

/-- Only what is not about sessions has changed. -/
def HWorld.Same (h h' : HWorld) : Prop := ∃ w, h' = { h with rest := w }

theorem HWorld.Same.sound {h h' : HWorld} (he : h.Same h') (hs : h.Sound) : h'.Sound := by
  obtain ⟨w, rfl⟩ := he
  exact ⟨hs.stored, hs.valid, hs.apart, hs.single⟩

theorem Keep.same {h h' : HWorld} (hk : Keep aliased a h0 h) (he : h.Same h') : Keep aliased a h0 h' := by
  have := he.sound hk.sound
  obtain ⟨w, rfl⟩ := he
  exact ⟨this, hk.nextRecord, hk.others, hk.views⟩

theorem HSim.rest {α γ δ} {h : HWorld} {y : M World α} {f : α → M HWorld γ} {g : α → M World δ} {R : γ → δ → HWorld → Prop} (hy : Oblivious y) (hk : Keep aliased a h0 h)
    (hf : ∀ u h', h.Same h' → HSim aliased a h0 h' (f u) (g u) R) : HSim aliased a h0 h (hRest y >>= f) (y >>= g) R := by
  unfold HSim
  rw [M.bind_run, M.bind_run]
  have h1 : hRest y h = ((y h.rest).1, { h with rest := (y h.rest).2 }) := rfl
  have h2 : y h.values = ((y h.rest).1, { (y h.rest).2 with sessions := h.values.sessions }) := hy h.rest h.values.sessions
  rw [h1, h2]
  have hs : h.Same { h with rest := (y h.rest).2 } := ⟨_, rfl⟩
  cases hr : (y h.rest).1 with
  | ok u => exact hf u _ hs
  | err e => exact ⟨rfl, hk.same hs, rfl⟩
  | panic => exact ⟨rfl, hk.same hs, trivial⟩

/-! ## The record the call works on -/

/-- The call about `a` works on the record object `r`, whose value is `rec`. -/
structure Local (aliased : Bool) (a : Address) (h0 : HWorld) (loaded : Bool) (r : Nat) (rec : Record) (h : HWorld) : Prop where
  keep : Keep aliased a h0 h
  lt : r < h.nextRecord
  view : h.view r = rec
  shared : aliased = true → loaded = true → h.store a = some r ∧ h0.store a = some r
  own : ¬ (aliased = true ∧ loaded = true) → (∀ b, h.store b ≠ some r) ∧ h0.nextRecord ≤ r

theorem Local.same {loaded : Bool} {r : Nat} {rec : Record} {h h' : HWorld} (hl : Local aliased a h0 loaded r rec h) (he : h.Same h') : Local aliased a h0 loaded r rec h' := by
  have := hl.keep.same he
  obtain ⟨w, rfl⟩ := he
  exact ⟨this, hl.lt, hl.view, hl.shared, hl.own⟩

theorem Grow.view_other {h h' : HWorld} {r i : Nat} (hs : h.Sound) (hr : r < h.nextRecord) (hi : i < h.nextRecord) (hg : h.Grow r h') (hne : i ≠ r) : h'.view i = h.view i := by
  unfold HWorld.view
  rw [hg.records i hne]
  cases hc : (h.records i).current with
  | none => rfl
  | some p =>
    have := hg.states p (hs.valid i hi p hc) fun hcr => hne (hs.apart i hi r hr p hc hcr)
    simp [this]

theorem Grow.sound {h h' : HWorld} {r : Nat} (hs : h.Sound) (hr : r < h.nextRecord) (hg : h.Grow r h') : h'.Sound where
  stored b i hb := by rw [hg.nextRecord]; exact hs.stored b i (hg.store ▸ hb)
  valid i hi := by
    rw [hg.nextRecord] at hi
    by_cases he : i = r
    · subst he
      exact hg.valid (hs.valid i hi)
    · intro q hq
      rw [hg.records i he] at hq
      exact Nat.lt_of_lt_of_le (hs.valid i hi q hq) hg.nextState
  apart i hi j hj p hp hq := by
    rw [hg.nextRecord] at hi hj
    by_cases hir : i = r
    · by_cases hjr : j = r
      · rw [hir, hjr]
      · rw [hg.records j hjr] at hq
        subst hir
        rcases hg.current with e | ⟨q, e, _, hq1 | hq1⟩
        · exact hs.apart i hi j hj p (e ▸ hp) hq
        · rw [e] at hp
          cases hp
          have := hs.valid j hj _ hq
          omega
        · rw [e] at hp
          cases hp
          exact absurd hq (hq1 j hj hjr)
    · rw [hg.records i hir] at hp
      by_cases hjr : j = r
      · subst hjr
        rcases hg.current with e | ⟨q', e, _, hq1 | hq1⟩
        · exact hs.apart i hi j hj p hp (e ▸ hq)
        · rw [e] at hq
          cases hq
          have := hs.valid i hi _ hp
          omega
        · rw [e] at hq
          cases hq
          exact absurd hp (hq1 i hi hir)
      · rw [hg.records j hjr] at hq
        exact hs.apart i hi j hj p hp hq
  single b c i hb hc := hs.single b c i (hg.store ▸ hb) (hg.store ▸ hc)

/-- Writing to the local record is what `touch` does on values. -/
theorem Local.grow {loaded : Bool} {r : Nat} {rec rec' : Record} {h h' : HWorld} (hl : Local aliased a h0 loaded r rec h) (hg : h.Grow r h') (hv : h'.view r = rec') : Local aliased a h0 loaded r rec' h' := by
  refine ⟨⟨Grow.sound hl.keep.sound hl.lt hg, ?_, ?_, ?_⟩, ?_, hv, ?_, ?_⟩
  · rw [hg.nextRecord]; exact hl.keep.nextRecord
  · intro b hb; rw [hg.store]; exact hl.keep.others b hb
  · intro i hi hst
    rw [← hl.keep.views i hi hst]
    refine Grow.view_other hl.keep.sound hl.lt (Nat.lt_of_lt_of_le hi hl.keep.nextRecord) hg ?_
    rintro rfl
    by_cases hc : aliased = true ∧ loaded = true
    · exact hst hc.1 (hl.shared hc.1 hc.2).2
    · have := (hl.own hc).2
      omega
  · rw [hg.nextRecord]; exact hl.lt
  · rw [hg.store]; exact hl.shared
  · rw [hg.store]; exact hl.own

theorem Local.touched (E : Env) (hE : E.aliased = aliased) {loaded : Bool} {r : Nat} {rec rec' : Record} {h h' : HWorld} (hl : Local aliased a h0 loaded r rec h) (hg : h.Grow r h') (hv : h'.view r = rec') :
    touch E a loaded rec' { h'.rest with sessions := h.values.sessions } = (.ok (), h'.values) := by
  have hother : ∀ b i, h.store b = some i → i ≠ r → h'.view i = h.view i := fun b i hb hne =>
    Grow.view_other hl.keep.sound hl.lt (hl.keep.sound.stored b i hb) hg hne
  unfold touch
  rw [hE]
  by_cases hc : aliased = true ∧ loaded = true
  · have hst := (hl.shared hc.1 hc.2).1
    simp only [hc.1, hc.2, Bool.and_self, if_true]
    have : upd h.values.sessions a (some rec') = h'.values.sessions := by
      funext b
      unfold upd HWorld.values
      simp only [hg.store]
      by_cases hb : b = a
      · subst hb
        simp [hst, hv]
      · rw [if_neg hb]
        cases hsb : h.store b with
        | none => rfl
        | some i =>
          have : i ≠ r := fun he => hb (hl.keep.sound.single b a i hsb (he ▸ hst))
          simp [hother b i hsb this]
    rw [this]
    rfl
  · have hno := (hl.own hc).1
    have hb : (aliased && loaded) = false := by
      cases aliased <;> cases loaded <;> simp_all
    rw [hb]
    have : h.values.sessions = h'.values.sessions := by
      funext b
      unfold HWorld.values
      simp only [hg.store]
      cases hsb : h.store b with
      | none => rfl
      | some i => simp [hother b i hsb fun he => hno b (he ▸ hsb)]
    rw [this]
    rfl

/-! ## Loading and storing -/

/-- A copy of a record is a new record object with a new state. -/
theorem copyRecord_run {h : HWorld} (hs : h.Sound) {r : Nat} (_hr : r < h.nextRecord) : ∃ h', copyRecord r h = (.ok h.nextRecord, h') ∧ h'.Sound ∧ h'.rest = h.rest ∧ h'.store = h.store ∧
    h'.nextRecord = h.nextRecord + 1 ∧ h'.view h.nextRecord = h.view r ∧ ∀ i < h.nextRecord, h'.view i = h.view i := by
  unfold copyRecord
  rw [M.bind_ok_run (show readRecord r h = (.ok (h.records r), h) from rfl)]
  cases hc : (h.records r).current with
  | none =>
    refine ⟨_, rfl, ⟨?_, ?_, ?_, ?_⟩, rfl, rfl, rfl, ?_, ?_⟩
    · exact fun b i hb => Nat.lt_succ_of_lt (hs.stored b i hb)
    · intro i hi q hq
      simp only [upd] at hq
      split at hq
      · rw [hc] at hq; cases hq
      · exact hs.valid i (by simp at hi; omega) q hq
    · intro i hi j hj p hp hq
      simp only [upd] at hp hq
      split at hp
      · rw [hc] at hp; cases hp
      · split at hq
        · rw [hc] at hq; cases hq
        · exact hs.apart i (by simp at hi; omega) j (by simp at hj; omega) p hp hq
    · exact hs.single
    · simp [HWorld.view]
    · intro i hi
      simp [HWorld.view, upd_ne _ _ (show i ≠ h.nextRecord by omega)]
  | some p =>
    simp only
    rw [M.bind_ok_run (show hClone p h = (.ok h.nextState, { h with states := upd h.states h.nextState (h.states p), nextState := h.nextState + 1 }) from rfl)]
    refine ⟨_, rfl, ⟨?_, ?_, ?_, ?_⟩, rfl, rfl, rfl, ?_, ?_⟩
    · exact fun b i hb => Nat.lt_succ_of_lt (hs.stored b i hb)
    · intro i hi q hq
      simp only [upd] at hq
      simp only at hi
      split at hq
      · simp only [Option.some.injEq] at hq
        simp only
        omega
      · have := hs.valid i (by omega) q hq
        simp only
        omega
    · intro i hi j hj q hp hq
      simp only [upd] at hp hq
      simp only at hi hj
      split at hp
      · split at hq
        · simp_all
        · simp only [Option.some.injEq] at hp
          have := hs.valid j (by omega) q hq
          omega
      · split at hq
        · simp only [Option.some.injEq] at hq
          have := hs.valid i (by omega) q hp
          omega
        · exact hs.apart i (by omega) j (by omega) q hp hq
    · exact hs.single
    · simp [HWorld.view, hc]
    · intro i hi
      simp only [HWorld.view, upd_ne _ _ (show i ≠ h.nextRecord by omega)]
      cases hci : (h.records i).current with
      | none => rfl
      | some q =>
        have := hs.valid i hi q hci
        simp [upd_ne h.states (h.states p) (show q ≠ h.nextState by omega)]

theorem values_same {h h' : HWorld} (hs : h.Sound) (hr : h'.rest = h.rest) (hst : h'.store = h.store) (hv : ∀ i < h.nextRecord, h'.view i = h.view i) : h'.values = h.values := by
  unfold HWorld.values
  rw [hr, hst]
  have : (fun b => (h.store b).map h'.view) = fun b => (h.store b).map h.view := by
    funext b
    cases hb : h.store b with
    | none => rfl
    | some i => simp [hv i (hs.stored b i hb)]
  rw [this]

/-- `hStoreCall` against `storeCall`, for code that cannot fail itself. -/
theorem HSim.storeCall {α β} {h : HWorld} {x : M HWorld α} {y : World → β × World} {Q : α → β → HWorld → Prop} (hk : Keep aliased a h0 h)
    (hx : ∀ h', h.Same h' → ∃ u h'', x h' = (.ok u, h'') ∧ (y h'.values).2 = h''.values ∧ Keep aliased a h0 h'' ∧ Q u (y h'.values).1 h'') :
    HSim aliased a h0 h (hStoreCall x) (Verif.storeCall y) Q := by
  unfold HSim hStoreCall Verif.storeCall
  have hf : h.values.faults = h.rest.faults := rfl
  rw [hf]
  cases hfs : h.rest.faults with
  | nil =>
    obtain ⟨u, h'', e1, e2, e3, e4⟩ := hx h ⟨h.rest, rfl⟩
    simp only [e1]
    exact ⟨e2, e3, e4⟩
  | cons f fs =>
    have hsame : h.Same { h with rest := { h.rest with faults := fs } } := ⟨_, rfl⟩
    obtain ⟨u, h'', e1, e2, e3, e4⟩ := hx _ hsame
    cases f with
    | none =>
      simp only [e1]
      exact ⟨e2, e3, e4⟩
    | before => exact ⟨rfl, hk.same hsame, rfl⟩
    | after =>
      simp only [e1]
      exact ⟨e2, e3, trivial⟩

/-- What `Load` returned. -/
def Loaded (aliased : Bool) (a : Address) (h0 : HWorld) : Option Nat → Option Record → HWorld → Prop
  | none, none, _ => True
  | some r, some rec, h => Local aliased a h0 true r rec h
  | _, _, _ => False

theorem loadSession_hsim (E : HEnv) (hE : E.aliased = aliased) {h : HWorld} (hk : Keep aliased a h0 h) (hst : h.store a = h0.store a) :
    HSim aliased a h0 h (hLoadSession E a) (loadSession a) (Loaded aliased a h0) := by
  unfold hLoadSession loadSession
  refine .storeCall hk fun h' hs => ?_
  have hk' := hk.same hs
  have hst' : h'.store a = h0.store a := by obtain ⟨w, rfl⟩ := hs; exact hst
  rw [M.bind_ok_run (show (M.get : M HWorld HWorld) h' = (.ok h', h') from rfl)]
  have hval : h'.values.sessions a = (h'.store a).map h'.view := rfl
  simp only [hval]
  cases hc : h'.store a with
  | none => exact ⟨none, h', rfl, rfl, hk', trivial⟩
  | some r =>
    have hr := hk'.sound.stored a r hc
    simp only [hE]
    cases hal : aliased with
    | true =>
      refine ⟨some r, h', rfl, rfl, hal ▸ hk', ?_⟩
      exact ⟨hal ▸ hk', hr, rfl, fun _ _ => ⟨hc, hst' ▸ hc⟩, fun hn => absurd ⟨rfl, rfl⟩ hn⟩
    | false =>
      obtain ⟨h2, e1, e2, e3, e4, e5, e6, e7⟩ := copyRecord_run hk'.sound hr
      have hk2 : Keep false a h0 h2 := ⟨e2, by have := hk'.nextRecord; omega, fun b hb => by rw [e4]; exact hk'.others b hb, fun i hi hn => by
        rw [e7 i (Nat.lt_of_lt_of_le hi hk'.nextRecord)]
        exact hk'.views i hi (by simp [hal])⟩
      refine ⟨some h'.nextRecord, h2, ?_, ?_, hk2, ?_⟩
      · simp only [Bool.false_eq_true, if_false]
        rw [M.bind_ok_run e1]
        rfl
      · exact (values_same hk'.sound e3 e4 e7).symm
      · refine ⟨hk2, by omega, e6, fun hn => by simp at hn, fun _ => ⟨fun b hb => ?_, hk'.nextRecord⟩⟩
        rw [e4] at hb
        have := hk'.sound.stored b _ hb
        omega

theorem storeSession_hsim (E : HEnv) {loaded : Bool} {r : Nat} {rec : Record} {h : HWorld} (hl : Local aliased a h0 loaded r rec h) :
    HSim aliased a h0 h (hStoreSession E a r) (storeSession a rec) (fun _ _ _ => True) := by
  unfold hStoreSession storeSession
  refine .storeCall hl.keep fun h' hs => ?_
  have hl' := hl.same hs
  have hk' := hl'.keep
  by_cases hcp : E.copies = true
  · obtain ⟨h2, e1, e2, e3, e4, e5, e6, e7⟩ := copyRecord_run hk'.sound hl'.lt
    simp only [hcp, if_true]
    rw [M.bind_ok_run e1]
    refine ⟨(), _, rfl, ?_, ⟨⟨?_, e2.valid, e2.apart, ?_⟩, ?_, ?_, ?_⟩, trivial⟩
    · rw [← values_same hk'.sound e3 e4 e7]
      unfold HWorld.values
      simp only
      congr 1
      funext b
      by_cases hb : b = a
      · subst hb; simp [← hl'.view, ← e6]; rfl
      · rw [upd_ne _ _ hb, upd_ne _ _ hb]; rfl
    · intro b i hb
      simp only [upd] at hb
      split at hb
      · simp only [Option.some.injEq] at hb
        simp only
        omega
      · exact e2.stored b i hb
    · have : ∀ b, h2.store b ≠ some h'.nextRecord := fun b hb => by
        rw [e4] at hb
        have := hk'.sound.stored b _ hb
        omega
      intro b c i hb hc
      simp only [upd] at hb hc
      split at hb
      · split at hc
        · simp_all
        · cases hb; exact absurd hc (this c)
      · split at hc
        · cases hc; exact absurd hb (this b)
        · exact e2.single b c i hb hc
    · have := hk'.nextRecord
      simp only
      omega
    · intro b hb
      simp only [upd_ne _ _ hb, e4]
      exact hk'.others b hb
    · intro i hi hn
      exact (e7 i (Nat.lt_of_lt_of_le hi hk'.nextRecord)).trans (hk'.views i hi hn)
  · simp only [hcp, Bool.false_eq_true, if_false]
    refine ⟨(), _, rfl, ?_, ⟨⟨?_, hk'.sound.valid, hk'.sound.apart, ?_⟩, hk'.nextRecord, ?_, hk'.views⟩, trivial⟩
    · unfold HWorld.values
      simp only
      congr 1
      funext b
      by_cases hb : b = a
      · subst hb; simp [← hl'.view]; rfl
      · rw [upd_ne _ _ hb, upd_ne _ _ hb]; rfl
    · intro b i hb
      simp only [upd] at hb
      split at hb
      · simp only [Option.some.injEq] at hb
        have := hl'.lt
        simp only
        omega
      · exact hk'.sound.stored b i hb
    · have hno : ∀ b, b ≠ a → h'.store b ≠ some r := by
        intro b hb hsb
        by_cases hc : aliased = true ∧ loaded = true
        · exact hb (hk'.sound.single b a r hsb (hl'.shared hc.1 hc.2).1)
        · exact (hl'.own hc).1 b hsb
      intro b c i hb hc
      simp only [upd] at hb hc
      split at hb
      · split at hc
        · simp_all
        · cases hb; exact absurd hc (hno c (by assumption))
      · split at hc
        · cases hc; exact absurd hb (hno b (by assumption))
        · exact hk'.sound.single b c i hb hc
    · intro b hb
      simp only [upd_ne _ _ hb]
      exact hk'.others b hb

end

end Verif
