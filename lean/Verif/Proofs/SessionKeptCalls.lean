import Verif.Proofs.SessionKept

/-!
What stays hidden over histories: the calls.
-/

namespace Verif

variable {E : HEnv} {w : Option Nat} {h : ZWorld}

/-! ## Which keys a record has -/

theorem Record.KeepsKeyFor.of_archive {r : Record} {m : Signal} (h : r.WF) (hk : r.archiveCurrentState.KeepsKeyFor m) : r.KeepsKeyFor m := by
  unfold Record.archiveCurrentState at hk
  cases hc : r.current with
  | none => rw [hc] at hk; exact hk
  | some s =>
    rw [hc] at hk
    simp only at hk
    rcases hk with hk | ⟨b, hb, t, ht, hkt⟩
    · exact .inl (by simpa [hc] using hk)
    · have hb : b ∈ r.previous ∨ b = s.marshal := by
        have hb : b ∈ (if r.previous.length ≥ maxArchivedStates then r.previous.drop 1 else r.previous) ++ [s.marshal] := hb
        rcases List.mem_append.mp hb with hb | hb
        · left
          split at hb
          · exact List.mem_of_mem_drop hb
          · exact hb
        · exact .inr (List.mem_singleton.mp hb)
      rcases hb with hb | hb
      · exact .inr ⟨b, hb, t, ht, hkt⟩
      · subst hb
        rw [(h.current s hc).round_trip] at ht
        cases ht
        exact .inl ⟨s, hc, hkt⟩

theorem Record.KeepsKeyFor.of_promote {r : Record} {s : SState} {m : Signal} (h : r.WF) (hs : ¬s.KeepsKeyFor m) (hk : (r.promoteState s).KeepsKeyFor m) : r.KeepsKeyFor m := by
  refine .of_archive h ?_
  rcases hk with ⟨t, ht, hkt⟩ | hk
  · have : s = t := by
      have ht : some s = some t := ht
      exact Option.some.inj ht
    subst this
    exact absurd hkt hs
  · exact .inr hk

/-! ## Decryption -/

/-- A state that is only used by this call, before. -/
structure Ready (m : Signal) (nk : Prop) (p : Nat) (h : ZWorld) : Prop where
  free : h.Free p
  clean : (h.states p).KeysClean
  wf : (h.states p).value.WF
  keeps : nk → ¬(h.states p).value.KeepsKeyFor m

/-- A state that is only used by this call, after. -/
structure Used (nk : Prop) (p : Nat) (h : ZWorld) : Prop where
  free : h.Free p
  wf : (h.states p).value.WF
  few : (h.states p).hiddenKeys.length ≤ 1
  clean : nk → (h.states p).KeysClean

theorem Ready.decrypt {m : Signal} {nk : Prop} {p : Nat} (hr : Ready m nk p h) (hi : ZInv E w h) (C : Crypto) :
    ZKeeps E w h (zDecryptMessageSession C p m) (fun _ h' => OnlyAt p h h' ∧ Used nk p h') := by
  obtain ⟨e1, e2, e3⟩ := decryptMessageSession_hidden C p m h hi.ok
  refine ⟨hi.only hr.free e2 e1, fun v hv => ?_⟩
  obtain ⟨f1, f2, f3⟩ := e3 hr.clean hr.wf v hv
  exact ⟨e2, e2.free hr.free, f1, f2, fun hn => f3 (hr.keeps hn)⟩

theorem Ready.attempt {m : Signal} {nk : Prop} {p : Nat} (hr : Ready m nk p h) (hi : ZInv E w h) (C : Crypto) :
    ZKeeps E w h (M.attempt (zDecryptMessageSession C p m)) (fun o h' => OnlyAt p h h' ∧ ∀ v, o = .ok v → Used nk p h') := by
  have hd := (hr.decrypt hi C).attempt
  refine ⟨hd.1, fun o ho => ⟨?_, fun v hv => (hd.2 o ho v hv).2⟩⟩
  rw [M.attempt_run]
  exact (decryptMessageSession_hidden C p m h hi.ok).2.1

theorem OnlyAt.ready {h h' : ZWorld} {m : Signal} {nk : Prop} {p q : Nat} (ho : OnlyAt p h h') (hq : q ≠ p) (hr : Ready m nk q h) : Ready m nk q h' :=
  ⟨ho.free hr.free, by rw [ho.states q hq]; exact hr.clean, by rw [ho.states q hq]; exact hr.wf, by rw [ho.states q hq]; exact hr.keeps⟩

theorem OnlyAt.used {h h' : ZWorld} {nk : Prop} {p q : Nat} (ho : OnlyAt p h h') (hq : q ≠ p) (hr : Used nk q h) : Used nk q h' :=
  ⟨ho.free hr.free, by rw [ho.states q hq]; exact hr.wf, by rw [ho.states q hq]; exact hr.few, by rw [ho.states q hq]; exact hr.clean⟩

theorem ZInv.tryPrevious {m : Signal} {nk : Prop} (C : Crypto) (n : Nat) : ∀ (ps : List Nat) (i : Nat) (f : Option (Nat × Nat × Bytes)) {h : ZWorld}, ZInv E w h → ps.Nodup → (∀ p ∈ ps, Ready m nk p h) →
    i + ps.length ≤ n → (∀ q ∈ f, q.1 < n ∧ q.2.1 ∉ ps ∧ Used nk q.2.1 h) →
    ZKeeps E w h (zTryPrevious C m ps i f) (fun o h' => h'.records = h.records ∧ ∀ q ∈ o, q.1 < n ∧ Used nk q.2.1 h') := by
  intro ps
  induction ps with
  | nil => exact fun i f h hi _ _ _ hf => .pure hi ⟨rfl, fun q hq => ⟨(hf q hq).1, (hf q hq).2.2⟩⟩
  | cons p ps ih =>
    intro i f h hi hn hr hlen hf
    rw [List.nodup_cons] at hn
    rw [List.length_cons] at hlen
    unfold zTryPrevious
    refine .bind ((hr p List.mem_cons_self).attempt hi C) fun o h1 hi1 hq => ?_
    obtain ⟨ho, hu⟩ := hq
    have hr1 : ∀ q ∈ ps, Ready m nk q h1 := fun q hq => ho.ready (fun he => hn.1 (he ▸ hq)) (hr q (List.mem_cons_of_mem _ hq))
    have hf1 : ∀ q ∈ f, q.1 < n ∧ q.2.1 ∉ ps ∧ Used nk q.2.1 h1 := by
      intro q hq
      obtain ⟨g1, g2, g3⟩ := hf q hq
      rw [List.mem_cons, not_or] at g2
      exact ⟨g1, g2.2, ho.used g2.1 g3⟩
    cases o with
    | ok pt =>
      simp only
      refine (ih (i + 1) (some (i, p, pt)) hi1 hn.2 hr1 (by omega) fun q hq => ?_).mono fun v h' hq => ⟨hq.1.trans ho.records, hq.2⟩
      cases hq
      exact ⟨by simp only; omega, hn.1, hu pt rfl⟩
    | error e =>
      have hgo := (ih (i + 1) f hi1 hn.2 hr1 (by omega) hf1).mono fun v h' hq => (⟨hq.1.trans ho.records, hq.2⟩ : h'.records = h.records ∧ ∀ q ∈ v, q.1 < n ∧ Used nk q.2.1 h')
      cases e <;> first | exact .throw hi1 | exact hgo

theorem ZInv.allocReady {m : Signal} {nk : Prop} (hi : ZInv E w h) {s : SState} (hs : s.WF) (hk : nk → ¬s.KeepsKeyFor m) :
    ZKeeps E w h (zAllocState s) (fun p h' => p = h.nextState ∧ Ready m nk p h' ∧ h'.records = h.records ∧ h'.nextState = h.nextState + 1 ∧ (∀ q, Ready m nk q h → Ready m nk q h') ∧ ∀ r, h'.view r = h.view r) := by
  refine (hi.allocState s).mono fun p h' hq => ?_
  obtain ⟨rfl, rfl, hf⟩ := hq
  refine ⟨rfl, ⟨hf, ?_, ?_, ?_⟩, rfl, rfl, fun q hq => ?_, fun r => ?_⟩
  rotate_right
  · unfold ZWorld.view
    cases hc : (h.records r).current with
    | none => rfl
    | some q =>
      have hne : q ≠ h.nextState := Nat.ne_of_lt (hi.linked r q hc).1
      simp only [Option.map_some, upd_ne _ _ hne]
  · simp only [upd_same]; exact SCell.fresh_keysClean _ _
  · simp only [upd_same, SCell.fresh_value]; exact hs
  · simp only [upd_same, SCell.fresh_value]; exact hk
  · have hne : q ≠ h.nextState := Nat.ne_of_lt hq.free.1
    have he : upd h.states h.nextState (SCell.fresh h.grow s) q = h.states q := upd_ne _ _ hne
    exact ⟨⟨Nat.lt_succ_of_lt hq.free.1, hq.free.2⟩, by simp only [he]; exact hq.clean, by simp only [he]; exact hq.wf, by simp only [he]; exact hq.keeps⟩

theorem ZInv.allocStates {m : Signal} {nk : Prop} : ∀ (ss : List SState) {h : ZWorld}, ZInv E w h → (∀ s ∈ ss, s.WF) → (nk → ∀ s ∈ ss, ¬s.KeepsKeyFor m) →
    ZKeeps E w h (zAllocStates ss) (fun ps h' => h'.records = h.records ∧ ps.length = ss.length ∧ ps.Nodup ∧ (∀ p ∈ ps, h.nextState ≤ p ∧ Ready m nk p h') ∧ ∀ q, Ready m nk q h → Ready m nk q h') := by
  intro ss
  induction ss with
  | nil => exact fun hi _ _ => .pure hi ⟨rfl, rfl, .nil, (fun p hp => by cases hp), fun _ hq => hq⟩
  | cons s ss ih =>
    intro h hi hw hk
    unfold zAllocStates
    refine .bind (hi.allocReady (m := m) (nk := nk) (hw s List.mem_cons_self) fun hn => hk hn s List.mem_cons_self) fun p h1 hi1 hq => ?_
    obtain ⟨rfl, hr, hrec, hns, hold, _⟩ := hq
    refine .bind (ih hi1 (fun t ht => hw t (List.mem_cons_of_mem _ ht)) fun hn t ht => hk hn t (List.mem_cons_of_mem _ ht)) fun ps h2 hi2 hq => .pure hi2 ?_
    obtain ⟨g1, g2, g3, g4, g5⟩ := hq
    refine ⟨g1.trans hrec, by simp [g2], ?_, fun p hp => ?_, fun q hq => g5 q (hold q hq)⟩
    · rw [List.nodup_cons]
      refine ⟨fun hm => ?_, g3⟩
      have := (g4 _ hm).1
      omega
    · rcases List.mem_cons.mp hp with rfl | hp
      · exact ⟨Nat.le_refl _, g5 _ hr⟩
      · exact ⟨by have := (g4 p hp).1; omega, (g4 p hp).2⟩

/-- The record's session hides no key. -/
def Tidied (r : Nat) (nk : Prop) (h : ZWorld) : Prop := ∃ p, (h.records r).current = some p ∧ (nk → (h.states p).KeysClean)

theorem ZInv.decryptPrevious {m : Signal} {nk : Prop} {r : Nat} (hi : ZInv E (some r) h) (C : Crypto) (hk : nk → ¬(h.view r).KeepsKeyFor m) :
    ZKeeps E (some r) h (zDecryptPrevious C r m) (fun _ h' => Tidied r nk h') := by
  obtain ⟨l, hl1, hl2, hl3⟩ := (hi.wf r).states
  unfold zDecryptPrevious
  refine .bind (.getRecord hi) fun v h1 hi1 hq => ?_
  obtain ⟨hv, rfl⟩ := hq
  rw [hl3] at hv
  cases hv
  have hnk : nk → ∀ s ∈ l, ¬s.KeepsKeyFor m := by
    intro hn s hs hks
    refine hk hn (.inr ⟨s.marshal, ?_, s, (hl1 s hs).round_trip, hks⟩)
    rw [hl2]
    exact List.mem_map_of_mem hs
  refine .bind (hi1.allocStates (m := m) l hl1 hnk) fun ps h2 hi2 hq => ?_
  obtain ⟨g1, g2, g3, g4, _⟩ := hq
  refine .bind (hi2.tryPrevious (m := m) (nk := nk) C ps.length ps 0 none g3 (fun p hp => (g4 p hp).2) (by omega) fun q hq => by cases hq) fun o h3 hi3 hq => ?_
  obtain ⟨f1, f2⟩ := hq
  cases o with
  | none => exact .throw hi3
  | some q =>
    obtain ⟨idx, p, pt⟩ := q
    obtain ⟨hidx, hu⟩ := f2 _ rfl
    have hlen : idx < (h3.records r).previous.len := by
      have hs := (hi3.ok.records r).length
      rw [f1, g1] at hs ⊢
      rw [hs]
      have : (h1.records r).previous.live = l.map SState.marshal := hl2
      rw [this, List.length_map, ← g2]
      exact hidx
    refine .bind (hi3.promoteOldState rfl hlen hu.free hu.few hu.wf) fun _ h4 hi4 hq => .pure hi4 ?_
    refine ⟨p, hq.1, fun hn => ?_⟩
    rw [hq.2]
    exact hu.clean hn

theorem ZInv.decryptRecord {m : Signal} {nk : Prop} {r : Nat} (hi : ZInv E (some r) h) (C : Crypto) (hk : nk → ¬(h.view r).KeepsKeyFor m) :
    ZKeeps E (some r) h (zDecryptRecord C r m) (fun _ h' => Tidied r nk h') := by
  unfold zDecryptRecord
  refine .bind (.readRecord hi) fun c h1 hi1 hq => ?_
  obtain ⟨rfl, rfl⟩ := hq
  cases hc : (h1.records r).current with
  | none => exact hi1.decryptPrevious C hk
  | some p =>
    simp only
    have hcur : (h1.view r).current = some (h1.states p).value := by simp [ZWorld.view, hc]
    have hwf := (hi1.wf r).current _ hcur
    unfold zClone
    refine .bind (.bind (.readState hi1) fun s h2 hi2 hq => ?_) (Q := fun q h' => h'.records = h1.records ∧ Ready m nk q h' ∧ h'.view r = h1.view r) fun q h3 hi3 hq => ?_
    · obtain ⟨rfl, rfl⟩ := hq
      exact (hi2.allocReady (m := m) (nk := nk) hwf fun hn hks => hk hn (.inl ⟨_, hcur, hks⟩)).mono fun q h' hq => ⟨hq.2.2.1, hq.2.1, hq.2.2.2.2.2 r⟩
    · obtain ⟨hrec, hr, hview⟩ := hq
      refine .bind (hr.attempt hi3 C) fun o h4 hi4 hq => ?_
      obtain ⟨ho, hu⟩ := hq
      have hv4 : h4.view r = h1.view r := by
        rw [← hview]
        unfold ZWorld.view
        rw [ho.records]
        cases hc3 : (h3.records r).current with
        | none => rfl
        | some q' =>
          simp only [Option.map_some]
          rw [ho.states q' fun he => hr.free.2 r (he ▸ hc3)]
      cases o with
      | ok pt =>
        have hu := hu pt rfl
        refine .bind (hi4.setSessionState rfl hu.free hu.few hu.wf) fun _ h5 hi5 hq => .pure hi5 ⟨q, hq.1, fun hn => ?_⟩
        rw [hq.2]
        exact hu.clean hn
      | error e =>
        have hgo := hi4.decryptPrevious (m := m) (nk := nk) C (by rw [hv4]; exact hk)
        cases e <;> first | exact .throw hi4 | exact hgo

/-! ## The calls -/

theorem zalloc_change {γ} (s : SState) (o : SState → SState) (ho : ∀ t, (o t).receiverChains = t.receiverChains) (k : Nat → M ZWorld γ) :
    (zAllocState s >>= fun p => zChangeFields p o >>= fun _ => k p) = zAllocState (o s) >>= k := by
  funext h
  have h1 : zAllocState s h = (.ok h.nextState, { h with states := upd h.states h.nextState (.fresh h.grow s), nextState := h.nextState + 1 }) := rfl
  have h2 : zChangeFields h.nextState o { h with states := upd h.states h.nextState (.fresh h.grow s), nextState := h.nextState + 1 } =
      (.ok (), { h with states := upd h.states h.nextState (.fresh h.grow (o s)), nextState := h.nextState + 1 }) := by
    show (Res.ok (), _) = _
    simp only [upd_twice, upd_same, SCell.fresh, ho]
  rw [M.bind_ok_run h1, M.bind_ok_run h2]
  rfl

theorem ZInv.newRecord (hi : ZInv E w h) : ZKeeps E w h zNewRecord (fun r h' => r = h.nextRecord ∧ r < h'.nextRecord ∧ h'.store = h.store ∧ h'.view r = {}) := by
  have hl : (PtrSlice.make maxArchivedStates : PtrSlice Bytes).live = [] := (PtrSlice.make_lays _).shows.live
  refine (hi.allocRecord (PtrSlice.make_clean _) (fun _ => hl) (fun p hp => by cases hp) ?_).mono fun r h' hq => ?_
  · rw [hl]; exact Record.WF.empty
  · obtain ⟨rfl, rfl⟩ := hq
    exact ⟨rfl, Nat.lt_succ_self _, rfl, by simp only [ZWorld.view, upd_same, hl]; rfl⟩

theorem ZInv.loadOrNew (hi : ZInv E none h) (a : Address) :
    ZKeeps E none h (zLoadOrNew E a) (fun r h' => ZInv E (some r) h' ∧ (h'.view r = {} ∨ ∃ r0, h.store a = some r0 ∧ h'.view r = h.view r0)) := by
  unfold zLoadOrNew
  refine .bind (hi.loadSession a) fun o h1 hi1 hq => ?_
  cases o with
  | some r => exact .pure hi1 ⟨(hq r rfl).1, .inr (hq r rfl).2⟩
  | none =>
    refine hi1.newRecord.inv.mono fun r h' hq => ?_
    obtain ⟨⟨rfl, g2, g3, g4⟩, hi2⟩ := hq
    refine ⟨hi2.startWork g2 fun _ b hb => ?_, .inl g4⟩
    rw [g3] at hb
    have := hi1.stored b _ hb
    omega

theorem Record.KeepsKeyFor.empty {m : Signal} : ¬({} : Record).KeepsKeyFor m := by
  rintro (⟨s, hs, _⟩ | ⟨b, hb, _⟩)
  · cases hs
  · cases hb

/-- The fields of a linked state change, but not its receiving chains. -/
theorem ZInv.changeFields {p : Nat} {f : SState → SState} (hi : ZInv E w h) (hf : ∀ s x, f { s with receiverChains := x } = { f s with receiverChains := x }) (hv : (f (h.states p).value).WF) :
    ZKeeps E w h (zChangeFields p f) (fun _ h' => h'.records = h.records ∧ ∀ q, (h'.states q).chains = (h.states q).chains) := by
  have hch : ∀ q, (upd h.states p { (h.states p) with fields := f (h.states p).fields } q).chains = (h.states q).chains := by
    intro q
    by_cases hq : q = p
    · subst hq; rw [upd_same]
    · rw [upd_ne _ _ hq]
  have hval : ∀ q, q ≠ p → upd h.states p { (h.states p) with fields := f (h.states p).fields } q = h.states q := fun q hq => upd_ne _ _ hq
  have hvp : (upd h.states p { (h.states p) with fields := f (h.states p).fields } p).value = f (h.states p).value := by
    rw [upd_same]
    exact (hf _ _).symm
  refine ⟨⟨(Ref.changeFields p f hf h hi.ok).2, fun r => ?_, fun r q hq => ?_, hi.prev, hi.empty, hi.stored, fun hE a r hr => ?_, hi.work⟩, fun _ _ => ⟨rfl, hch⟩⟩
  · have hw := hi.wf r
    show ({ current := (h.records r).current.map fun q => (upd h.states p { (h.states p) with fields := f (h.states p).fields } q).value, previous := (h.records r).previous.live } : Record).WF
    refine ⟨fun s hs => ?_, hw.count, hw.archived⟩
    cases hc : (h.records r).current with
    | none => rw [hc] at hs; cases hs
    | some q =>
      rw [hc] at hs
      simp only [Option.map_some, Option.some.injEq] at hs
      subst hs
      by_cases hq : q = p
      · subst hq; rw [hvp]; exact hv
      · rw [hval q hq]
        exact hw.current _ (by simp [ZWorld.view, hc])
  · have := hi.linked r q hq
    refine ⟨this.1, ?_⟩
    show (upd h.states p { (h.states p) with fields := f (h.states p).fields } q).hiddenKeys.length ≤ 1
    unfold SCell.hiddenKeys
    rw [hch]
    exact this.2
  · refine ⟨(hi.serial hE a r hr).1, fun q hq => ?_⟩
    show (upd h.states p { (h.states p) with fields := f (h.states p).fields } q).KeysClean
    unfold SCell.KeysClean
    rw [hch]
    exact (hi.serial hE a r hr).2 q hq

theorem ZInv.encryptMessage (hi : ZInv E none h) (a : Address) (pt : Bytes) : ZKeeps E none h (zEncryptMessage E a pt) (fun _ _ => True) := by
  unfold zEncryptMessage
  refine .bind (hi.loadSession a) fun o h1 hi1 hq => ?_
  cases o with
  | none => exact .throw hi1
  | some r =>
    obtain ⟨hi1, _⟩ := hq r rfl
    refine .last (.readRecord hi1) fun c h2 hi2 hq => ?_
    obtain ⟨rfl, rfl⟩ := hq
    cases hc : (h2.records r).current with
    | none => exact .throw hi2.forget
    | some p =>
      simp only
      refine .last (.getState hi2) fun v h3 hi3 hq => ?_
      obtain ⟨msg, next, k⟩ := v
      obtain ⟨hg, rfl⟩ := hq
      have hwf : (h3.states p).value.WF := (hi3.wf r).current _ (by simp [ZWorld.view, hc])
      have hnext : ((h3.states p).value.setSenderChainKey next).WF := by
        rw [Res.bind_eq_ok] at hg
        obtain ⟨⟨msg', s', k'⟩, he, hg⟩ := hg
        rw [Res.bind_eq_ok] at hg
        obtain ⟨ck, hck, hg⟩ := hg
        cases hg
        obtain ⟨ck', hck', rfl⟩ := encryptState_keeps he
        rw [hck] at hck'
        cases hck'
        exact hwf.encrypt he
      refine .last (hi3.changeFields (p := p) (f := fun s => s.setSenderChainKey next) (fun s x => ?_) hnext) fun _ h4 hi4 hq => ?_
      · unfold SState.setSenderChainKey
        cases s.senderChain <;> rfl
      · refine .last (.rest hi4) fun trusted h5 hi5 hq5 => ?_
        obtain ⟨y, _, rfl⟩ := hq5
        cases trusted with
        | false => exact .throw hi5.forget
        | true =>
          refine .last (.rest hi5) fun _ h6 hi6 hq6 => ?_
          obtain ⟨y, _, rfl⟩ := hq6
          refine .bind (hi6.storeSession (nk := False) a ⟨p, ?_, fun hn => hn.elim⟩) fun _ h7 hi7 _ => .pure hi7 trivial
          show (h4.records r).current = some p
          rw [hq.1]
          exact hc

theorem SState.fresh_keeps {s : SState} {m : Signal} (hs : ∀ c ∈ s.receiverChains, c.messageKeys = []) : ¬s.KeepsKeyFor m := by
  rintro ⟨c, hc, _, k, hk, _⟩
  rw [hs c hc] at hk
  cases hk

theorem bob_WF {C : Crypto} {p : BobParameters} {s : SState} (h : initializeBobSession C p = .ok s) (l r : UInt32) (k : PubKey) :
    ({ s with localRegistrationId := l, remoteRegistrationId := r, aliceBaseKey := k.bytes } : SState).WF ∧ s.receiverChains = [] := by
  obtain ⟨sg, rt, d1, d2, d3, d4, _, _, _, _, _, _, rk, ck, hk, rfl⟩ := initializeBob_ok h
  rw [deriveKeys_ok] at hk
  simp only [Res.ok.injEq, Prod.mk.injEq] at hk
  obtain ⟨rfl, rfl⟩ := hk
  exact ⟨⟨rfl, ⟨_, rfl⟩, ⟨_, rfl⟩, by simp [SState.setSenderChain, C.hkdf_len],
    ⟨_, rfl, ⟨_, rfl⟩, ⟨_, rfl⟩, ⟨⟨_, 0⟩, rfl, by simp [C.hkdf_len]⟩, rfl⟩, by simp [SState.setSenderChain],
    by simp [SState.setSenderChain], by simp [SState.setSenderChain], by simp [SState.setSenderChain], ⟨_, rfl⟩⟩, by simp [SState.setSenderChain]⟩

theorem alice_WF {C : Crypto} {p : AliceParameters} {rd rd' : Bytes} {s : SState} (h : initializeAliceSession C p rd = (.ok s, rd')) (o : Option UInt32) (i l r : UInt32) (b k : PubKey) :
    ({ s.setUnacknowledgedPreKeyMessage o i b with localRegistrationId := l, remoteRegistrationId := r, aliceBaseKey := k.bytes } : SState).WF := by
  obtain ⟨kp, d1, d2, d3, d4, _, _, _, _, _, rk, ck, hk, sr, sc, hc, rfl⟩ := initializeAlice_ok h
  obtain ⟨hl1, hl2, _⟩ := RootKey.createChain_ok hc
  have hl3 : ck.key.length = 32 := by
    rw [deriveKeys_ok] at hk
    simp only [Res.ok.injEq, Prod.mk.injEq] at hk
    rw [← hk.2]
    simp [C.hkdf_len]
  refine ⟨rfl, ⟨_, rfl⟩, ⟨_, rfl⟩, hl1, ⟨_, rfl, ⟨_, rfl⟩, ⟨_, rfl⟩, ⟨sc, rfl, hl2⟩, rfl⟩, ?_, ?_, ?_, ?_, ⟨_, rfl⟩⟩
  · simp [SState.setUnacknowledgedPreKeyMessage, SState.setSenderChain, SState.addReceiverChain, maxReceiverChains]
  · simp only [SState.setUnacknowledgedPreKeyMessage, SState.setSenderChain, SState.addReceiverChain, maxReceiverChains, List.nil_append,
      List.length_singleton, Nat.reduceGT, if_false, gt_iff_lt, Nat.reduceLT, List.mem_singleton]
    rintro c rfl
    exact fresh_chain_WF _ ck hl3
  · simp [SState.setUnacknowledgedPreKeyMessage, SState.setSenderChain, SState.addReceiverChain, maxReceiverChains]
  · simp only [SState.setUnacknowledgedPreKeyMessage, SState.setSenderChain, SState.addReceiverChain, Option.some.injEq]
    rintro q rfl
    exact ⟨_, rfl⟩

theorem withRand_ok {α} {x : M Bytes α} {w w' : World} {v : α} (h : withRand x w = (.ok v, w')) : ∃ rd, x w.rand = (.ok v, rd) := by
  have h1 : (x w.rand).1 = .ok v := congrArg Prod.fst h
  exact ⟨(x w.rand).2, Prod.ext h1 rfl⟩

theorem orPanic_ok {α} {x : Res α} {v : α} (h : orPanic x = .ok v) : x = .ok v := by
  cases x with
  | ok a => exact h
  | err e => cases h
  | panic => cases h

theorem ZInv.processPreKeyV3 {r : Nat} {nk : Prop} (hi : ZInv E (some r) h) (m : PreKeyMsg) (hk : nk → ¬(h.view r).KeepsKeyFor m.message) :
    ZKeeps E (some r) h (zProcessPreKeyV3 E r m) (fun _ h' => nk → ¬(h'.view r).KeepsKeyFor m.message) := by
  unfold zProcessPreKeyV3
  refine .bind (.getRecord hi) fun found h1 hi1 hq => ?_
  obtain ⟨_, rfl⟩ := hq
  cases found with
  | true => exact .pure hi1 hk
  | false =>
    simp only [Bool.false_eq_true, if_false]
    refine .bind (.rest hi1) fun signed h2 hi2 hq => ?_
    obtain ⟨y, _, rfl⟩ := hq
    have key : ∀ (one : Option KeyPair) (z : World), ZInv E (some r) { h1 with rest := z } → ZKeeps E (some r) { h1 with rest := z } (M.get >>= fun h => do
        let s ← M.lift (orPanic (initializeBobSession E.C
          { ourIdentityKeyPair := h.rest.identity, ourSignedPreKeyPair := signed, ourOneTimePreKeyPair := one, ourRatchetKeyPair := signed, theirIdentityKey := m.identityKey, theirBaseKey := m.baseKey }))
        let p ← zAllocState s
        zChangeFields p fun s => { s with localRegistrationId := h.rest.regId }
        zChangeFields p fun s => { s with remoteRegistrationId := m.registrationID }
        zChangeFields p fun s => { s with aliceBaseKey := m.baseKey.bytes }
        zPromoteState r p
        return m.preKeyID) (fun _ h' => nk → ¬(h'.view r).KeepsKeyFor m.message) := by
      intro one z hz
      refine .bind (.get hz) fun h3 h4 hi4 hq => ?_
      obtain ⟨rfl, rfl⟩ := hq
      refine .bind (.lift hi4) fun s h5 hi5 hq => ?_
      obtain ⟨hb, rfl⟩ := hq
      obtain ⟨hw, hrc⟩ := bob_WF (orPanic_ok hb) z.regId m.registrationID m.baseKey
      rw [zalloc_change, zalloc_change, zalloc_change]
      rotate_left
      iterate 3 exact fun _ => rfl
      refine .bind (hi5.allocReady (m := m.message) (nk := True) hw fun _ => SState.fresh_keeps fun c hc => ?_) fun p h6 hi6 hq => ?_
      · rw [show ({ s with localRegistrationId := z.regId, remoteRegistrationId := m.registrationID, aliceBaseKey := m.baseKey.bytes } : SState).receiverChains = [] from hrc] at hc
        cases hc
      · obtain ⟨_, hr, _, _, _, hview⟩ := hq
        refine .bind (hi6.promoteState rfl hr.free (by rw [hr.clean.hiddenKeys]; simp) hr.wf) fun _ h7 hi7 hq => .pure hi7 fun hn hks => ?_
        rw [hq.2] at hks
        have := Record.KeepsKeyFor.of_promote (hi6.wf r) (hr.keeps trivial) hks
        rw [hview] at this
        exact hk hn this
    cases hid : m.preKeyID with
    | none =>
      rw [hid] at key
      exact key none y hi2
    | some id =>
      rw [hid] at key
      refine .bind (.rest hi2) fun one h3 hi3 hq => ?_
      obtain ⟨z, _, rfl⟩ := hq
      exact key one z hi3

theorem ZInv.processPreKey {r : Nat} {nk : Prop} (hi : ZInv E (some r) h) (a : Address) (m : PreKeyMsg) (hk : nk → ¬(h.view r).KeepsKeyFor m.message) :
    ZKeeps E (some r) h (zProcessPreKey E a r m) (fun _ h' => nk → ¬(h'.view r).KeepsKeyFor m.message) := by
  unfold zProcessPreKey
  refine .bind (.rest hi) fun trusted h1 hi1 hq => ?_
  obtain ⟨y, _, rfl⟩ := hq
  cases trusted with
  | false => exact .throw hi1
  | true =>
    refine .bind (hi1.processPreKeyV3 m hk) fun id h2 hi2 hk2 => .bind (.rest hi2) fun _ h3 hi3 hq => .pure hi3 ?_
    obtain ⟨z, _, rfl⟩ := hq
    exact hk2

theorem ZInv.decryptPreKey {nk : Prop} (hi : ZInv E none h) (a : Address) (m : PreKeyMsg) (hk : nk → ∀ r, h.store a = some r → ¬(h.view r).KeepsKeyFor m.message) :
    ZKeeps E none h (zDecryptPreKey E a m) (fun _ h' => StoredTidy a nk h') := by
  unfold zDecryptPreKey
  refine .bind (hi.loadOrNew a) fun r h1 _ hq => ?_
  obtain ⟨hi1, hv⟩ := hq
  have hk1 : nk → ¬(h1.view r).KeepsKeyFor m.message := by
    intro hn
    rcases hv with hv | ⟨r0, hr0, hv⟩
    · rw [hv]; exact Record.KeepsKeyFor.empty
    · rw [hv]; exact hk hn r0 hr0
  refine .last (hi1.processPreKey a m hk1) fun id h2 hi2 hk2 => .last (hi2.decryptRecord E.C hk2) fun pt h3 hi3 ht => .bind (hi3.storeSession a ht) fun _ h4 hi4 hs => ?_
  cases id with
  | none => exact .pure hi4 hs
  | some id =>
    refine .bind (.rest hi4) fun _ h5 hi5 hq => .pure hi5 ?_
    obtain ⟨z, _, rfl⟩ := hq
    exact hs

theorem ZInv.decryptSignal {nk : Prop} (hi : ZInv E none h) (a : Address) (m : Signal) (hk : nk → ∀ r, h.store a = some r → ¬(h.view r).KeepsKeyFor m) :
    ZKeeps E none h (zDecryptSignal E a m) (fun o h' => ∀ pt, o = some pt → StoredTidy a nk h') := by
  unfold zDecryptSignal
  refine .bind (hi.loadSession a) fun o h1 hi1 hq => ?_
  cases o with
  | none => exact .throw hi1
  | some r =>
    obtain ⟨hi1, r0, hr0, hv⟩ := hq r rfl
    refine .last (hi1.decryptRecord E.C (m := m) (nk := nk) fun hn => by rw [hv]; exact hk hn r0 hr0).attempt fun out h2 hi2 ht => ?_
    refine .last (.readRecord hi2) fun c h3 hi3 hq => ?_
    obtain ⟨rfl, rfl⟩ := hq
    cases hc : (h3.records r).current with
    | none => exact .throw hi3.forget
    | some p =>
      simp only
      refine .last (.readState hi3) fun s h4 hi4 hq => ?_
      obtain ⟨rfl, rfl⟩ := hq
      have hgo : ∀ (k : PubKey) (o : Option Bytes), (∀ pt, o = some pt → ∃ q, out = .ok q) → ZKeeps E none h4 (do
          let trusted ← zRest (isTrusted E.toEnv a k .receiving)
          if trusted then
            zRest (storeIdentity a k)
            zStoreSession E a r
            return o
          else M.throw (.untrustedIdentity a)) (fun o h' => ∀ pt, o = some pt → StoredTidy a nk h') := by
        intro k o ho
        refine .last (.rest hi4) fun trusted h5 hi5 hq => ?_
        obtain ⟨y, _, rfl⟩ := hq
        cases trusted with
        | false => exact .throw hi5.forget
        | true =>
          refine .last (.rest hi5) fun _ h6 hi6 hq => ?_
          obtain ⟨z, _, rfl⟩ := hq
          refine .bind (hi6.storeSession (nk := nk ∧ ∃ pt, out = .ok pt) a ⟨p, hc, fun hn => ?_⟩) fun _ h7 hi7 hs => .pure hi7 fun pt hpt => ?_
          · obtain ⟨hn, pt, ho⟩ := hn
            obtain ⟨p', hp', hcl⟩ := ht pt ho
            rw [hc] at hp'
            cases hp'
            exact hcl hn
          · obtain ⟨r', p', e1, e2, e3⟩ := hs
            refine ⟨r', p', e1, e2, fun hn => e3 ⟨hn, ho pt hpt⟩⟩
      cases hrk : (h4.states p).value.remoteIdentityKey with
      | ok o =>
        cases o with
        | some k =>
          refine hgo k _ fun pt hpt => ?_
          cases out with
          | ok q => exact ⟨q, rfl⟩
          | error e => cases hpt
        | none => exact .throw hi4.forget
      | err e => exact .throw hi4.forget
      | panic => exact .panic hi4.forget

theorem ZInv.decryptMessage {nk : Prop} (hi : ZInv E none h) (a : Address) (c : Ciphertext) (hk : nk → ∀ m, c.inner = some m → ∀ r, h.store a = some r → ¬(h.view r).KeepsKeyFor m) :
    ZKeeps E none h (zDecryptMessage E a c) (fun o h' => ∀ pt, o = some pt → StoredTidy a nk h') := by
  cases c with
  | preKey m => exact .bind (hi.decryptPreKey a m fun hn => hk hn m.message rfl) fun pt h1 hi1 hs => .pure hi1 fun _ _ => hs
  | signal m => exact hi.decryptSignal a m fun hn => hk hn m rfl
  | _ => exact .throw hi

theorem ZInv.processPreKeyBundle (hi : ZInv E none h) (a : Address) (b : Bundle) : ZKeeps E none h (zProcessPreKeyBundle E a b) (fun _ h' => StoredTidy a True h') := by
  unfold zProcessPreKeyBundle
  refine .bind (.rest hi) fun trusted h1 hi1 hq => ?_
  obtain ⟨y, _, rfl⟩ := hq
  cases trusted with
  | false => exact .throw hi1
  | true =>
    simp only [if_true]
    refine .bind (.lift hi1) fun ok h2 hi2 hq => ?_
    obtain ⟨_, rfl⟩ := hq
    cases ok with
    | false => exact .throw hi2
    | true =>
      simp only [if_true]
      refine .bind (hi2.loadOrNew a) fun r h3 _ hq => ?_
      obtain ⟨hi3, _⟩ := hq
      refine .last (.rest hi3) fun base h4 hi4 hq => ?_
      obtain ⟨y, _, rfl⟩ := hq
      refine .last (.get hi4) fun h5 h6 hi6 hq => ?_
      obtain ⟨rfl, rfl⟩ := hq
      refine .last (.rest hi6) fun s h7 hi7 hq => ?_
      obtain ⟨z, hs, rfl⟩ := hq
      obtain ⟨rd, hs⟩ := withRand_ok hs
      rw [zalloc_change, zalloc_change, zalloc_change, zalloc_change]
      rotate_left
      iterate 4 exact fun _ => rfl
      refine .last (hi7.allocReady (m := ⟨3, b.identityKey, 0, 0, [], []⟩) (nk := False) (alice_WF hs _ _ _ _ _ _) fun hn => hn.elim) fun p h8 hi8 hq => ?_
      obtain ⟨_, hr, _, _, _, _⟩ := hq
      refine .last (.rest hi8) fun _ h9 hi9 hq => ?_
      obtain ⟨y, _, rfl⟩ := hq
      refine .last (hi9.promoteState rfl hr.free (by show (h8.states p).hiddenKeys.length ≤ 1; rw [hr.clean.hiddenKeys]; simp) hr.wf) fun _ h10 hi10 hq => ?_
      refine hi10.storeSession a ⟨p, hq.1.1, fun _ => ?_⟩
      rw [hq.1.2]
      exact hr.clean

/-! ## Histories -/

theorem ZInv.start (E : HEnv) (grow : Nat → Nat) (x : World) : ZInv E none (.start grow x) :=
  ⟨ZWorld.start_ok grow x, fun _ => Record.WF.empty, (fun _ _ hp => by cases hp), fun _ => .inl PtrSlice.empty_clean, fun _ _ => rfl, (fun _ _ hr => by cases hr),
    (fun _ _ _ hr => by cases hr), fun _ hr => by cases hr⟩

theorem ZInv.call (hi : ZInv E none h) (c : Call) : ZInv E none (c.sliceRun E h).2 := by
  obtain ⟨op, rand, faults⟩ := c
  have hi1 := hi.rest { h.rest with rand := rand, faults := faults }
  cases op with
  | encrypt a pt => exact (hi1.encryptMessage a pt).1
  | decrypt a m => exact (hi1.decryptMessage (nk := False) a m fun hn => hn.elim).1
  | bundle a b => exact (hi1.processPreKeyBundle a b).1
  | addPreKey id k => exact hi1.rest _
  | addSignedPreKey id k => exact hi1.rest _

theorem ZInv.run : ∀ (cs : List Call) {h : ZWorld}, ZInv E none h → ZInv E none (sliceRun E cs h).2
  | [], _, hi => hi
  | c :: cs, _, hi => ZInv.run cs (hi.call c)

theorem ZInv.callTidy (hi : ZInv E none h) {c : Call} {a : Address} {m : Ciphertext} (hc : c.op = .decrypt a m) {pt : Bytes} (ho : (c.sliceRun E h).1 = .plaintext a (some pt)) {sig : Signal} (hm : m.inner = some sig)
    (hk : ∀ r, h.store a = some r → ¬(h.view r).KeepsKeyFor sig) : StoredTidy a True (c.sliceRun E h).2 := by
  obtain ⟨op, rand, faults⟩ := c
  simp only at hc
  subst hc
  have hi1 := hi.rest { h.rest with rand := rand, faults := faults }
  have hd := (hi1.decryptMessage (nk := True) a m fun _ x hx r hr => ?_).2
  · have ho : Out.of (.plaintext a) (zDecryptMessage E a m { h with rest := { h.rest with rand := rand, faults := faults } }).1 = .plaintext a (some pt) := ho
    cases hz : (zDecryptMessage E a m { h with rest := { h.rest with rand := rand, faults := faults } }).1 with
    | ok v =>
      rw [hz] at ho
      simp only [Out.of, Out.plaintext.injEq, true_and] at ho
      subst ho
      exact hd _ hz pt rfl
    | err e => rw [hz] at ho; cases ho
    | panic => rw [hz] at ho; cases ho
  · rw [hm] at hx
    cases hx
    exact hk r hr

theorem ZInv.callBundle (hi : ZInv E none h) {c : Call} {a : Address} {b : Bundle} (hc : c.op = .bundle a b) (ho : (c.sliceRun E h).1 = .done) : StoredTidy a True (c.sliceRun E h).2 := by
  obtain ⟨op, rand, faults⟩ := c
  simp only at hc
  subst hc
  have hi1 := hi.rest { h.rest with rand := rand, faults := faults }
  have hd := (hi1.processPreKeyBundle a b).2
  have ho : Out.of (fun _ => .done) (zProcessPreKeyBundle E a b { h with rest := { h.rest with rand := rand, faults := faults } }).1 = .done := ho
  cases hz : (zProcessPreKeyBundle E a b { h with rest := { h.rest with rand := rand, faults := faults } }).1 with
  | ok v => exact hd _ hz
  | err e => rw [hz] at ho; cases ho
  | panic => rw [hz] at ho; cases ho

end Verif
