import Verif.Proofs.Sessions3

/-!
Sending, in a conversation with several sessions.
-/

namespace Verif

attribute [local irreducible] maxMessageKeys

variable {d : Duo} {ident : Side → PubKey} {b : Bundle} {base : PubKey} {o : Opening} {G : List PubKey} {F F' : List Bytes} {N N' : Nat} {L : Nat → Rung}
  {lev cnt : Side → Nat} {st : Side → Option SState}

/-- Both sides trust the other's identity key. -/
def Duo.Trusting (d : Duo) (ident : Side → PubKey) : Prop :=
  ∀ s (known : Address → Option PubKey) dir, known (d.address s.other) = none ∨ known (d.address s.other) = some (ident s.other) →
    d.trusted s known (d.address s.other) (ident s.other) dir = true

theorem Duo.Trusting.as (h : d.Trusting ident) (x : Side) : (d.as x).Trusting fun r => ident (x.as r) := by
  intro r known dir hk
  simp only [Duo.as, Side.as_other] at hk ⊢
  exact h (x.as r) known dir hk

theorem Less.refl {C : Crypto} (h : (F.map (publicKeyOf C)).Nodup) : Less C F F := ⟨fun _ h => h, h⟩

theorem MSys.sentIn_append {S S' : MSys} {s : Side} {c : Ciphertext} {pt name : Bytes} (h : S'.sent = upd S.sent s (S.sent s ++ [(c, pt, name)]))
    (u : Side) (B : Bytes) : S'.sentIn u B = if u = s ∧ name = B then S.sentIn u B ++ [(c, pt)] else S.sentIn u B := by
  unfold MSys.sentIn
  rw [h]
  by_cases hu : u = s
  · subst hu
    rw [upd_same, List.filterMap_append]
    by_cases hB : name = B
    · simp [hB]
    · simp [hB]
  · rw [upd_ne _ _ hu, if_neg (by simp [hu])]

theorem MSys.gotIn_append {S S' : MSys} {s : Side} {name : Bytes} {pos : PubKey × UInt32} (h : S'.got = upd S.got s (S.got s ++ [(name, pos)]))
    (u : Side) (B : Bytes) : S'.gotIn u B = if u = s ∧ name = B then S.gotIn u B ++ [pos] else S.gotIn u B := by
  unfold MSys.gotIn
  rw [h]
  by_cases hu : u = s
  · subst hu
    rw [upd_same, List.filterMap_append]
    by_cases hB : name = B
    · simp [hB]
    · simp [hB]
  · rw [upd_ne _ _ hu, if_neg (by simp [hu])]

theorem MInv.state {S : MSys} {Ts : List Talk} (h : MInv d ident G F N S Ts) {s : Side} {rec : Record} (hr : (S.world s).sessions (d.address s.other) = some rec)
    {u : SState} (hu : rec.HasState u) : ∃ T ∈ Ts, u.aliceBaseKey = T.name ∧ T.st (T.x.as s) = some u := by
  obtain ⟨l, hl⟩ := h.recs s rec hr
  obtain ⟨T, hT, he⟩ := hl.known u ((hl.mem u).mp hu)
  refine ⟨T, hT, he, ?_⟩
  rw [h.link T hT, Side.as_as]
  exact ⟨rec, hr, hu, he⟩

/-- A side gets a new record, in which the state of one session has been replaced. -/
theorem MInv.advance {S S' : MSys} {Ts : List Talk} (h : MInv d ident G F N S Ts) {T : Talk} (hT : T ∈ Ts) {s : Side} {W : World}
    (h1 : S'.started = S.started) (hw : S'.world = upd S.world s W) (hid : W.identity = (S.world s).identity)
    (hsg : W.signedPreKeys = (S.world s).signedPreKeys)
    (hpk : W.preKeys = (S.world s).preKeys ∨ (T.x.as s = .bob ∧ W.preKeys = dropPreKey (S.world s).preKeys T.b.preKeyID))
    (hk : W.known (d.address s.other) = some (ident s.other))
    (hsent : ∀ B, B ≠ T.name → ∀ u, S'.sentIn u B = S.sentIn u B) (hgot : ∀ B, B ≠ T.name → ∀ u, S'.gotIn u B = S.gotIn u B)
    (htag : ∀ u, ∀ p ∈ S'.sent u, p ∈ S.sent u ∨ p.2.2 = T.name) (hgtag : ∀ u, ∀ p ∈ S'.got u, p ∈ S.got u ∨ p.1 = T.name)
    {rec' : Record} {l' : List SState} (hrec : W.sessions (d.address s.other) = some rec') (hok : RecOk Ts rec' l') {t' : SState}
    (hsame : ∀ u, u.aliceBaseKey ≠ T.name → (rec'.HasState u ↔ ∃ rec, (S.world s).sessions (d.address s.other) = some rec ∧ rec.HasState u))
    (hown : ∀ u, some t' = some u ↔ rec'.HasState u ∧ u.aliceBaseKey = T.name)
    {L' : Nat → Rung} {lev' cnt' : Side → Nat} {D : DSys} {F'' : List Bytes} {N'' : Nat}
    (hinv : Verif.Inv (d.as T.x) (fun r => ident (T.x.as r)) T.b T.base T.o F'' N'' L' lev' cnt' (upd T.st (T.x.as s) (some t')) D)
    (hD1 : ∀ r, D.sent r = S'.sentIn (T.x.as r) T.name) (hD2 : ∀ r, D.got r = S'.gotIn (T.x.as r) T.name)
    (hD3 : T.x.as s ≠ .bob → (D.world .bob).identity = (S.world (T.x.as .bob)).identity ∧ (D.world .bob).signedPreKeys = (S.world (T.x.as .bob)).signedPreKeys ∧
      (D.world .bob).preKeys = (S.world (T.x.as .bob)).preKeys)
    (hF : Less d.C F' F) (hF' : Less d.C F' F'') (hN : N ≤ N') (hN' : N'' ≤ N')
    (hold : ∀ i, i ≤ max (lev' .alice) (lev' .bob) → (i ≤ T.top ∧ (L' i).kp.pub = (T.L i).kp.pub) ∨ some (L' i).kp.pub ∈ F.map (publicKeyOf d.C)) :
    MInv d ident G F' N' S' (replaceTalk { T with L := L', lev := lev', cnt := cnt', st := upd T.st (T.x.as s) (some t') } Ts) := by
  have hws : S'.world s = W := by rw [hw, upd_same]
  have hwo : ∀ u, u ≠ s → S'.world u = S.world u := fun u hu => by rw [hw, upd_ne _ _ hu]
  refine h.update (T' := { T with L := L', lev := lev', cnt := cnt', st := upd T.st (T.x.as s) (some t') }) hT rfl rfl rfl (T.x.as s) h1 ?_ ?_ ?_ ?_ (.inr ?_)
    hsent hgot htag hgtag (rec' := rec') (l' := l') ?_ hok ?_ ?_ ?_ ?_ hF hN hold
  · rw [Side.as_other, Side.as_as]; exact hwo _ (Side.other_ne s)
  · rw [Side.as_as, hws]; exact hid
  · rw [Side.as_as, hws]; exact hsg
  · rw [Side.as_as, hws]; exact hpk
  · rw [Side.as_as, hws]; exact hk
  · rw [Side.as_as, hws]; exact hrec
  · exact upd_ne _ _ (Side.other_ne _)
  · intro u hu
    rw [Side.as_as]
    exact hsame u hu
  · intro u
    rw [← hown u]
    simp only [upd_same]
  · refine Verif.Inv.move hinv ?_ ?_ ?_ ?_ ?_ hF' hN'
    · funext r; exact (hD1 r).symm
    · funext r; exact (hD2 r).symm
    · intro r
      rw [hinv.sess r]
      rfl
    · intro r
      simp only [MSys.proj, Duo.as, Side.as_other]
      by_cases hrs : T.x.as r = s
      · rw [hrs, hws]; exact .inr hk
      · rw [hwo _ hrs]; exact h.known _
    · intro hb
      have hbs : T.x.as s ≠ .bob := by
        intro hx
        simp only [hx, upd_same] at hb
        simp at hb
      have hrs' : T.x.as .bob ≠ s := fun hx => hbs (by rw [← hx, Side.as_as])
      obtain ⟨q1, q2, q3⟩ := hD3 hbs
      simp only [MSys.proj, hwo _ hrs']
      exact ⟨q1.symm, by rw [q2], fun _ _ => by rw [q3]⟩

/-- A side that has a record can send, and sends in its current session. -/
theorem MInv.sending {S : MSys} {Ts : List Talk} (htr : d.Trusting ident) (h : MInv d ident G F N S Ts) (s : Side) {rec : Record}
    (hr : (S.world s).sessions (d.address s.other) = some rec) (pt : Bytes) : ∃ T ∈ Ts, ∃ t t' out, rec.current = some t ∧ t.aliceBaseKey = T.name ∧
      T.st (T.x.as s) = some t ∧ encryptState d.C t pt = .ok (out, t', ident s.other) ∧ t'.aliceBaseKey = T.name ∧
      encryptMessage (d.env s) (d.address s.other) pt { S.world s with faults := [] } =
        (.ok out, { S.world s with sessions := upd (S.world s).sessions (d.address s.other) (some (rec.setSessionState t')), known := upd (S.world s).known (d.address s.other) (some (ident s.other)), faults := [] }) := by
  obtain ⟨l, hl⟩ := h.recs s rec hr
  obtain ⟨t, ht⟩ : ∃ t, rec.current = some t := by
    cases hc : rec.current with
    | none => exact absurd hc hl.cur
    | some t => exact ⟨t, rfl⟩
  obtain ⟨T, hT, he, hst⟩ := h.state hr (u := t) (.inl ht)
  have hv := (h.each T hT).view _ t hst
  simp only [Side.as_other, Side.as_as] at hv
  obtain ⟨msg, out, t', e1, _, _, _, _, _, _, _, e9, _⟩ := hv.send pt
  refine ⟨T, hT, t, t', out, ht, he, hst, e1, e9.trans he, ?_⟩
  exact encrypt_run (E := d.env s) (a := d.address s.other) (w := { S.world s with faults := [] }) rfl hr ht e1 (htr s _ _ (h.known s))

theorem MInv.sends {S : MSys} {Ts : List Talk} (htr : d.Trusting ident) (hnd : (F.map (publicKeyOf d.C)).Nodup) (h : MInv d ident G F N S Ts) (s : Side)
    {pt : Bytes} (hpt : pt.length < 2 ^ 62) (hN : N < 4294967296) :
    ∃ Ts', MInv d ident G F (N + 1) (d.mstep S (.send s pt)) Ts' ∧ Ts'.length = Ts.length := by
  cases hr : (S.world s).sessions (d.address s.other) with
  | none =>
    have hrun : encryptMessage (d.env s) (d.address s.other) pt { S.world s with faults := [] } =
        (.err (.sessionNotFound (d.address s.other)), { S.world s with faults := [] }) := by
      unfold encryptMessage
      rw [M.bind_ok_run (x := loadSession _) (storeCall_nil _ _ rfl)]
      simp only [hr]
      rfl
    refine ⟨Ts, ?_, rfl⟩
    simp only [Duo.mstep, hrun]
    refine h.idle rfl rfl rfl ?_ ?_ (.refl hnd) (Nat.le_succ _)
    · intro u
      by_cases hu : u = s
      · subst hu; simp only [upd_same]; exact h.known u
      · simp only [upd_ne _ _ hu]; exact h.known u
    · intro u
      by_cases hu : u = s
      · subst hu; simp only [upd_same, and_self]
      · simp only [upd_ne _ _ hu, and_self]
  | some rec =>
    obtain ⟨l, hl⟩ := h.recs s rec hr
    obtain ⟨T, hT, t, t', out, h1, h2, h3, h4, h5, hrun⟩ := h.sending htr s hr pt
    have hname : (S.world s).talksIn (d.address s.other) = T.name := by simp [World.talksIn, hr, h1, h2]
    have hI := h.each T hT
    -- the same step in the session alone
    obtain ⟨cnt', st', hI', hgot', _⟩ := Inv.sends_next (d := d.as T.x) (ident := fun r => ident (T.x.as r)) (htr.as T.x) hI (T.x.as s) hpt hN
    have hrun' := encrypt_run (E := (d.as T.x).env (T.x.as s)) (a := (d.as T.x).address (T.x.as s).other) (w := { (S.proj T).world (T.x.as s) with faults := [] })
      (rec := { current := some t }) (pt := pt) rfl (by simp [MSys.proj, h3]) rfl h4
      (by have := htr s _ .sending (h.known s); simp only [Duo.env, Duo.as, Side.as_other, Side.as_as, MSys.proj]; exact this)
    have hst' : st' = upd T.st (T.x.as s) (some t') := by
      funext r
      have hsess := hI'.sess r
      simp only [Duo.step, hrun'] at hsess
      by_cases hrs : r = T.x.as s
      · subst hrs
        simp only [upd_same] at hsess ⊢
        cases hx : st' (T.x.as s) with
        | none => rw [hx] at hsess; simp at hsess
        | some v =>
          rw [hx] at hsess
          simp only [Record.setSessionState, Option.map_some, Option.some.injEq, Record.mk.injEq] at hsess
          rw [hsess.1]
      · rw [upd_ne _ _ hrs]
        rw [upd_ne _ _ hrs] at hsess
        simp only [MSys.proj] at hsess
        cases hx : st' r with
        | none => rw [hx] at hsess; cases hy : T.st r with
          | none => rfl
          | some v => rw [hy] at hsess; simp at hsess
        | some v => rw [hx] at hsess; cases hy : T.st r with
          | none => rw [hy] at hsess; simp at hsess
          | some v' =>
            rw [hy] at hsess
            simp only [Option.map_some, Option.some.injEq, Record.mk.injEq, and_true] at hsess
            rw [hsess]
    subst hst'
    simp only [Duo.mstep, hrun, hname]
    have hwf : (rec.setSessionState t').WF := hl.wf.setSessionState ((hl.wf.current t h1).encrypt h4)
    obtain ⟨r1, r2, r3⟩ := hl.replace (l' := l) hT h2 h5 hwf rfl hl.prev (.inl ⟨h1, rfl⟩)
    refine ⟨replaceTalk { T with L := T.L, lev := T.lev, cnt := cnt', st := upd T.st (T.x.as s) (some t') } Ts, ?_, by simp [replaceTalk]⟩
    have hsent : ∀ W u B, ({ S with world := upd S.world s W, sent := upd S.sent s (S.sent s ++ [(out, pt, T.name)]) } : MSys).sentIn u B =
        if u = s ∧ T.name = B then S.sentIn u B ++ [(out, pt)] else S.sentIn u B := fun W => MSys.sentIn_append rfl
    simp only [Duo.step, hrun'] at hI'
    refine h.advance (s := s) (W := { S.world s with sessions := upd (S.world s).sessions (d.address s.other) (some (rec.setSessionState t')), known := upd (S.world s).known (d.address s.other) (some (ident s.other)), faults := [] })
      hT (by rfl) (by rfl) rfl rfl (.inl rfl) (upd_same _ _ _) ?_ (by intro _ _ _; rfl) ?_ (by intro u p hp; exact .inl hp) (rec' := rec.setSessionState t') (l' := l) (upd_same _ _ _) r1 ?_ r3 hI' ?_ ?_ ?_
      (.refl hnd) (.refl hnd) (Nat.le_succ _) (Nat.le_refl _) ?_
    · intro B hB u
      rw [hsent, if_neg (fun hx => hB hx.2.symm)]
    · intro u p hp
      dsimp only at hp
      by_cases hu : u = s
      · subst hu
        rw [upd_same, List.mem_append, List.mem_singleton] at hp
        rcases hp with hp | rfl
        · exact .inl hp
        · exact .inr rfl
      · rw [upd_ne _ _ hu] at hp
        exact .inl hp
    · intro u hu
      rw [r2 u hu]
      constructor
      · intro hh; exact ⟨rec, hr, hh⟩
      · rintro ⟨rec0, hr0, hh⟩
        rw [hr] at hr0
        simp only [Option.some.injEq] at hr0
        subst hr0
        exact hh
    · intro r
      rw [hsent]
      by_cases hrs : r = T.x.as s
      · subst hrs
        simp only [upd_same]
        rw [if_pos ⟨by rw [Side.as_as], trivial⟩]
        rfl
      · simp only [upd_ne _ _ hrs]
        rw [if_neg ?_]
        · rfl
        · rintro ⟨hx, _⟩
          exact hrs (by rw [← hx, Side.as_as])
    · intro r; rfl
    · intro hb
      simp only [upd_ne _ _ (Ne.symm hb)]
      exact ⟨rfl, rfl, rfl⟩
    · intro i hi
      exact .inl ⟨hi, rfl⟩

end Verif
