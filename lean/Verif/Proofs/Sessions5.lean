import Verif.Proofs.Sessions4

/-!
Receiving, in a conversation with several sessions.
-/

namespace Verif

attribute [local irreducible] maxMessageKeys

variable {d : Duo} {ident : Side → PubKey} {b : Bundle} {base : PubKey} {o : Opening} {G : List PubKey} {F F' : List Bytes} {N N' : Nat} {L : Nat → Rung}
  {lev cnt : Side → Nat} {st : Side → Option SState}

theorem Talk.top_eq (T : Talk) (r : Side) : T.lev r ≤ T.top := by
  unfold Talk.top; cases r <;> omega

/-- The states of other sessions have no use for the message. -/
theorem MInv.hopeless {S : MSys} {Ts : List Talk} (h : MInv d ident G F N S Ts) {T : Talk} (hT : T ∈ Ts) {s : Side} {c : Ciphertext} {pt : Bytes} {m : Signal} {e : Nat}
    {t : SState} {n : Nat} (ht : Target (d.as T.x) (fun r => ident (T.x.as r)) T.b T.base N T.L T.lev T.st (S.proj T) (T.x.as s) c pt m e t n)
    {rec : Record} (hr : (S.world s).sessions (d.address s.other) = some rec) {u : SState} (hu : rec.HasState u) (hne : u.aliceBaseKey ≠ T.name)
    (hcan : ∀ p, ¬ u.CanRead d.C m p) : Hopeless d.C m u := by
  obtain ⟨U, hU, he, hst⟩ := h.state hr hu
  have hv := (h.each U hU).view _ u hst
  refine hv.wf.hopeless ht.long ?_ hcan
  rintro ⟨ch, hch, hkey, _⟩
  obtain ⟨e', hlt, hk'⟩ := hv.key_of_chain hch
  rw [ht.rung.key] at hkey
  refine h.apart T hT U hU (fun hx => hne (he.trans hx.symm)) e (Nat.pos_of_ne_zero ht.pos) (Nat.le_trans ht.le (T.top_eq _)) e'
    (Nat.le_trans (Nat.le_of_lt hlt) (U.top_eq _)) ?_
  exact PubKey.bytes_inj (hkey.symm.trans hk')

theorem LoadsPair.unique {m : UInt32 → Option PreKeyRec} {i : UInt32} {o o' : Option KeyPair} (h1 : LoadsPair m i o) (h2 : LoadsPair m i o') : o = o' := by
  rcases h1 with ⟨h1, rfl⟩ | ⟨p, k, h1, h1', rfl⟩ <;> rcases h2 with ⟨h2, rfl⟩ | ⟨p', k', h2, h2', rfl⟩
  · rfl
  · rw [h1] at h2; simp at h2
  · rw [h1] at h2; simp at h2
  · rw [h1] at h2
    simp only [Option.some.injEq] at h2
    subst h2
    rw [h1'] at h2'
    simp only [Res.ok.injEq] at h2'
    rw [h2']

/-- What a delivery amounts to, for the session the message was sent in. -/
def Delivery (d : Duo) (ident : Side → PubKey) (Ts : List Talk) (S : MSys) (T : Talk) (s : Side) (c : Ciphertext) (rand : Bytes) (m : Signal) (t : SState) (j : Nat) : Prop :=
  (∃ p t' rd1 W rec' l', decryptMessageSession d.C t m (rand.drop (32 * j)) = (.ok (p, t'), rd1) ∧ d.receive s c rand (S.world s) = (.ok (some p), W) ∧
    W.identity = (S.world s).identity ∧ W.signedPreKeys = (S.world s).signedPreKeys ∧
    (W.preKeys = (S.world s).preKeys ∨ (T.x.as s = .bob ∧ W.preKeys = dropPreKey (S.world s).preKeys T.b.preKeyID)) ∧
    W.known (d.address s.other) = some (ident s.other) ∧ W.sessions (d.address s.other) = some rec' ∧ rec'.current = some t' ∧ RecOk Ts rec' l' ∧
    (∀ u, u.aliceBaseKey ≠ T.name → (rec'.HasState u ↔ ∃ rec, (S.world s).sessions (d.address s.other) = some rec ∧ rec.HasState u)) ∧
    (∀ u, some t' = some u ↔ rec'.HasState u ∧ u.aliceBaseKey = T.name)) ∨
  ((∀ p t' rd1, decryptMessageSession d.C t m (rand.drop (32 * j)) ≠ (.ok (p, t'), rd1)) ∧ ∃ r W, d.receive s c rand (S.world s) = (r, W) ∧
    (∀ p, r ≠ .ok (some p)) ∧ W.identity = (S.world s).identity ∧ W.signedPreKeys = (S.world s).signedPreKeys ∧ W.preKeys = (S.world s).preKeys ∧
    (W.known (d.address s.other) = none ∨ W.known (d.address s.other) = some (ident s.other)) ∧
    W.sessions (d.address s.other) = (S.world s).sessions (d.address s.other))

theorem mem_sentIn {S : MSys} {s : Side} {c : Ciphertext} {pt name : Bytes} (h : (c, pt, name) ∈ S.sent s) : (c, pt) ∈ S.sentIn s name := by
  unfold MSys.sentIn
  rw [List.mem_filterMap]
  exact ⟨_, h, by simp⟩

theorem Side.as_bob (x : Side) : x.as .bob = x.other := by cases x <;> rfl
theorem Side.as_alice (x : Side) : x.as .alice = x := by cases x <;> rfl

theorem MInv.attempt {S : MSys} {Ts : List Talk} (htr : d.Trusting ident) (h : MInv d ident G F N S Ts) (hlen : Ts.length ≤ 41) {T : Talk} (hT : T ∈ Ts) {s : Side}
    {c : Ciphertext} {pt : Bytes} (hmem : (c, pt, T.name) ∈ S.sent s.other) {rand : Bytes} (hrand : 32 * 41 ≤ rand.length) (hpool : ∀ j, j < 41 → rand.drop (32 * j) ∈ F)
    (hok : ∀ k n, c.position = some (k, n) → S.DeliveryOk d s c T.name k n rand) :
    ∃ m e t n j, Target (d.as T.x) (fun r => ident (T.x.as r)) T.b T.base N T.L T.lev T.st (S.proj T) (T.x.as s) c pt m e t n ∧ j < 41 ∧
      t.aliceBaseKey = T.name ∧ Delivery d ident Ts S T s c rand m t j := by
  have hI := h.each T hT
  have hmem' : (c, pt) ∈ (S.proj T).sent (T.x.as s).other := by
    simp only [MSys.proj, Side.as_other, Side.as_as]
    exact mem_sentIn hmem
  obtain ⟨m, e, t, n, ht⟩ := Inv.target hI hmem'
  have hdel := hok _ _ ht.position
  have hrecv : d.receive s c rand (S.world s) = decryptMessage (d.env s) (d.address s.other) c { S.world s with rand := rand, faults := [] } := by
    simp only [Duo.receive, ht.parses]
  have hpan : ∀ rd, (decryptMessageSession d.C t m rd).1 ≠ .panic := fun rd => ht.view.wf.no_panic ht.long rd
  have hstored : T.st (T.x.as s) = some t → ∃ rec, (S.world s).sessions (d.address s.other) = some rec ∧ rec.HasState t ∧ t.aliceBaseKey = T.name := by
    intro hst
    have := (h.link T hT (T.x.as s) t).mp hst
    simpa only [Side.as_as] using this
  have hident : ident (T.x.as (T.x.as s).other) = ident s.other := by simp only [Side.as_other, Side.as_as]
  rcases ht.how with ⟨hst, rfl⟩ | ⟨hbob, pm, rfl, rfl, p2, p3, p4, p5, p6, hnew⟩
  · -- a plain message
    obtain ⟨rec, hr, hhas, hname⟩ := hstored hst
    obtain ⟨l, hl⟩ := h.recs s rec hr
    obtain ⟨j, hj, hyes, hno⟩ := decryptRecord_single (C := d.C) (m := m) hl.wf hl.prev hhas hpan hl.nodup
      (fun u hu hne => h.hopeless hT ht hr hu (by rw [← hname]; exact hne)
        (fun p => hdel.confined rec u hr hu (by rw [← hname]; exact hne) m p rfl)) rand hrand
    refine ⟨m, e, t, n, j, ht, hj, hname, ?_⟩
    unfold Delivery
    by_cases hd : ∃ p t' rd1, decryptMessageSession d.C t m (rand.drop (32 * j)) = (.ok (p, t'), rd1)
    · left
      obtain ⟨p, t', rd1, hd⟩ := hd
      obtain ⟨rec', rd', hrun, hc', hl'⟩ := hyes p t' rd1 hd
      have hkeep := decryptMessageSession_keeps hd
      have hname' : t'.aliceBaseKey = T.name := hkeep.2.1.trans hname
      have hk' : t'.remoteIdentityKey = .ok (some (ident s.other)) := by
        have := ht.view.rem
        rw [hident] at this
        simp [SState.remoteIdentityKey, hkeep.2.2.2.1, this]
      have hsr := signal_run (E := d.env s) (a := d.address s.other) (m := m) (w := { S.world s with rand := rand, faults := [] })
        (rec := rec) (rec' := rec') (pt := some p) (rd := rd') (st := t') rfl hr (.ok p _ _ hrun) hc' hk' (htr s _ _ (h.known s))
      obtain ⟨l', hp', hl''⟩ : ∃ l', rec'.previousStates = .ok l' ∧ ((rec.current = some t ∧ l' = l) ∨ ∃ l1 l2, l = l1 ++ t :: l2 ∧ l' = l1 ++ l2 ++ rec.current.toList) := by
        rcases hl' with ⟨a1, a2⟩ | ⟨l1, l2, a1, a2⟩
        · exact ⟨l, a2, .inl ⟨a1, rfl⟩⟩
        · exact ⟨_, a2, .inr ⟨l1, l2, a1, rfl⟩⟩
      obtain ⟨r1, r2, r3⟩ := hl.replace hT hname hname' (hl.wf.decrypt hrun) hc' hp' hl''
      refine ⟨p, t', rd1, _, rec', l', hd, hrecv.trans hsr, rfl, rfl, .inl rfl, upd_same _ _ _, upd_same _ _ _, hc', r1, ?_, r3⟩
      intro u hu
      rw [r2 u hu]
      constructor
      · intro hh; exact ⟨rec, hr, hh⟩
      · rintro ⟨rec0, hr0, hh⟩
        rw [hr] at hr0
        simp only [Option.some.injEq] at hr0
        subst hr0
        exact hh
    · right
      have hd' : ∀ p t' rd1, decryptMessageSession d.C t m (rand.drop (32 * j)) ≠ (.ok (p, t'), rd1) := fun p t' rd1 hx => hd ⟨p, t', rd1, hx⟩
      obtain ⟨er, rd', hrun⟩ := hno hd'
      refine ⟨hd', ?_⟩
      obtain ⟨cu, hcu⟩ : ∃ cu, rec.current = some cu := by
        cases hc : rec.current with
        | none => exact absurd hc hl.cur
        | some cu => exact ⟨cu, rfl⟩
      obtain ⟨U, hU, _, hUst⟩ := h.state hr (u := cu) (.inl hcu)
      have hrk := ((h.each U hU).view _ cu hUst).remoteKey
      simp only [Side.as_other, Side.as_as] at hrk
      have hsr := signal_run (E := d.env s) (a := d.address s.other) (m := m) (w := { S.world s with rand := rand, faults := [] })
        (rec := rec) (rec' := rec) (pt := none) (rd := rd') (st := cu) rfl hr (.failed er _ hrun) hcu hrk (htr s _ _ (h.known s))
      exact ⟨_, _, hrecv.trans hsr, by simp, rfl, rfl, rfl, .inr (upd_same _ _ _), by rw [hr]; exact upd_same _ _ _⟩
  · -- a pre-key message
    have hs : s = T.x.other := by rw [← Side.as_bob, ← hbob, Side.as_as]
    have hso : s.other = T.x := by rw [hs, Side.other_other]
    have hal : ident (T.x.as .alice) = ident s.other := by rw [Side.as_alice, hso]
    have hw : (S.proj T).world .bob = { S.world s with sessions := fun _ => (T.st .bob).map fun t => { current := some t } } := by
      simp only [MSys.proj, Side.as_bob, ← hs]
    have hname : t.aliceBaseKey = T.name := ht.named hbob
    have hver : t.version = 3 := by simp [SState.version, ht.view.wf.version]
    have hgot : T.st .bob = none → (S.proj T).got .bob = [] := fun hn => (hI.notReady hn).2.2.2.1
    -- the record in which decryption is tried
    obtain ⟨id, rec1, l1, hp, huniq, hok1, hhas1, hsame1, hid, hmid⟩ : ∃ (id : Option UInt32) (rec1 : Record) (l1 : List SState),
        Processed (d.env s) { S.world s with rand := rand, faults := [] } (((S.world s).sessions (d.address s.other)).getD {}) pm id rec1 ∧
        (∀ id' rec', Processed (d.env s) { S.world s with rand := rand, faults := [] } (((S.world s).sessions (d.address s.other)).getD {}) pm id' rec' → rec' = rec1) ∧
        RecOk Ts rec1 l1 ∧ rec1.HasState t ∧
        (∀ u, u.aliceBaseKey ≠ T.name → (rec1.HasState u ↔ ∃ rec, (S.world s).sessions (d.address s.other) = some rec ∧ rec.HasState u)) ∧
        (id = none ∨ id = T.b.preKeyID) ∧
        (mid (d.env s) (d.address s.other) ((S.world s).sessions (d.address s.other)).isSome (S.world s).sessions rec1 = (S.world s).sessions ∨
          ∀ j, j < 41 → ∃ p t' rd1, decryptMessageSession d.C t pm.message (rand.drop (32 * j)) = (.ok (p, t'), rd1)) := by
      rcases hnew with hst | ⟨hst, signed, one, s0, b1, b2, b3, hteq⟩
      · rw [← hbob] at hst
        obtain ⟨rec, hr, hhas, _⟩ := hstored hst
        obtain ⟨l, hl⟩ := h.recs s rec hr
        have hfound : rec.hasSessionState pm.version.toUInt32 pm.baseKey.bytes = .ok true := by
          rcases hl.wf.hasSessionState pm.version.toUInt32 pm.baseKey with ⟨_, hx⟩ | ⟨hx, _⟩
          · exact hx
          · exact absurd ⟨t, hhas, by rw [p2, hver]; rfl, by rw [p3]; exact hname⟩ hx
        refine ⟨none, rec, l, ?_, ?_, hl, hhas, ?_, .inl rfl, .inl ?_⟩
        · rw [hr]; exact .found hfound
        · intro id' rec' hpr
          rw [hr] at hpr
          cases hpr with
          | found => rfl
          | fresh hf =>
            simp only [Option.getD_some, hfound] at hf
            simp at hf
        · intro u _
          constructor
          · intro hh; exact ⟨rec, hr, hh⟩
          · rintro ⟨rec0, hr0, hh⟩
            rw [hr] at hr0
            simp only [Option.some.injEq] at hr0
            subst hr0
            exact hh
        · have := mid_self (d.env s) (d.address s.other) (S.world s).sessions
          rw [hr] at this ⊢
          exact this
      · -- a new session
        rw [hw] at b1 b2 b3 hteq
        -- the states that are there, all of other sessions
        obtain ⟨rec0, l0, hrec0, q1, q2, q3, q4, q5, q6⟩ : ∃ rec0 l0, ((S.world s).sessions (d.address s.other)).getD {} = rec0 ∧ rec0.WF ∧ rec0.previousStates = .ok l0 ∧
            ((rec0.current.toList ++ l0).map (·.aliceBaseKey)).Nodup ∧ (∀ u ∈ rec0.current.toList ++ l0, ∃ U ∈ Ts, u.aliceBaseKey = U.name) ∧
            (∀ u, rec0.HasState u ↔ ∃ rec, (S.world s).sessions (d.address s.other) = some rec ∧ rec.HasState u) ∧
            (∀ u ∈ rec0.current.toList ++ l0, u.aliceBaseKey ≠ T.name) := by
          cases hr : (S.world s).sessions (d.address s.other) with
          | none =>
            refine ⟨{}, [], rfl, .empty, rfl, by simp, by simp, ?_, by simp⟩
            intro u
            simp [Record.HasState]
          | some rec =>
            obtain ⟨l, hl⟩ := h.recs s rec hr
            refine ⟨rec, l, rfl, hl.wf, hl.prev, hl.nodup, hl.known, ?_, ?_⟩
            · intro u
              constructor
              · intro hh; exact ⟨rec, rfl, hh⟩
              · rintro ⟨rec0, hr0, hh⟩
                simp only [Option.some.injEq] at hr0
                subst hr0
                exact hh
            · intro u hu he
              have hx : T.st (T.x.as s) = some u := by
                rw [h.link T hT, Side.as_as]
                exact ⟨rec, hr, (hl.mem u).mpr hu, he⟩
              rw [hbob, hst] at hx
              simp at hx
        have hnot : rec0.hasSessionState pm.version.toUInt32 pm.baseKey.bytes = .ok false := by
          rcases q1.hasSessionState pm.version.toUInt32 pm.baseKey with ⟨⟨u, hu, _, hx⟩, _⟩ | ⟨_, hx⟩
          · exfalso
            rw [p3] at hx
            refine q6 u ?_ hx
            rw [List.mem_append, Option.mem_toList]
            exact (q1.hasState q2 u).mp hu
          · exact hx
        have hless : (rec0.current.toList ++ l0).length ≤ 40 := by
          have : ((rec0.current.toList ++ l0).map (·.aliceBaseKey)).length ≤ ((Ts.map Talk.name).erase T.name).length := by
            refine (List.Nodup.subperm q3 ?_).length_le
            intro x hx
            rw [List.mem_map] at hx
            obtain ⟨u, hu, rfl⟩ := hx
            obtain ⟨U, hU, he⟩ := q4 u hu
            rw [h.names.mem_erase_iff]
            exact ⟨q6 u hu, by rw [he]; exact List.mem_map_of_mem hU⟩
          rw [List.length_erase_of_mem (List.mem_map_of_mem hT)] at this
          simp only [List.length_map] at this
          omega
        obtain ⟨c1, c2⟩ := q1.promoted q2 hless t
        obtain ⟨a1, a2, a3⟩ := RecOk.make (rest := rec0.current.toList ++ l0) hT (q1.promoteState ht.view.wf) c1 c2 hname q3 q6 q4 List.perm_append_comm
        refine ⟨pm.preKeyID, rec0.promoteState t, _, ?_, ?_, a1, .inl c1, ?_, .inr p5, ?_⟩
        · have := Processed.fresh (E := d.env s) (w := { S.world s with rand := rand, faults := [] }) (rec := rec0) (msg := pm) hnot (some signed) one s0
            (by rw [p6]; exact b1) (by rw [p5]; exact b2) (by rw [p3, p4]; exact b3) t (by rw [p3]; exact hteq)
          rw [hrec0]
          exact this
        · intro id' rec' hpr
          rw [hrec0] at hpr
          cases hpr with
          | found hf =>
            rw [hnot] at hf
            simp at hf
          | fresh hf signed' one' s0' e1 e2 e3 s'' hs'' =>
            rw [p6] at e1
            rw [p5] at e2
            rw [p3, p4] at e3
            have w1 := LoadsPair.unique b1 e1
            subst w1
            have w2 : one = one' := by
              cases hpid : T.b.preKeyID with
              | none => simp only [hpid] at b2 e2; rw [b2, e2]
              | some i => simp only [hpid] at b2 e2; exact LoadsPair.unique b2 e2
            subst w2
            have e3 : initializeBobSession d.C ⟨(S.world s).identity, some signed, one, some signed, ident (T.x.as .alice), T.base⟩ = .ok s0' := e3
            have b3 : initializeBobSession d.C ⟨(S.world s).identity, some signed, one, some signed, ident (T.x.as .alice), T.base⟩ = .ok s0 := b3
            rw [b3] at e3
            simp only [Res.ok.injEq] at e3
            subst e3
            rw [hs'', hteq, p3]
        · intro u hu
          rw [a2 u hu, ← q5 u, q1.hasState q2 u, List.mem_append, Option.mem_toList]
        · by_cases hali : d.aliased s = true
          · cases hr : (S.world s).sessions (d.address s.other) with
            | none => left; simp [mid]
            | some rec =>
              right
              have hn := hdel.first hali rec hr (by
                intro u hu
                have := (q5 u).mpr ⟨rec, hr, hu⟩
                refine q6 u ?_
                rw [List.mem_append, Option.mem_toList]
                exact (q1.hasState q2 u).mp this)
              intro j hj
              have hI' : Verif.Inv (d.as T.x) (fun r => ident (T.x.as r)) T.b T.base T.o (rand.drop (32 * j) :: []) N T.L T.lev T.cnt T.st (S.proj T) := by
                refine Verif.Inv.move hI rfl rfl (fun _ => rfl) hI.known (fun _ => ⟨rfl, rfl, fun _ _ => rfl⟩) ⟨?_, by simp⟩ (Nat.le_refl _)
                intro x hx
                rw [List.mem_singleton] at hx
                subst hx
                exact hpool j hj
              obtain ⟨t', rd', hx⟩ := Inv.opens hI' ht (by
                rw [hbob, hgot hst]
                exact ⟨.inr (by simp [chainsSeen]), by simp, by simp [newestUnder]; exact hn, by simp [newestUnder]⟩)
              exact ⟨pt, t', rd', hx⟩
          · left
            simp only [Bool.not_eq_true] at hali
            exact mid_copying hali _ _ _ _
    -- decryption
    have hrun0 : ∀ x, decryptMessage (d.env s) (d.address s.other) (.preKey pm) x = (decryptPreKey (d.env s) (d.address s.other) pm >>= fun p => (pure (some p) : M World (Option Bytes))) x := fun x => rfl
    obtain ⟨j, hj, hyes, hno⟩ := decryptRecord_single (C := d.C) (m := pm.message) hok1.wf hok1.prev hhas1 hpan hok1.nodup
      (fun u hu hne => by
        rw [hname] at hne
        obtain ⟨rec, hr, hu'⟩ := (hsame1 u hne).mp hu
        exact h.hopeless hT ht hr hu' hne (fun p => hdel.confined rec u hr hu' hne pm.message p rfl)) rand hrand
    refine ⟨pm.message, e, t, n, j, ht, hj, hname, ?_⟩
    unfold Delivery
    by_cases hd : ∃ p t' rd1, decryptMessageSession d.C t pm.message (rand.drop (32 * j)) = (.ok (p, t'), rd1)
    · left
      obtain ⟨p, t', rd1, hd⟩ := hd
      obtain ⟨rec', rd', hrun, hc', hl'⟩ := hyes p t' rd1 hd
      have hname' : t'.aliceBaseKey = T.name := (decryptMessageSession_keeps hd).2.1.trans hname
      have hpr := preKey_run (E := d.env s) (a := d.address s.other) (m := pm) (w := { S.world s with rand := rand, faults := [] })
        (rec := rec1) (rec' := rec') (id := id) rfl (by rw [p4, hal]; exact htr s _ _ (h.known s)) hp hrun
      obtain ⟨l', hp', hl''⟩ : ∃ l', rec'.previousStates = .ok l' ∧ ((rec1.current = some t ∧ l' = l1) ∨ ∃ k1 k2, l1 = k1 ++ t :: k2 ∧ l' = k1 ++ k2 ++ rec1.current.toList) := by
        rcases hl' with ⟨a1, a2⟩ | ⟨k1, k2, a1, a2⟩
        · exact ⟨l1, a2, .inl ⟨a1, rfl⟩⟩
        · exact ⟨_, a2, .inr ⟨k1, k2, a1, rfl⟩⟩
      obtain ⟨r1, r2, r3⟩ := hok1.replace hT hname hname' (hok1.wf.decrypt hrun) hc' hp' hl''
      refine ⟨p, t', rd1, _, rec', l', hd, (hrecv.trans (hrun0 _)).trans (M.bind_ok_run hpr), rfl, rfl, ?_, ?_, upd_same _ _ _, hc', r1, ?_, r3⟩
      · rcases hid with rfl | rfl
        · exact .inl rfl
        · exact .inr ⟨hbob, rfl⟩
      · rw [p4, hal]; exact upd_same _ _ _
      · intro u hu
        rw [r2 u hu, hsame1 u hu]
    · right
      have hd' : ∀ p t' rd1, decryptMessageSession d.C t pm.message (rand.drop (32 * j)) ≠ (.ok (p, t'), rd1) := fun p t' rd1 hx => hd ⟨p, t', rd1, hx⟩
      obtain ⟨er, rd', hrun⟩ := hno hd'
      refine ⟨hd', ?_⟩
      have hmid' : mid (d.env s) (d.address s.other) ((S.world s).sessions (d.address s.other)).isSome (S.world s).sessions rec1 = (S.world s).sessions := by
        rcases hmid with hm | hm
        · exact hm
        · exact absurd (hm j hj) hd
      have ho := preKey_outcome (d.env s) (d.address s.other) pm { S.world s with rand := rand, faults := [] }
      rw [hrecv, hrun0, M.bind_run]
      generalize decryptPreKey (d.env s) (d.address s.other) pm { S.world s with rand := rand, faults := [] } = x at ho ⊢
      obtain ⟨r, w'⟩ := x
      simp only at ho ⊢
      cases ho with
      | early _ fs hr =>
        cases r with
        | ok => simp at hr
        | err => exact ⟨_, _, rfl, by simp, rfl, rfl, rfl, h.known s, rfl⟩
        | panic => exact ⟨_, _, rfl, by simp, rfl, rfl, rfl, h.known s, rfl⟩
      | processed _ fs hr id' rec' rd' _ hp' known hk =>
        have := huniq _ _ hp'
        subst this
        have hk' : known (d.address s.other) = none ∨ known (d.address s.other) = some (ident s.other) := by
          rcases hk with rfl | rfl
          · exact h.known s
          · rw [upd_same, p4, hal]; exact .inr rfl
        have hmid'' := congrFun hmid' (d.address s.other)
        cases r with
        | ok => simp at hr
        | err => exact ⟨_, _, rfl, by simp, rfl, rfl, rfl, hk', hmid''⟩
        | panic => exact ⟨_, _, rfl, by simp, rfl, rfl, rfl, hk', hmid''⟩
      | decrypted _ fs hr id' rec' rec2 p rd2 _ hp' hd2 =>
        have := huniq _ _ hp'
        subst this
        have hd2 : decryptRecord d.C rec' pm.message rand = (.ok (p, rec2), rd2) := hd2
        rw [hrun] at hd2
        simp at hd2
      | done fs id' rec' rec2 p rd2 _ hp' hd2 =>
        have := huniq _ _ hp'
        subst this
        have hd2 : decryptRecord d.C rec' pm.message rand = (.ok (p, rec2), rd2) := hd2
        rw [hrun] at hd2
        simp at hd2

end Verif
