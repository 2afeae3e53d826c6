import Verif.Proofs.Sessions2

/-!
What the delivery of a message amounts to for the session it was sent in, and how the records change.
-/

namespace Verif

attribute [local irreducible] maxMessageKeys

variable {d : Duo} {ident : Side → PubKey} {b : Bundle} {base : PubKey} {o : Opening} {G : List PubKey} {F F' : List Bytes} {N N' : Nat} {L : Nat → Rung}
  {lev cnt : Side → Nat} {st : Side → Option SState}

/-- The state that is to read a message: the one the receiver has, or the one that is set up for it. -/
structure Target (d : Duo) (ident : Side → PubKey) (b : Bundle) (base : PubKey) (N : Nat) (L : Nat → Rung) (lev : Side → Nat) (st : Side → Option SState)
    (S : DSys) (s : Side) (c : Ciphertext) (pt : Bytes) (m : Signal) (e : Nat) (t : SState) (n : Nat) : Prop where
  num : n ≤ N ∧ n = sentUnder (S.sent s) (L (lev s)).kp.pub
  le : e ≤ lev s.other
  par : e % 2 = rungOf s.other
  pos : e ≠ 0
  parses : c.reparse = .ok c
  position : c.position = some (m.senderRatchetKey, m.counter)
  inner : c.inner = some m
  rung : OnRung d.C L e (ident s.other) (ident s) m pt
  view : View d.C L (lev s) (ident s) (ident s.other) (S.got s) n t
  named : s = .bob → t.aliceBaseKey = base.bytes
  ready : s = .alice → st .bob ≠ none
  how : (st s = some t ∧ c = .signal m) ∨
    (s = .bob ∧ ∃ pm, c = .preKey pm ∧ pm.message = m ∧ pm.version = 3 ∧ pm.baseKey = base ∧ pm.identityKey = ident .alice ∧
      pm.preKeyID = b.preKeyID ∧ pm.signedPreKeyID = b.signedPreKeyID ∧
      (st .bob = some t ∨ (st .bob = none ∧ ∃ (signed : KeyPair) (one : Option KeyPair) (s0 : SState),
        LoadsPair (S.world .bob).signedPreKeys b.signedPreKeyID (some signed) ∧
        (match b.preKeyID with | none => one = none | some id => LoadsPair (S.world .bob).preKeys id one) ∧
        initializeBobSession d.C ⟨(S.world .bob).identity, some signed, one, some signed, ident .alice, base⟩ = .ok s0 ∧
        t = { s0 with localRegistrationId := (S.world .bob).regId, remoteRegistrationId := pm.registrationID, aliceBaseKey := base.bytes })))

theorem Inv.target {S : DSys} (h : Inv d ident b base o F N L lev cnt st S) {s : Side} {c : Ciphertext} {pt : Bytes} (hmem : (c, pt) ∈ S.sent s.other) :
    ∃ m e t n, Target d ident b base N L lev st S s c pt m e t n := by
  obtain ⟨m, e, e1, e2, e3, e4, e5, e6, e7⟩ := h.sent _ _ hmem
  rw [Side.other_other] at e4
  simp only at e4 e5 e6 e7
  have hready : s = .alice → st .bob ≠ none := by
    rintro rfl hb
    obtain ⟨_, _, _, _, n5, _⟩ := h.notReady hb
    simp only [Side.other, n5] at hmem
    simp at hmem
  rcases e7 with ⟨hc, hbr⟩ | ⟨hsa, pm, hc, hpm⟩
  · subst hc
    have hsome : ∃ t, st s = some t := by
      cases s with
      | alice => obtain ⟨t, ht, _⟩ := h.alice; exact ⟨t, ht⟩
      | bob =>
        cases hb : st .bob with
        | none => exact absurd hb hbr
        | some t => exact ⟨t, rfl⟩
    obtain ⟨t, hst⟩ := hsome
    exact ⟨m, e, t, cnt s, ⟨h.count s, h.book.tally s⟩, e1, e2, e3, e5, e6, rfl, e4, h.view s t hst, by rintro rfl; exact (h.ready t hst).2.1, hready,
      .inl ⟨hst, rfl⟩⟩
  · have hsb : s = .bob := by cases s <;> simp_all [Side.other]
    subst hsb
    subst hc
    obtain ⟨rfl, p2, p3, p4, p5, p6, _⟩ := hpm
    cases hst : st .bob with
    | some t =>
      exact ⟨pm.message, e, t, cnt .bob, ⟨h.count _, h.book.tally _⟩, e1, e2, e3, e5, e6, rfl, e4, h.view .bob t hst, fun _ => (h.ready t hst).2.1, hready,
        .inr ⟨rfl, pm, rfl, rfl, p2, p3, p4, p5, p6, .inl hst⟩⟩
    | none =>
      obtain ⟨n1, n2, n3, n4, n5, signed, one, s0, b1, b2, b3, b4⟩ := h.notReady hst
      refine ⟨pm.message, e, { s0 with localRegistrationId := (S.world .bob).regId, remoteRegistrationId := pm.registrationID, aliceBaseKey := base.bytes }, 0,
        ⟨Nat.zero_le _, by rw [n5]; rfl⟩, e1, e2, e3, e5, e6, rfl, e4, ?_, fun _ => rfl, hready,
        .inr ⟨rfl, pm, rfl, rfl, p2, p3, p4, p5, p6, .inr ⟨hst, signed, one, s0, b1, b2, b3, rfl⟩⟩⟩
      rw [n2, n4]
      exact b4 _ _

theorem Inv.opens {rd : Bytes} {S : DSys} (h : Inv d ident b base o (rd :: F) N L lev cnt st S) {s : Side} {c : Ciphertext} {pt : Bytes} {m : Signal} {e : Nat}
    {t : SState} {n : Nat} (ht : Target d ident b base N L lev st S s c pt m e t n) (hw : InWindow (S.got s) m.senderRatchetKey m.counter) :
    ∃ s' rd', decryptMessageSession d.C t m rd = (.ok (pt, s'), rd') := by
  have h2 := ht.le
  have h6 := ht.rung
  have h7 := ht.view
  have htop := h.top s
  by_cases hseen : m.senderRatchetKey ∈ chainsSeen (S.got s)
  · have hlt := h.below (s := s) h2 (h6.key ▸ hseen)
    have hrec : m.senderRatchetKey ∈ recentChains (S.got s) := by
      rcases hw.chain with hx | hx
      · exact hx
      · exact absurd hseen hx
    refine h7.opens_known h.lad (by omega) rd hlt h6 ?_ hw.unread hw.ahead hw.behind
    rw [h.seen s]
    exact lastN_append_left hrec
  · obtain ⟨rfl, hlo⟩ := h.unseen h2 ht.par ht.pos (h6.key ▸ hseen)
    have hmx : max (lev .alice) (lev .bob) = lev s + 1 := by rw [htop]; omega
    have hrd : 32 ≤ rd.length := by
      obtain ⟨f1, _⟩ := h.fresh
      obtain ⟨_, _, _, hl, _⟩ := publicKeyOf_some (C := d.C) (rd := rd) (fun hn => f1 (by rw [← hn]; simp))
      exact hl
    have hz := newestUnder_none (h.gotNot (s := s) h2 (by omega))
    have ha := hw.ahead
    rw [h6.key, hz] at ha
    exact h7.opens_new (hmx ▸ h.lad) (h.gotNot h2 (by omega)) h6 hrd (by omega)

theorem Target.long {S : DSys} {s : Side} {c : Ciphertext} {pt : Bytes} {m : Signal} {e : Nat} {t : SState} {n : Nat}
    (ht : Target d ident b base N L lev st S s c pt m e t n) : 8 ≤ m.serialized.length := by
  have hp := ht.parses
  have hi := ht.inner
  cases c with
  | signal m' =>
    simp only [Ciphertext.inner, Option.some.injEq] at hi
    subst hi
    simp only [Ciphertext.reparse, Res.bind_eq_ok] at hp
    obtain ⟨m', h1, h2⟩ := hp
    simp only [Res.pure_eq, Res.ok.injEq, Ciphertext.signal.injEq] at h2
    subst h2
    exact parsed_signal_length h1
  | preKey pm =>
    simp only [Ciphertext.inner, Option.some.injEq] at hi
    subst hi
    simp only [Ciphertext.reparse, Res.bind_eq_ok] at hp
    obtain ⟨m', h1, h2⟩ := hp
    simp only [Res.pure_eq, Res.ok.injEq, Ciphertext.preKey.injEq] at h2
    subst h2
    exact parsed_preKey_length h1
  | _ => simp [Ciphertext.inner] at hi

/-! ## Records -/

theorem RecOk.mem {Ts : List Talk} {rec : Record} {l : List SState} (h : RecOk Ts rec l) (u : SState) :
    rec.HasState u ↔ u ∈ rec.current.toList ++ l := by
  rw [h.wf.hasState h.prev u, List.mem_append, Option.mem_toList]

/-- States of different names in a record are at most as many as there are sessions. -/
theorem names_le {Ts : List Talk} {l : List SState} (hn : (l.map (·.aliceBaseKey)).Nodup) (hk : ∀ u ∈ l, ∃ T ∈ Ts, u.aliceBaseKey = T.name) :
    l.length ≤ Ts.length := by
  have h1 : (l.map (·.aliceBaseKey)).length ≤ (Ts.map Talk.name).length := by
    refine (List.Nodup.subperm hn ?_).length_le
    intro x hx
    rw [List.mem_map] at hx
    obtain ⟨u, hu, rfl⟩ := hx
    obtain ⟨T, hT, he⟩ := hk u hu
    rw [he]
    exact List.mem_map_of_mem hT
  simpa using h1

/-- A record that consists of a state for a session, and of states of others. -/
theorem RecOk.make {Ts : List Talk} {rec' : Record} {l' rest : List SState} {t' : SState} {T : Talk} (hT : T ∈ Ts) (hwf : rec'.WF)
    (hc : rec'.current = some t') (hp : rec'.previousStates = .ok l') (hb : t'.aliceBaseKey = T.name) (hr : (rest.map (·.aliceBaseKey)).Nodup)
    (hne : ∀ u ∈ rest, u.aliceBaseKey ≠ T.name) (hk : ∀ u ∈ rest, ∃ T ∈ Ts, u.aliceBaseKey = T.name) (hperm : l'.Perm rest) :
    RecOk Ts rec' l' ∧ (∀ u, u.aliceBaseKey ≠ T.name → (rec'.HasState u ↔ u ∈ rest)) ∧
    ∀ u, some t' = some u ↔ rec'.HasState u ∧ u.aliceBaseKey = T.name := by
  have hok : RecOk Ts rec' l' := by
    refine ⟨hwf, by rw [hc]; simp, hp, ?_, ?_⟩
    · rw [hc]
      simp only [Option.toList_some, List.singleton_append, List.map_cons, List.nodup_cons]
      refine ⟨?_, (hperm.map _).nodup_iff.mpr hr⟩
      intro hm
      rw [List.mem_map] at hm
      obtain ⟨u, hu, he⟩ := hm
      exact hne u (hperm.mem_iff.mp hu) (he.trans hb)
    · rw [hc]
      simp only [Option.toList_some, List.singleton_append, List.mem_cons]
      rintro u (rfl | hu)
      · exact ⟨T, hT, hb⟩
      · exact hk u (hperm.mem_iff.mp hu)
  have hmem : ∀ u, rec'.HasState u ↔ u = t' ∨ u ∈ rest := by
    intro u
    rw [hok.mem u, hc]
    simp only [Option.toList_some, List.singleton_append, List.mem_cons, hperm.mem_iff]
  refine ⟨hok, ?_, ?_⟩
  · intro u hu
    rw [hmem u]
    constructor
    · rintro (rfl | h)
      · exact absurd hb hu
      · exact h
    · exact .inr
  · intro u
    rw [hmem u, Option.some.injEq]
    constructor
    · rintro rfl; exact ⟨.inl rfl, hb⟩
    · rintro ⟨rfl | h, h2⟩
      · rfl
      · exact absurd h2 (hne u h)

/-- The states of the other sessions in a record that has a state of this one. -/
theorem RecOk.split {Ts : List Talk} {rec : Record} {l : List SState} (h : RecOk Ts rec l) {t : SState} (ht : rec.HasState t) :
    (rec.current = some t ∧ (l.map (·.aliceBaseKey)).Nodup ∧ (∀ u ∈ l, u.aliceBaseKey ≠ t.aliceBaseKey) ∧
      ∀ u, u.aliceBaseKey ≠ t.aliceBaseKey → (rec.HasState u ↔ u ∈ l)) ∨
    ∃ l1 l2, l = l1 ++ t :: l2 ∧ rec.current ≠ some t := by
  rcases (h.wf.hasState h.prev t).mp ht with hc | hc
  · left
    have hn := h.nodup
    rw [hc] at hn
    simp only [Option.toList_some, List.singleton_append, List.map_cons, List.nodup_cons] at hn
    refine ⟨hc, hn.2, ?_, ?_⟩
    · intro u hu he
      exact hn.1 (by rw [← he]; exact List.mem_map_of_mem hu)
    · intro u hu
      rw [h.wf.hasState h.prev u, hc]
      constructor
      · rintro (hx | hx)
        · simp only [Option.some.injEq] at hx
          subst hx
          exact absurd rfl hu
        · exact hx
      · exact .inr
  · right
    obtain ⟨l1, l2, rfl⟩ := List.append_of_mem hc
    refine ⟨l1, l2, rfl, ?_⟩
    intro hcur
    have hn := h.nodup
    rw [hcur] at hn
    simp at hn

/-- A state of a record is replaced by a later one of the same session, which becomes the current one. -/
theorem RecOk.replace {Ts : List Talk} {rec rec' : Record} {l l' : List SState} (h : RecOk Ts rec l) {t t' : SState} {T : Talk} (hT : T ∈ Ts)
    (ht : t.aliceBaseKey = T.name) (ht' : t'.aliceBaseKey = T.name) (hwf : rec'.WF) (hc : rec'.current = some t') (hp : rec'.previousStates = .ok l')
    (hl : (rec.current = some t ∧ l' = l) ∨ ∃ l1 l2, l = l1 ++ t :: l2 ∧ l' = l1 ++ l2 ++ rec.current.toList) :
    RecOk Ts rec' l' ∧ (∀ u, u.aliceBaseKey ≠ T.name → (rec'.HasState u ↔ rec.HasState u)) ∧
    ∀ u, some t' = some u ↔ rec'.HasState u ∧ u.aliceBaseKey = T.name := by
  have hperm : (t :: l').Perm (rec.current.toList ++ l) := by
    rcases hl with ⟨h1, rfl⟩ | ⟨l1, l2, rfl, rfl⟩
    · rw [h1]; simp
    · have : (t :: (l1 ++ l2 ++ rec.current.toList)).Perm ((l1 ++ t :: l2) ++ rec.current.toList) := by
        rw [List.append_assoc, List.append_assoc, List.cons_append]
        exact List.perm_middle.symm
      exact this.trans List.perm_append_comm
  have hn := (hperm.map (·.aliceBaseKey)).nodup_iff.mpr h.nodup
  rw [List.map_cons, List.nodup_cons] at hn
  have hne : ∀ u ∈ l', u.aliceBaseKey ≠ T.name := by
    intro u hu he
    exact hn.1 (by rw [ht, ← he]; exact List.mem_map_of_mem hu)
  obtain ⟨a1, a2, a3⟩ := RecOk.make hT hwf hc hp ht' hn.2 hne (fun u hu => h.known u (hperm.mem_iff.mp (by simp [hu]))) (List.Perm.refl _)
  refine ⟨a1, ?_, a3⟩
  intro u hu
  rw [a2 u hu, h.mem u, ← hperm.mem_iff, List.mem_cons]
  constructor
  · exact .inr
  · rintro (rfl | hx)
    · exact absurd ht hu
    · exact hx

/-- A new state is made the current one. -/
theorem RecOk.promote {Ts : List Talk} {rec : Record} {l : List SState} (hwf : rec.WF) (hl : rec.previousStates = .ok l)
    (hn : ((rec.current.toList ++ l).map (·.aliceBaseKey)).Nodup) {Ts' : List Talk} (hk : ∀ u ∈ rec.current.toList ++ l, ∃ T ∈ Ts', u.aliceBaseKey = T.name)
    (hsub : ∀ T ∈ Ts', T ∈ Ts) (h40 : Ts'.length ≤ 40) {t : SState} {T : Talk} (hT : T ∈ Ts) (ht : t.aliceBaseKey = T.name) (htwf : t.WF)
    (hno : ∀ u ∈ rec.current.toList ++ l, u.aliceBaseKey ≠ T.name) :
    RecOk Ts (rec.promoteState t) (l ++ rec.current.toList) ∧ (rec.promoteState t).current = some t ∧
    (∀ u, u.aliceBaseKey ≠ T.name → ((rec.promoteState t).HasState u ↔ rec.HasState u)) ∧
    ∀ u, some t = some u ↔ (rec.promoteState t).HasState u ∧ u.aliceBaseKey = T.name := by
  obtain ⟨p1, p2⟩ := hwf.promoted hl (Nat.le_trans (names_le hn hk) h40) t
  obtain ⟨a1, a2, a3⟩ := RecOk.make (rest := rec.current.toList ++ l) hT (hwf.promoteState htwf) p1 p2 ht hn hno
    (fun u hu => by obtain ⟨U, hU, he⟩ := hk u hu; exact ⟨U, hsub U hU, he⟩) List.perm_append_comm
  refine ⟨a1, p1, ?_, a3⟩
  intro u hu
  rw [a2 u hu, hwf.hasState hl u, List.mem_append, Option.mem_toList]

end Verif
