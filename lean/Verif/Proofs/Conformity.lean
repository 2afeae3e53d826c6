import Verif.Proofs.Duo
import Verif.Spec.Conformity

/-!
The messages of a conversation are the ones the protocol prescribes.
-/

namespace Verif

variable {d : Duo} {ident : Side → PubKey} {b : Bundle} {base : PubKey} {o : Opening} {F : List Bytes} {N : Nat} {L : Nat → Rung}
  {lev cnt : Side → Nat} {st : Side → Option SState} {S : DSys}

theorem peers_length (L : Nat → Rung) : ∀ x, (peers L x).length = (x + 1) / 2
  | 0 => rfl
  | 1 => rfl
  | x + 2 => by
    rw [peers, List.length_append, peers_length L x]
    simp only [List.length_cons, List.length_nil]
    omega

/-- The rung of a side, counted from what it has accepted. -/
theorem Inv.turn_eq (h : Inv d ident b base o F N L lev cnt st S) (s : Side) : turn S s = lev s := by
  have h1 := congrArg List.length (h.seen s)
  rw [List.length_map, peers_length, List.length_append] at h1
  have h2 := h.par s
  cases s <;> simp only [rungOf, preChains, turn, List.length_cons, List.length_nil] at * <;> omega

/-- The keys of the ladder are those of the protocol. -/
theorem Ladder.ratchet_eq {C : Crypto} {t : Nat} (h : Ladder C L t) {start : Doc.Keys} (hs : start = ⟨(L 0).root.key, (L 0).ck.key⟩) :
    ∀ i, i ≤ t → Doc.ratchet C start (fun j => (L j).kp) i = ⟨(L i).root.key, (L i).ck.key⟩ := by
  intro i
  induction i with
  | zero => intro _; exact hs
  | succ i ih =>
    intro hi
    rw [Doc.ratchet, ih (by omega)]
    exact Doc.createChain_derive (h.step i (by omega))

theorem ratchet_congr (C : Crypto) (start : Doc.Keys) {keys keys' : Nat → KeyPair} : ∀ i, (∀ j, j ≤ i → keys' j = keys j) →
    Doc.ratchet C start keys' i = Doc.ratchet C start keys i := by
  intro i
  induction i with
  | zero => intro _; rfl
  | succ i ih =>
    intro h
    rw [Doc.ratchet, Doc.ratchet, ih (fun j hj => h j (by omega)), h (i + 1) (Nat.le_refl _), h i (by omega)]

theorem Plan.wire_congr (P : Plan) (C : Crypto) {keys keys' : Nat → KeyPair} (S : DSys) (s : Side) (pt : Bytes)
    (h : ∀ j, j ≤ turn S s → keys' j = keys j) : P.wire C keys' S s pt = P.wire C keys S s pt := by
  unfold Plan.wire
  simp only [ratchet_congr C P.start (turn S s) h, h _ (Nat.le_refl _), h (turn S s - 2) (by omega)]

/-- The plan of a conversation. -/
def planOf (ident : Side → PubKey) (b : Bundle) (base : PubKey) (o : Opening) : Plan :=
  ⟨⟨o.first.root.key, o.first.ck.key⟩, o.reg, b.preKeyID, b.signedPreKeyID, base, ident⟩

theorem lastNumber_eq {n : Nat} (h : n < 4294967296) : lastNumber n = UInt32.ofNat (n - 1) := by
  have h1 : (UInt32.ofNat n).toNat = n := UInt32.toNat_ofNat_of_lt' h
  unfold lastNumber
  by_cases hz : n = 0
  · subst hz; decide
  · have hgt : UInt32.ofNat n > 0 := by
      rw [gt_iff_lt, UInt32.lt_iff_toNat_lt, h1]
      simp only [UInt32.toNat_zero]
      omega
    rw [if_pos hgt]
    apply UInt32.toNat_inj.mp
    rw [UInt32.toNat_sub_of_le _ _ (by rw [UInt32.le_iff_toNat_le, h1]; simp; omega), h1, UInt32.toNat_ofNat_of_lt' (by simp only [UInt32.size]; omega)]
    rfl

theorem Inv.sent_lt (h : Inv d ident b base o F N L lev cnt st S) (hN : ∀ s, (S.sent s).length < 4294967296) (s : Side) (k : PubKey) :
    sentUnder (S.sent s) k < 4294967296 := by
  have := List.countP_le_length (p := fun p : Ciphertext × Bytes => decide (p.1.position.map (·.1) = some k)) (l := S.sent s)
  have := hN s
  unfold sentUnder
  omega

/-- What EncryptMessage returns is the message the protocol prescribes. -/
theorem Inv.wire (htr : ∀ s (known : Address → Option PubKey) dir, known (d.address s.other) = none ∨ known (d.address s.other) = some (ident s.other) →
      d.trusted s known (d.address s.other) (ident s.other) dir = true)
    (h : Inv d ident b base o F N L lev cnt st S) (hN : N < 4294967296) (hlen : ∀ s, (S.sent s).length < 4294967296) {s : Side} {pt : Bytes}
    (hpt : pt.length < 2 ^ 62)
    {c : Ciphertext} (hc : (encryptMessage (d.env s) (d.address s.other) pt { S.world s with faults := [] }).1 = .ok c) :
    c.wire = some ((planOf ident b base o).wire d.C (fun j => (L j).kp) S s pt) := by
  cases hst : st s with
  | none =>
    have hlo : (S.world s).sessions (d.address s.other) = none := by rw [h.sess s, hst]; rfl
    have hrun : encryptMessage (d.env s) (d.address s.other) pt { S.world s with faults := [] } =
        (.err (.sessionNotFound (d.address s.other)), { S.world s with faults := [] }) := by
      unfold encryptMessage
      rw [M.bind_ok_run (x := loadSession _) (storeCall_nil _ _ rfl)]
      simp only [hlo]
      rfl
    rw [hrun] at hc
    simp at hc
  | some t =>
    have hv := h.view s t hst
    obtain ⟨msg, out, t', e1, e2, e3, e4, e5, e6, e7, e8, e9, e10, e11⟩ := hv.send pt
    have hrun := encrypt_run (E := d.env s) (a := d.address s.other) (w := { S.world s with faults := [] }) (rec := { current := some t })
      rfl (by rw [h.sess s, hst]; rfl) rfl e1 (htr s _ _ (h.known s))
    rw [hrun] at hc
    simp only [Res.ok.injEq] at hc
    subst hc
    have htop := h.top s
    have hcnt := h.count s
    have e11 := e11 (h.lad.chain (lev s) (by omega)).2 (by omega) hpt
    obtain ⟨_, rl⟩ := e5 (by omega)
    have hne : lev s ≠ 0 := by
      cases s with
      | alice => have := h.par .alice; simp only [rungOf] at this; omega
      | bob => exact (h.ready t hst).2.2
    have hprev : (L (lev s)).prev = UInt32.ofNat (if lev s < 2 then 0 else sentUnder (S.sent s) (L (lev s - 2)).kp.pub - 1) := by
      by_cases hlt : lev s < 2
      · have : lev s = 1 := by omega
        rw [if_pos hlt, this]
        exact h.book.second.2
      · rw [if_neg hlt]
        have hb := h.book.before s (lev s - 2) (by have := h.par s; omega) (by omega)
        rw [Nat.sub_add_cancel (by omega)] at hb
        rw [hb, lastNumber_eq (h.sent_lt hlen s _)]
    have hmsg : msg.serialized = Doc.signalMessage d.C (Doc.ratchet d.C (planOf ident b base o).start (fun j => (L j).kp) (lev s)).chain (L (lev s)).kp.pub
        (UInt32.ofNat (sentUnder (S.sent s) (L (lev s)).kp.pub)) (UInt32.ofNat (if lev s < 2 then 0 else sentUnder (S.sent s) (L (lev s - 2)).kp.pub - 1))
        (ident s) (ident s.other) pt := by
      rw [h.lad.ratchet_eq (by simp only [planOf, h.book.first]) (lev s) (by omega), ← hprev, ← h.book.tally s]
      exact e11
    unfold Plan.wire
    simp only [h.turn_eq s]
    have hpre : ∀ p, t.pendingPreKey = some p → s = .alice := by
      intro p hp
      cases s with
      | alice => rfl
      | bob =>
        have := (h.ready t hst).1
        rw [hp] at this
        simp at this
    rcases e6 with ⟨hp, rfl⟩ | ⟨p, bk, hp, hbk, rfl⟩
    · rw [if_neg]
      · exact congrArg some hmsg
      · rintro ⟨rfl, hg⟩
        obtain ⟨u, hu, hu1, _⟩ := h.alice
        rw [hst] at hu
        simp only [Option.some.injEq] at hu
        subst hu
        exact (hu1 hp).2 hg
    · have hs := hpre p hp
      subst hs
      obtain ⟨u, hu, _, hu2⟩ := h.alice
      rw [hst] at hu
      simp only [Option.some.injEq] at hu
      subst hu
      obtain ⟨p1, p2, p3, p4, p5⟩ := hu2 p hp
      have hbk := PubKey.bytes_inj (hbk.symm.trans p1)
      rw [if_pos (show Side.alice = .alice ∧ S.got .alice = [] from ⟨rfl, p5⟩)]
      simp only [Ciphertext.wire]
      rw [p2, p3, p4, hbk, Doc.newPreKey_bytes _ _ _ _ _ _ (by omega), hmsg]
      rfl

theorem deliver_sent (d : Duo) (S : DSys) (s : Side) (i : Nat) (rd : Bytes) : (d.step S (.deliver s i rd)).sent = S.sent := by
  simp only [Duo.step]
  split
  · rfl
  · split <;> rfl

theorem send_length (d : Duo) (S : DSys) (s u : Side) (pt : Bytes) : ((d.step S (.send s pt)).sent u).length ≤ (S.sent u).length + 1 := by
  simp only [Duo.step]
  split
  · by_cases hu : u = s
    · subst hu; dsimp only; rw [upd_same]; simp
    · dsimp only; rw [upd_ne _ _ hu]; omega
  · exact Nat.le_succ _

/-- All of a schedule. -/
theorem Inv.conforms (htr : ∀ s (known : Address → Option PubKey) dir, known (d.address s.other) = none ∨ known (d.address s.other) = some (ident s.other) →
      d.trusted s known (d.address s.other) (ident s.other) dir = true) (es : List DEvent) :
    ∀ {S : DSys} {N : Nat} {L : Nat → Rung} {lev cnt : Side → Nat} {st : Side → Option SState},
    Inv d ident b base o (deliveryRand es) N L lev cnt st S → d.Ok S es → N + es.length < 4294967296 → (∀ s, (S.sent s).length ≤ N) →
    ∃ L' lev' cnt' st', Inv d ident b base o [] (N + es.length) L' lev' cnt' st' (d.run S es) ∧
      (∀ i, i ≤ max (lev .alice) (lev .bob) → L' i = L i) ∧ (∀ u, lev u ≤ lev' u) ∧
      (∀ pre s i r post, es = pre ++ .deliver s i r :: post → turn (d.run S (pre ++ [.deliver s i r])) s ≠ turn (d.run S pre) s →
        (generateKeyPair d.C r).1 = .ok (L' (turn (d.run S (pre ++ [.deliver s i r])) s)).kp) ∧
      (∀ pre s pt post c, es = pre ++ .send s pt :: post →
        (encryptMessage (d.env s) (d.address s.other) pt { (d.run S pre).world s with faults := [] }).1 = .ok c →
        c.wire = some ((planOf ident b base o).wire d.C (fun j => (L' j).kp) (d.run S pre) s pt)) := by
  induction es with
  | nil =>
    intro S N L lev cnt st h _ _ _
    exact ⟨L, lev, cnt, st, h, fun _ _ => rfl, fun _ => Nat.le_refl _, by simp, by simp⟩
  | cons ev es ih =>
    intro S N L lev cnt st h hok hN hlen
    rw [List.length_cons] at hN
    rw [List.length_cons, show N + (es.length + 1) = N + 1 + es.length by omega]
    cases ev with
    | send s pt =>
      obtain ⟨cnt1, st1, h1, _⟩ := h.sends_next htr s hok.1 (by omega)
      obtain ⟨L', lev', cnt', st', i1, i2, i3, i4, i5⟩ := ih h1 hok.2 (by omega) (fun u => by
        have := send_length d S s u pt; have := hlen u; omega)
      refine ⟨L', lev', cnt', st', i1, i2, i3, ?_, ?_⟩
      · intro pre s' i r post he ht
        cases pre with
        | nil => simp at he
        | cons e pre =>
          simp only [List.cons_append, List.cons.injEq] at he
          obtain ⟨rfl, he⟩ := he
          exact i4 pre s' i r post he ht
      · intro pre s' pt' post c he hc
        cases pre with
        | nil =>
          simp only [List.nil_append, List.cons.injEq, DEvent.send.injEq] at he
          obtain ⟨⟨rfl, rfl⟩, rfl⟩ := he
          have hw := h.wire htr (by omega) (fun u => by have := hlen u; omega) hok.1 hc
          rw [hw]
          congr 1
          refine (Plan.wire_congr _ _ _ _ _ ?_).symm
          intro j hj
          rw [h.turn_eq s] at hj
          have := h.top s
          simp only [i2 j (by omega)]
        | cons e pre =>
          simp only [List.cons_append, List.cons.injEq] at he
          obtain ⟨rfl, he⟩ := he
          exact i5 pre s' pt' post c he hc
    | deliver s i rd =>
      obtain ⟨⟨L1, lev1, cnt1, st1, a1, a2, a3, a4, h1⟩, _⟩ := Inv.delivered htr (F := deliveryRand es) h s i hok.1
      obtain ⟨L', lev', cnt', st', i1, i2, i3, i4, i5⟩ := ih h1.later hok.2 (by omega) (fun u => by
        rw [deliver_sent]; have := hlen u; omega)
      have hmono : max (lev .alice) (lev .bob) ≤ max (lev1 .alice) (lev1 .bob) := by
        have := a2 .alice
        have := a2 .bob
        omega
      refine ⟨L', lev', cnt', st', i1, fun j hj => by rw [i2 j (by omega), a1 j hj], fun u => Nat.le_trans (a2 u) (i3 u), ?_, ?_⟩
      · intro pre s' i' r post he ht
        cases pre with
        | nil =>
          simp only [List.nil_append, List.cons.injEq, DEvent.deliver.injEq] at he
          obtain ⟨⟨rfl, rfl, rfl⟩, rfl⟩ := he
          have t0 : turn (d.run S []) s = lev s := h.turn_eq s
          have t1 : turn (d.run S ([] ++ [.deliver s i rd])) s = lev1 s := h1.turn_eq s
          rw [t0, t1] at ht
          have := h1.top s
          rw [t1, i2 _ (by omega)]
          exact a3 ht
        | cons e pre =>
          simp only [List.cons_append, List.cons.injEq] at he
          obtain ⟨rfl, he⟩ := he
          exact i4 pre s' i' r post he ht
      · intro pre s' pt' post c he hc
        cases pre with
        | nil => simp at he
        | cons e pre =>
          simp only [List.cons_append, List.cons.injEq] at he
          obtain ⟨rfl, he⟩ := he
          exact i5 pre s' pt' post c he hc

end Verif
