import Verif.Proofs.Duo
import Verif.Spec.Example

/-!
A long conversation in which one message is late: Alice sends many messages, and Bob receives all but the first, in order.
-/

namespace Verif

variable {d : Duo} {ident : Side → PubKey} {b : Bundle} {base : PubKey} {o : Opening} {F : List Bytes} {N : Nat} {L : Nat → Rung}
  {lev cnt : Side → Nat} {st : Side → Option SState} {S : DSys}

theorem Duo.run_append (d : Duo) (S : DSys) (es es' : List DEvent) : d.run S (es ++ es') = d.run (d.run S es) es' := by
  simp [Duo.run]

theorem Duo.ok_append (d : Duo) (S : DSys) (es es' : List DEvent) : d.Ok S (es ++ es') ↔ d.Ok S es ∧ d.Ok (d.run S es) es' := by
  induction es generalizing S with
  | nil => simp [Duo.Ok, Duo.run]
  | cons e es ih =>
    rw [List.cons_append, Duo.Ok, Duo.Ok, ih, and_assoc]
    rfl

/-- Alice sends `m` messages. -/
def sendsOf (pt : Bytes) (m : Nat) : List DEvent := List.replicate m (.send .alice pt)

/-- Bob receives the messages from `j + 1` on, `r` of them. -/
def deliveriesOf (rnd : Nat → Bytes) (j r : Nat) : List DEvent := (List.range' j r).map fun i => .deliver .bob (i + 1) (rnd i)

theorem deliveryRand_append (es es' : List DEvent) : deliveryRand (es ++ es') = deliveryRand es ++ deliveryRand es' := by
  induction es with
  | nil => rfl
  | cons e es ih => cases e <;> simp [deliveryRand, ih]

theorem deliveryRand_sends (pt : Bytes) (m : Nat) : deliveryRand (sendsOf pt m) = [] := by
  unfold sendsOf
  induction m with
  | zero => rfl
  | succ m ih => rw [List.replicate_succ]; exact ih

theorem deliveryRand_deliveries (rnd : Nat → Bytes) (j r : Nat) : deliveryRand (deliveriesOf rnd j r) = (List.range' j r).map rnd := by
  unfold deliveriesOf
  generalize List.range' j r = l
  induction l with
  | nil => rfl
  | cons a l ih => simp only [List.map_cons, deliveryRand, ih]

theorem Inv.sendMany (htr : ∀ s (known : Address → Option PubKey) dir, known (d.address s.other) = none ∨ known (d.address s.other) = some (ident s.other) →
      d.trusted s known (d.address s.other) (ident s.other) dir = true)
    (h : Inv d ident b base o F 0 L lev cnt st S) (hs : S.sent .alice = []) {pt : Bytes} (hpt : pt.length < 2 ^ 62) :
    ∀ m, m < 4294967296 → ∃ cnt st, Inv d ident b base o F m L lev cnt st (d.run S (sendsOf pt m)) ∧ cnt .alice = m ∧
      (d.run S (sendsOf pt m)).got = S.got ∧ d.Ok S (sendsOf pt m) ∧
      ((d.run S (sendsOf pt m)).sent .alice).length = m ∧
      ∀ i, i < m → ∃ c, ((d.run S (sendsOf pt m)).sent .alice)[i]? = some (c, pt) ∧ c.position = some ((L (lev .alice)).kp.pub, UInt32.ofNat i) := by
  intro m
  induction m with
  | zero =>
    intro _
    refine ⟨cnt, st, h, ?_, rfl, trivial, ?_, ?_⟩
    · have := h.count .alice; omega
    · show (S.sent .alice).length = 0
      rw [hs]; rfl
    · intro i hi; omega
  | succ m ih =>
    intro hm
    obtain ⟨cnt1, st1, h1, h2, h3, h4, h5, h6⟩ := ih (by omega)
    obtain ⟨cnt2, st2, g1, g2, g3⟩ := h1.sends_next htr .alice hpt (by omega)
    obtain ⟨g3, c, g4, g5⟩ := g3 rfl
    have hr : d.run S (sendsOf pt (m + 1)) = d.step (d.run S (sendsOf pt m)) (.send .alice pt) := by
      rw [sendsOf, List.replicate_succ', d.run_append]; rfl
    rw [hr]
    refine ⟨cnt2, st2, g1, by omega, by rw [g2, h3], ?_, ?_, ?_⟩
    · rw [sendsOf, List.replicate_succ', d.ok_append]
      exact ⟨h4, hpt, trivial⟩
    · rw [g4, List.length_append, h5]; rfl
    · intro i hi
      rw [g4]
      by_cases he : i = m
      · subst he
        exact ⟨c, by rw [List.getElem?_append_right (by omega), h5, Nat.sub_self]; rfl, by rw [← h2]; exact g5⟩
      · obtain ⟨c', e1, e2⟩ := h6 i (by omega)
        exact ⟨c', by rw [List.getElem?_append_left (by omega)]; exact e1, e2⟩

/-- The positions 1 to `j`. -/
def firstPositions (k : PubKey) (j : Nat) : List (PubKey × UInt32) := (List.range j).map fun i => (k, UInt32.ofNat (i + 1))

theorem firstPositions_succ (k : PubKey) (j : Nat) : firstPositions k (j + 1) = firstPositions k j ++ [(k, UInt32.ofNat (j + 1))] := by
  simp [firstPositions, List.range_succ]

theorem newest_firstPositions (k : PubKey) : ∀ j, j < 4294967295 → newestUnder (firstPositions k j) k = j := by
  intro j
  induction j with
  | zero => intro _; rfl
  | succ j ih =>
    intro hj
    rw [firstPositions_succ, newestUnder_append, if_pos rfl, ih (by omega), UInt32.toNat_ofNat_of_lt' (by simp only [UInt32.size]; omega)]
    omega

theorem chains_firstPositions (k : PubKey) : ∀ j, chainsSeen (firstPositions k j) = if j = 0 then [] else [k] := by
  intro j
  induction j with
  | zero => rfl
  | succ j ih =>
    rw [firstPositions_succ, chainsSeen, List.foldl_append]
    have : List.foldl (fun ks (p : PubKey × UInt32) => if p.1 ∈ ks then ks else ks ++ [p.1]) [] (firstPositions k j) = chainsSeen (firstPositions k j) := rfl
    rw [this, ih]
    by_cases hj : j = 0
    · simp [hj]
    · simp [hj]

theorem inOrder_firstPositions (k : PubKey) : ∀ j, j < 4294967295 → InOrder (firstPositions k j) k := by
  intro j
  induction j with
  | zero => intro _ pre post n he; simp [firstPositions] at he
  | succ j ih =>
    intro hj
    rw [firstPositions_succ]
    refine (ih (by omega)).append ?_
    rw [newest_firstPositions k j (by omega), UInt32.toNat_ofNat_of_lt' (by simp only [UInt32.size]; omega)]
    omega

theorem notMem_firstPositions {k : PubKey} {j : Nat} {n : UInt32} (hj : j < 4294967295) (h : n = 0 ∨ j < n.toNat) : (k, n) ∉ firstPositions k j := by
  intro hm
  simp only [firstPositions, List.mem_map, List.mem_range, Prod.mk.injEq, true_and] at hm
  obtain ⟨i, hi, he⟩ := hm
  have := congrArg UInt32.toNat he
  rw [UInt32.toNat_ofNat_of_lt' (by simp only [UInt32.size]; omega)] at this
  rcases h with rfl | h
  · simp at this
  · omega

theorem Inv.deliverMany (htr : ∀ s (known : Address → Option PubKey) dir, known (d.address s.other) = none ∨ known (d.address s.other) = some (ident s.other) →
      d.trusted s known (d.address s.other) (ident s.other) dir = true) {M : Nat} (hM : M < 4294967295) {pt : Bytes} {k : PubKey} (rnd : Nat → Bytes) (F : List Bytes) :
    ∀ (r : Nat) {j N : Nat} {L : Nat → Rung} {lev cnt : Side → Nat} {st : Side → Option SState} {S : DSys},
    Inv d ident b base o ((List.range' j r).map rnd ++ F) N L lev cnt st S →
    (∀ i, i < M → ∃ c, (S.sent .alice)[i]? = some (c, pt) ∧ c.position = some (k, UInt32.ofNat i)) → j + r < M →
    S.got .bob = firstPositions k j →
    ∃ L lev cnt st, Inv d ident b base o F N L lev cnt st (d.run S (deliveriesOf rnd j r)) ∧ d.Ok S (deliveriesOf rnd j r) ∧
      (d.run S (deliveriesOf rnd j r)).sent = S.sent ∧ (d.run S (deliveriesOf rnd j r)).got .bob = firstPositions k (j + r) := by
  intro r
  induction r with
  | zero =>
    intro j N L lev cnt st S h _ _ hg
    rw [List.range'_zero, List.map_nil, List.nil_append] at h
    exact ⟨L, lev, cnt, st, h, trivial, rfl, hg⟩
  | succ r ih =>
    intro j N L lev cnt st S h hs hj hg
    have hev : deliveriesOf rnd j (r + 1) = .deliver .bob (j + 1) (rnd j) :: deliveriesOf rnd (j + 1) r := by
      simp [deliveriesOf, List.range'_succ]
    obtain ⟨c, hc, hp⟩ := hs (j + 1) (by omega)
    rw [List.range'_succ, List.map_cons, List.cons_append] at h
    have hseen : (chainsSeen (S.got .bob)).length ≤ 5 := by
      rw [hg, chains_firstPositions]; split <;> simp
    have hok : DEvent.Ok d S (.deliver .bob (j + 1) (rnd j)) := by
      intro c pt k n _ _ h1 h2
      rw [recentChains_eq, lastN_of_le hseen] at h2
      exact absurd h1 h2
    have hn : (UInt32.ofNat (j + 1)).toNat = j + 1 := UInt32.toNat_ofNat_of_lt' (by simp only [UInt32.size]; omega)
    have hw : InWindow (S.got .bob) k (UInt32.ofNat (j + 1)) := by
      rw [hg]
      refine ⟨?_, ?_, ?_, ?_⟩
      · rw [recentChains_eq, lastN_of_le (by rw [← hg]; exact hseen), chains_firstPositions]
        split <;> simp
      · exact notMem_firstPositions (by omega) (.inr (by omega))
      · rw [hn, newest_firstPositions k j (by omega)]; omega
      · rw [hn, newest_firstPositions k j (by omega)]; omega
    have hdel := Inv.delivers htr h (s := .bob) (List.mem_of_getElem? hc) hp hw
    have hstep : (d.step S (.deliver .bob (j + 1) (rnd j))).sent = S.sent ∧
        (d.step S (.deliver .bob (j + 1) (rnd j))).got .bob = firstPositions k (j + 1) := by
      simp only [Duo.step, Side.other, hc, hdel, hp]
      refine ⟨trivial, ?_⟩
      rw [upd_same, hg, firstPositions_succ]
    obtain ⟨⟨L', lev', cnt', st', _, _, _, _, h'⟩, _⟩ := Inv.delivered htr h .bob (j + 1) hok
    rw [hev]
    obtain ⟨L2, lev2, cnt2, st2, i1, i2, i3, i4⟩ := ih h' (by rw [hstep.1]; exact hs) (by omega) hstep.2
    refine ⟨L2, lev2, cnt2, st2, i1, ⟨hok, i2⟩, ?_, ?_⟩
    · show (d.run (d.step S _) _).sent = _
      rw [i3, hstep.1]
    · show (d.run (d.step S _) _).got .bob = _
      rw [i4]; congr 1; omega

/-- Alice sends `M + 1` messages and Bob receives all but the first, in order: if there are more than 2000 of those, the first
one cannot be read any more. -/
theorem late_unreadable {alice bob : World} {rand : Bytes} (h : d.Strangers alice bob b) (pt : Bytes) (hpt : pt.length < 2 ^ 62) (rnd : Nat → Bytes)
    (M : Nat) (hM : 2000 < M) (hM' : M < 4294967294) (last : Bytes)
    (hf : FreshKeys d.C b rand ((sendsOf pt (M + 1) ++ deliveriesOf rnd 0 M) ++ [.deliver .bob 0 last])) :
    ∃ (c : Ciphertext) (q : Bytes) (k : PubKey),
    d.Strangers alice bob b ∧ FreshKeys d.C b rand ((sendsOf pt (M + 1) ++ deliveriesOf rnd 0 M) ++ [.deliver .bob 0 last]) ∧
    d.Ok (d.start alice bob b rand) (sendsOf pt (M + 1) ++ deliveriesOf rnd 0 M) ∧
    ((d.run (d.start alice bob b rand) (sendsOf pt (M + 1) ++ deliveriesOf rnd 0 M)).sent .alice).length = M + 1 ∧
    ((d.run (d.start alice bob b rand) (sendsOf pt (M + 1) ++ deliveriesOf rnd 0 M)).sent .alice)[0]? = some (c, q) ∧ c.position = some (k, 0) ∧
    k ∈ recentChains ((d.run (d.start alice bob b rand) (sendsOf pt (M + 1) ++ deliveriesOf rnd 0 M)).got .bob) ∧
    (k, 0) ∉ (d.run (d.start alice bob b rand) (sendsOf pt (M + 1) ++ deliveriesOf rnd 0 M)).got .bob ∧
    (∀ i, 0 < i → i < M + 1 → ∃ c' pt', ((d.run (d.start alice bob b rand) (sendsOf pt (M + 1) ++ deliveriesOf rnd 0 M)).sent .alice)[i]? = some (c', pt') ∧
      c'.position = some (k, UInt32.ofNat i) ∧
      (k, UInt32.ofNat i) ∈ (d.run (d.start alice bob b rand) (sendsOf pt (M + 1) ++ deliveriesOf rnd 0 M)).got .bob) ∧
    ∀ r p, (d.receive .bob c r ((d.run (d.start alice bob b rand) (sendsOf pt (M + 1) ++ deliveriesOf rnd 0 M)).world .bob)).1 ≠ .ok (some p) := by
  obtain ⟨_, base, o, L, lev, cnt, st, h0⟩ := Duo.start_ok h hf
  obtain ⟨cnt1, st1, h1, _, h3, h4, h5, h6⟩ := h0.sendMany h.trusts rfl hpt (M + 1) (by omega)
  have hkeys : deliveryRand ((sendsOf pt (M + 1) ++ deliveriesOf rnd 0 M) ++ [.deliver .bob 0 last]) = (List.range' 0 M).map rnd ++ [last] := by
    rw [deliveryRand_append, deliveryRand_append, deliveryRand_sends, deliveryRand_deliveries, List.nil_append]
    rfl
  rw [hkeys] at h1
  obtain ⟨L2, lev2, cnt2, st2, g1, g2, g3, g4⟩ := Inv.deliverMany h.trusts (M := M + 1) (by omega) rnd _ M h1 h6 (by omega)
    (by rw [h3]; rfl)
  have hok : d.Ok (d.start alice bob b rand) (sendsOf pt (M + 1) ++ deliveriesOf rnd 0 M) := (d.ok_append _ _ _).mpr ⟨h4, g2⟩
  rw [← d.run_append] at g1 g3 g4
  rw [Nat.zero_add] at g4
  revert g1 g3 g4
  generalize d.run (d.start alice bob b rand) (sendsOf pt (M + 1) ++ deliveriesOf rnd 0 M) = W
  intro g1 g3 g4
  obtain ⟨c, e1, e2⟩ := h6 0 (by omega)
  have hrec : (L (lev .alice)).kp.pub ∈ recentChains (W.got .bob) := by
    rw [g4, recentChains_eq, chains_firstPositions, if_neg (by omega)]
    simp [lastN]
  refine ⟨c, pt, (L (lev .alice)).kp.pub, h, hf, hok, ?_, ?_, e2, hrec, ?_, ?_, ?_⟩
  · rw [g3]; exact h5
  · rw [g3]; exact e1
  · rw [g4]; exact notMem_firstPositions (by omega) (.inl rfl)
  · intro i hi1 hi2
    obtain ⟨c', e1', e2'⟩ := h6 i hi2
    refine ⟨c', pt, by rw [g3]; exact e1', e2', ?_⟩
    rw [g4]
    simp only [firstPositions, List.mem_map, List.mem_range]
    exact ⟨i - 1, by omega, by rw [Nat.sub_add_cancel hi1]⟩
  · intro r p
    refine g1.forgets h.trusts (s := .bob) (c := c) (pt := pt) (j := 0) ?_ e2 hrec ?_ ?_ r p
    · simp only [Side.other]
      rw [g3]; exact List.mem_of_getElem? e1
    · rw [g4]; exact inOrder_firstPositions _ _ (by omega)
    · rw [g4, newest_firstPositions _ _ (by omega)]; simpa using hM

end Verif
