import Verif.Proofs.Group

/-!
Group sessions over histories: where the states of a record come from, and the invariants built on that.
-/

namespace Verif

attribute [local irreducible] maxMessageKeys

/-! ## Where a state comes from -/

theorem lastN_sublist {α} (n : Nat) (l : List α) : (lastN n l).Sublist l := by
  unfold lastN; exact List.drop_sublist _ _

/-- Where a state of a changed record comes from. -/
inductive GOrigin (E : GEnv) (op : GOp) (o : Option GRecord) (t : GState) : Prop
  | kept (g : GRecord) (ho : o = some g) (h : t ∈ g)
  | sent (a : Address) (d : DistId) (pt : Bytes) (s : GState) (rest : GRecord) (hop : op = .encrypt a d pt) (ho : o = some (s :: rest))
      (h : t = s.setSenderChainKey (s.chainKey.next E.C))
  | moved (a : Address) (m : SenderKeyMsg) (g : GRecord) (s : GState) (mk : SKMessageKey) (hop : op = .decrypt a m) (ho : o = some g)
      (hs : s ∈ g) (hc : s.chainId = m.chainID) (h : GTaken E.C s m.iteration mk t)
  | fresh (a : Address) (d : DistributionMsg) (hop : op = .process a d) (h : t = d.state)
      (hn : ∀ u, ¬ (o.getD []).Holds d.chainID d.signingKey u)
  | created (a : Address) (d : DistId) (hop : op = .distribute a d) (ho : o = none) (cid : UInt32) (seed : Bytes) (k : KeyPair)
      (h : t = newGroupState 3 cid 0 seed k.pub (some k.priv)) (hl : seed.length = 32) (hk : k.Matched E.C)

theorem GRecord.WF.nil : GRecord.WF [] := ⟨by simp, by simp, by simp⟩

theorem GStep.origin {E : GEnv} {w : GWorld} {op : GOp} {o : Option GRecord} {g' : GRecord} (h : GStep E w op o g')
    (ho : ∀ g, o = some g → g.WF) (t : GState) (ht : t ∈ g') : GOrigin E op o t := by
  cases h with
  | enc h =>
    rcases List.mem_cons.mp ht with rfl | ht
    · exact .sent _ _ _ _ _ rfl rfl rfl
    · exact .kept _ rfl (List.mem_cons_of_mem _ ht)
  | dec h =>
    have hg := ho _ rfl
    obtain ⟨hm, hc⟩ := GRecord.stateForChainID_some h.state
    have htk := h.gtaken (hg.states _ hm)
    rw [← hc] at ht
    rcases (hg.mem_setState hm htk.chainId.1 t).mp ht with rfl | ⟨h1, _⟩
    · exact .moved _ _ _ _ _ rfl rfl hm hc htk
    · exact .kept _ rfl h1
  | @proc a d =>
    have hg : (o.getD []).WF := by
      cases o with
      | none => exact .nil
      | some g => exact ho g rfl
    rw [hg.added_eq] at ht
    rcases List.mem_append.mp ht with ht | ht
    · have := (List.mem_filter.mp ((lastN_sublist _ _).subset ht)).1
      cases o with
      | none => simp at this
      | some g => exact .kept g rfl this
    · rw [List.mem_singleton] at ht
      rcases hg.added_last d.state d.signingKey rfl with ⟨u, hu, he⟩ | ⟨hn, he⟩
      · rw [he] at ht
        subst ht
        cases o with
        | none => simp [GRecord.Holds] at hu
        | some g => exact .kept g rfl hu.1
      · rw [he] at ht
        exact .fresh _ _ rfl ht hn
  | create h =>
    obtain ⟨cid, seed, k, _, hl, hk, _, rfl⟩ := h.shape
    rw [List.mem_singleton] at ht
    exact .created _ _ rfl rfl cid seed k ht hl hk

/-! ## Used iterations -/

theorem mem_skSkipped {C : Crypto} {ck k : SKChainKey} {d : Nat} (h : k ∈ skSkipped C ck d) (hd : ck.iteration.toNat + d ≤ 2 ^ 32) :
    ∃ i, i < d ∧ k.iteration.toNat = ck.iteration.toNat + i := by
  simp only [skSkipped, List.mem_map, List.mem_range] at h
  obtain ⟨i, hi, rfl⟩ := h
  refine ⟨i, hi, ?_⟩
  show (skIter C ck i).iteration.toNat = _
  rw [skIter_iteration, UInt32.toNat_add, UInt32.toNat_ofNat']
  omega

theorem skIter_toNat (C : Crypto) (ck : SKChainKey) (d : Nat) (hd : ck.iteration.toNat + d < 2 ^ 32) :
    (skIter C ck d).iteration.toNat = ck.iteration.toNat + d := by
  rw [skIter_iteration, UInt32.toNat_add, UInt32.toNat_ofNat']
  omega

theorem skSkipped_pairwise (C : Crypto) (ck : SKChainKey) (d : Nat) (hd : ck.iteration.toNat + d ≤ 2 ^ 32) :
    (skSkipped C ck d).Pairwise fun k l => k.iteration ≠ l.iteration := by
  rw [skSkipped, List.pairwise_map]
  refine List.Pairwise.imp_of_mem ?_ (List.pairwise_lt_range (n := d))
  intro i j hi hj hij he
  have h1 := congrArg UInt32.toNat he
  rw [List.mem_range] at hi hj
  have e1 : (((skIter C ck i).messageKey C).stored).iteration.toNat = ck.iteration.toNat + i := skIter_toNat C ck i (by omega)
  have e2 : (((skIter C ck j).messageKey C).stored).iteration.toNat = ck.iteration.toNat + j := skIter_toNat C ck j (by omega)
  rw [e1, e2] at h1
  omega

/-- Stored message keys are older than the chain key and pairwise different. -/
structure GState.Ordered (s : GState) : Prop where
  older : ∀ k ∈ s.messageKeys, k.iteration.toNat < s.chainKey.iteration.toNat
  distinct : s.messageKeys.Pairwise fun k l => k.iteration ≠ l.iteration

/-- An iteration that no longer can be taken. -/
def GState.Spent (s : GState) (n : UInt32) : Prop :=
  n.toNat < s.chainKey.iteration.toNat ∧ ∀ k ∈ s.messageKeys, k.iteration ≠ n

theorem eraseP_iteration {l : List SKChainKey} (hl : l.Pairwise fun k l => k.iteration ≠ l.iteration) (n : UInt32) :
    ∀ k ∈ l.eraseP (fun k => k.iteration = n), k.iteration ≠ n := by
  induction l with
  | nil => simp
  | cons x l ih =>
    rw [List.pairwise_cons] at hl
    intro k hk he
    by_cases hx : x.iteration = n
    · rw [List.eraseP_cons_of_pos (by simpa using hx)] at hk
      exact hl.1 k hk (hx.trans he.symm)
    · rw [List.eraseP_cons_of_neg (by simpa using hx)] at hk
      rcases List.mem_cons.mp hk with rfl | hk
      · exact hx he
      · exact ih hl.2 k hk he

theorem GTaken.ordered {C : Crypto} {s s' : GState} {n : UInt32} {mk : SKMessageKey} (h : GTaken C s n mk s') (hn : n.toNat + 1 < 2 ^ 32)
    (ho : s.Ordered) : s'.Ordered ∧ s'.Spent n ∧ ∀ j, s.Spent j → s'.Spent j := by
  cases h with
  | stored hlt k hk =>
    refine ⟨⟨fun k hk => ho.older k (List.mem_of_mem_eraseP hk), ho.distinct.sublist List.eraseP_sublist⟩,
      ⟨hlt, eraseP_iteration ho.distinct n⟩, fun j hj => ⟨hj.1, fun k hk => hj.2 k (List.mem_of_mem_eraseP hk)⟩⟩
  | ahead d hd hj =>
    have hit : (skIter C s.chainKey (d + 1)).iteration.toNat = n.toNat + 1 := by
      rw [skIter_toNat _ _ _ (by omega)]; omega
    have hmem : ∀ k ∈ lastN maxMessageKeys (s.messageKeys ++ skSkipped C s.chainKey d), k ∈ s.messageKeys ∨
        (s.chainKey.iteration.toNat ≤ k.iteration.toNat ∧ k.iteration.toNat < n.toNat) := by
      intro k hk
      rcases List.mem_append.mp ((lastN_sublist _ _).subset hk) with hk | hk
      · exact .inl hk
      · obtain ⟨i, hi, he⟩ := mem_skSkipped hk (by omega)
        exact .inr (by omega)
    refine ⟨⟨fun k hk => ?_, ?_⟩, ⟨by simp only; omega, fun k hk he => ?_⟩, fun j hj => ⟨?_, fun k hk he => ?_⟩⟩
    · simp only at hk ⊢
      rw [hit]
      rcases hmem k hk with h1 | h1
      · have := ho.older k h1; omega
      · omega
    · refine List.Pairwise.sublist (lastN_sublist _ _) ?_
      rw [List.pairwise_append]
      refine ⟨ho.distinct, skSkipped_pairwise _ _ _ (by omega), fun k hk l hl he => ?_⟩
      obtain ⟨i, hi, hl⟩ := mem_skSkipped hl (by omega)
      have := ho.older k hk
      rw [he] at this
      omega
    · subst he
      rcases hmem k hk with h1 | h1
      · have := ho.older k h1; omega
      · omega
    · have := hj.1; simp only; omega
    · subst he
      rcases hmem k hk with h1 | h1
      · exact hj.2 k h1 rfl
      · have := hj.1; omega

/-- An iteration that is spent cannot be taken. -/
theorem GState.Spent.not_taken {C : Crypto} {s s' : GState} {n : UInt32} {mk : SKMessageKey} (hs : s.Spent n) : ¬ GTaken C s n mk s' := by
  intro h
  cases h with
  | stored hlt k hk =>
    have := List.find?_some hk
    exact hs.2 k (List.mem_of_find?_eq_some hk) (by simpa using this)
  | ahead d hd hj => have := hs.1; omega

theorem GState.Spent.messageKey {C : Crypto} {s : GState} {n : UInt32} (hs : s.Spent n) (hw : s.WF) :
    groupMessageKey C s n = .err .duplicateMessage := by
  have h := groupMessageKey_cases C s hw.keys n
  generalize groupMessageKey C s n = x at h ⊢
  cases h with
  | taken mk s' ht => exact absurd ht hs.not_taken
  | duplicate => rfl
  | far hf => have := hs.1; omega

/-- The states of a group's record are ordered. -/
def GOrdered (o : Option GRecord) : Prop := ∀ g, o = some g → g.WF ∧ ∀ s ∈ g, s.Ordered

theorem newGroupState_ordered (v : UInt8) (c i : UInt32) (ck : Bytes) (k : PubKey) (p : Option PrivKey) : (newGroupState v c i ck k p).Ordered :=
  ⟨by simp [newGroupState], by simp [newGroupState]⟩

theorem GOrdered.call {E : GEnv} {w : GWorld} {k : Address × DistId} (h : GOrdered (w.records k)) (c : GCall) (hc : c.Receives k) :
    GOrdered ((c.run E w).2.records k) := by
  rcases gcall_changed E c w k with he | ⟨g', hk, he, hst⟩
  · rw [he]; exact h
  · rw [he]
    simp only at hst
    intro g hg
    simp only [Option.some.injEq] at hg
    subst hg
    have hwf : ∀ g, w.records k = some g → g.WF := fun g hg => (h g hg).1
    refine ⟨hst.WF hwf, fun t ht => ?_⟩
    cases hst.origin hwf t ht with
    | kept g ho h1 => exact (h g ho).2 t h1
    | sent a d pt s rest hop ho h1 => exact absurd hop ((hc hk).1 a d pt)
    | moved a m g s mk hop ho hs hcid htk => exact (htk.ordered ((hc hk).2 a m hop) ((h g ho).2 s hs)).1
    | fresh a d hop h1 hn => subst h1; exact newGroupState_ordered ..
    | created a d hop ho cid seed k h1 => subst h1; exact newGroupState_ordered ..

theorem GOrdered.after {E : GEnv} {w : GWorld} {k : Address × DistId} (h : GOrdered (w.records k)) (cs : List GCall)
    (hc : ∀ c ∈ cs, c.Receives k) : GOrdered ((gAfter E cs w).records k) := by
  induction cs generalizing w with
  | nil => exact h
  | cons c cs ih => exact ih (h.call c (hc c (by simp))) (fun c hcs => hc c (by simp [hcs]))

/-- The state with this chain id and signing key exists, with this iteration spent. -/
def GSpent (o : Option GRecord) (cid : UInt32) (sk : PubKey) (ver n : UInt32) : Prop :=
  ∃ g s, o = some g ∧ g.Holds cid sk s ∧ s.messageVersion = ver ∧ s.Spent n

theorem GRecord.WF.holds_unique {g : GRecord} (hg : g.WF) {s t : GState} (hs : s ∈ g) (ht : t ∈ g) (hc : s.chainId = t.chainId) : s = t := by
  have h1 := hg.stateForChainID hs
  have h2 := hg.stateForChainID ht
  rw [hc, h2] at h1
  exact (Option.some.inj h1).symm

theorem GSpent.call {E : GEnv} {w : GWorld} {k : Address × DistId} {cid : UInt32} {sk : PubKey} {ver n : UInt32} (ho : GOrdered (w.records k))
    (h : GSpent (w.records k) cid sk ver n) (c : GCall) (hc : c.Receives k)
    (hkeep : ∃ g s, (c.run E w).2.records k = some g ∧ g.Holds cid sk s) : GSpent ((c.run E w).2.records k) cid sk ver n := by
  obtain ⟨g0, s0, hg0, hs0, hv0, hsp⟩ := h
  have hwf : ∀ g, w.records k = some g → g.WF := fun g hg => (ho g hg).1
  obtain ⟨g1, s1, hg1, hs1⟩ := hkeep
  rcases gcall_changed E c w k with he | ⟨g', hk, he, hst⟩
  · rw [he]; exact ⟨g0, s0, hg0, hs0, hv0, hsp⟩
  · rw [hg1] at he
    simp only [Option.some.injEq] at he
    subst he
    simp only at hst
    rw [hg1]
    refine ⟨g1, s1, rfl, hs1, ?_⟩
    cases hst.origin hwf s1 hs1.1 with
    | kept g ho1 h1 =>
      rw [hg0] at ho1
      simp only [Option.some.injEq] at ho1
      subst ho1
      have := (hwf _ hg0).holds_unique h1 hs0.1 (hs1.2.1.trans hs0.2.1.symm)
      subst this
      exact ⟨hv0, hsp⟩
    | sent a d pt s rest hop _ h1 => exact absurd hop ((hc hk).1 a d pt)
    | moved a m g s mk hop ho1 hs hcid htk =>
      rw [hg0] at ho1
      simp only [Option.some.injEq] at ho1
      subst ho1
      have hch := htk.chainId
      have := (hwf _ hg0).holds_unique hs hs0.1 (hch.1.symm.trans (hs1.2.1.trans hs0.2.1.symm))
      subst this
      exact ⟨hch.2.2.2.trans hv0, (htk.ordered ((hc hk).2 a m hop) ((ho _ hg0).2 s hs)).2.2 n hsp⟩
    | fresh a d hop h1 hn =>
      subst h1
      refine absurd ?_ (hn s0)
      rw [hg0]
      have h2 := hs1.2
      refine ⟨hs0.1, hs0.2.1.trans h2.1.symm, hs0.2.2.trans h2.2.symm⟩
    | created a d hop ho1 cid seed k h1 => rw [hg0] at ho1; simp at ho1

/-! ## Nothing below the starting point -/

/-- Neither the chain key nor a stored message key is below `n`. -/
def GState.From (s : GState) (n : Nat) : Prop := n ≤ s.chainKey.iteration.toNat ∧ ∀ k ∈ s.messageKeys, n ≤ k.iteration.toNat

theorem GTaken.from {C : Crypto} {s s' : GState} {n : UInt32} {mk : SKMessageKey} (h : GTaken C s n mk s') (hn : n.toNat + 1 < 2 ^ 32)
    {k0 : Nat} (hf : s.From k0) : s'.From k0 := by
  cases h with
  | stored hlt k hk => exact ⟨hf.1, fun k hk => hf.2 k (List.mem_of_mem_eraseP hk)⟩
  | ahead d hd hj =>
    have hit : (skIter C s.chainKey (d + 1)).iteration.toNat = n.toNat + 1 := by
      rw [skIter_toNat _ _ _ (by omega)]; omega
    refine ⟨by simp only; have := hf.1; omega, fun k hk => ?_⟩
    rcases List.mem_append.mp ((lastN_sublist _ _).subset hk) with hk | hk
    · exact hf.2 k hk
    · obtain ⟨i, hi, he⟩ := mem_skSkipped hk (by omega)
      have := hf.1; omega

theorem GState.From.not_taken {C : Crypto} {s s' : GState} {n : UInt32} {mk : SKMessageKey} {k0 : Nat} (hs : s.From k0) (hn : n.toNat < k0) :
    ¬ GTaken C s n mk s' := by
  intro h
  cases h with
  | stored hlt k hk =>
    have h1 := List.find?_some hk
    have h2 := hs.2 k (List.mem_of_find?_eq_some hk)
    simp only [decide_eq_true_eq] at h1
    rw [h1] at h2
    omega
  | ahead d hd hj => have := hs.1; omega

/-- The record exists, and its states with this chain id start at `n` or later. -/
def GFrom (o : Option GRecord) (cid : UInt32) (n : Nat) : Prop := ∃ g, o = some g ∧ g.WF ∧ ∀ s ∈ g, s.chainId = cid → s.From n

theorem GFrom.call {E : GEnv} {w : GWorld} {k : Address × DistId} {cid : UInt32} {n : Nat} (h : GFrom (w.records k) cid n) (c : GCall)
    (hc : c.Receives k) (hd : ∀ a d, c.op = .process a d → c.op.key = k → d.chainID = cid → n ≤ d.iteration.toNat) :
    GFrom ((c.run E w).2.records k) cid n := by
  obtain ⟨g0, hg0, hw0, hf0⟩ := h
  rcases gcall_changed E c w k with he | ⟨g', hk, he, hst⟩
  · rw [he]; exact ⟨g0, hg0, hw0, hf0⟩
  · simp only at hst
    rw [he]
    rw [hg0] at hst
    have hwf : ∀ g, some g0 = some g → g.WF := fun g hg => by simp only [Option.some.injEq] at hg; exact hg ▸ hw0
    refine ⟨g', rfl, hst.WF hwf, fun t ht htc => ?_⟩
    cases hst.origin hwf t ht with
    | kept g ho1 h1 => simp only [Option.some.injEq] at ho1; subst ho1; exact hf0 t h1 htc
    | sent a d pt s rest hop _ h1 => exact absurd hop ((hc hk).1 a d pt)
    | moved a m g s mk hop ho1 hs hcid htk =>
      simp only [Option.some.injEq] at ho1
      subst ho1
      exact htk.from ((hc hk).2 a m hop) (hf0 s hs (htk.chainId.1.symm.trans htc))
    | fresh a d hop h1 hn =>
      subst h1
      exact ⟨hd a d hop hk htc, by simp [DistributionMsg.state, newGroupState]⟩
    | created a d hop ho1 cid seed k h1 => simp at ho1

theorem GFrom.after {E : GEnv} {w : GWorld} {k : Address × DistId} {cid : UInt32} {n : Nat} (h : GFrom (w.records k) cid n) (cs : List GCall)
    (hc : ∀ c ∈ cs, c.Receives k) (hd : ∀ c ∈ cs, ∀ a d, c.op = .process a d → c.op.key = k → d.chainID = cid → n ≤ d.iteration.toNat) :
    GFrom ((gAfter E cs w).records k) cid n := by
  induction cs generalizing w with
  | nil => exact h
  | cons c cs ih =>
    exact ih (h.call c (hc c (by simp)) (hd c (by simp))) (fun c hcs => hc c (by simp [hcs])) (fun c hcs => hd c (by simp [hcs]))

/-! ## The sender's iterations -/

theorem newSenderKey_iteration {C : Crypto} {v : UInt8} {d : DistId} {c i : UInt32} {ct : Bytes} {k : PrivKey} {r rd : Bytes} {m : SenderKeyMsg}
    (h : newSenderKey C v d c i ct k r = (.ok m, rd)) : m.iteration = i := by
  unfold newSenderKey at h
  simp only [M.bind_run] at h
  split at h <;> simp_all [M.pure_run]
  exact h.1 ▸ rfl

theorem newSenderKey_chainID {C : Crypto} {v : UInt8} {d : DistId} {c i : UInt32} {ct : Bytes} {k : PrivKey} {r rd : Bytes} {m : SenderKeyMsg}
    (h : newSenderKey C v d c i ct k r = (.ok m, rd)) : m.chainID = c := by
  unfold newSenderKey at h
  simp only [M.bind_run] at h
  split at h <;> simp_all [M.pure_run]
  exact h.1 ▸ rfl

/-- The sender's chain, of which there is at most one, is past every iteration sent. -/
structure GSentInv (log : List UInt32) (N : Nat) (o : Option GRecord) : Prop where
  empty : o = none → log = []
  past : ∀ g, o = some g → g.WF ∧ ∃ c, ∀ s ∈ g, s.signingPrivate ≠ [] → s.chainId = c ∧
    (∀ n ∈ log, n.toNat < s.chainKey.iteration.toNat) ∧ s.chainKey.iteration.toNat ≤ N

theorem GState.next_toNat (C : Crypto) (s : GState) (h : s.chainKey.iteration.toNat + 1 < 2 ^ 32) :
    (s.setSenderChainKey (s.chainKey.next C)).chainKey.iteration.toNat = s.chainKey.iteration.toNat + 1 :=
  skIter_toNat C s.chainKey 1 h

theorem GTaken.toNat {C : Crypto} {s s' : GState} {n : UInt32} {mk : SKMessageKey} (h : GTaken C s n mk s')
    (hn : s.chainKey.iteration.toNat + 25001 < 2 ^ 32) :
    s.chainKey.iteration.toNat ≤ s'.chainKey.iteration.toNat ∧ s'.chainKey.iteration.toNat ≤ s.chainKey.iteration.toNat + 25001 := by
  cases h with
  | stored hlt k hk => exact ⟨Nat.le_refl _, by simp only; omega⟩
  | ahead d hd hj =>
    have := skIter_toNat C s.chainKey (d + 1) (by omega)
    simp only; omega

theorem GCall.reach_of {k : Address × DistId} {c : GCall} (hk : c.op.key = k) :
    (∀ a d pt, c.op = .encrypt a d pt → c.reach k = 1) ∧ (∀ a m, c.op = .decrypt a m → c.reach k = 25001) := by
  refine ⟨fun a d pt h => ?_, fun a m h => ?_⟩
  · unfold GCall.reach; rw [if_pos hk, h]
  · unfold GCall.reach; rw [if_pos hk, h]

theorem GStep.from_none {E : GEnv} {w : GWorld} {op : GOp} {g' : GRecord} (h : GStep E w op none g') :
    (∀ t ∈ g', t.signingPrivate = []) ∨ ∃ (cid : UInt32) (seed : Bytes) (k : KeyPair), g' = [newGroupState 3 cid 0 seed k.pub (some k.priv)] := by
  cases h with
  | proc => exact .inl (by simp [GRecord.added, DistributionMsg.state, newGroupState])
  | create hcr =>
    obtain ⟨cid, seed, kk, _, _, _, _, rfl⟩ := hcr.shape
    exact .inr ⟨cid, seed, kk, rfl⟩

/-- The invariant without looking at the output. -/
theorem GSentInv.step {E : GEnv} {w : GWorld} {k : Address × DistId} {log : List UInt32} {N : Nat} (h : GSentInv log N (w.records k))
    (c : GCall) (hN : N + c.reach k < 2 ^ 32) : GSentInv log (N + c.reach k) ((c.run E w).2.records k) := by
  rcases gcall_changed E c w k with he | ⟨g', hk, he, hst⟩
  · rw [he]
    refine ⟨h.empty, fun g hg => ⟨(h.past g hg).1, ?_⟩⟩
    obtain ⟨cid, hc⟩ := (h.past g hg).2
    exact ⟨cid, fun s hs hp => ⟨(hc s hs hp).1, (hc s hs hp).2.1, Nat.le_trans (hc s hs hp).2.2 (Nat.le_add_right _ _)⟩⟩
  · simp only at hst
    rw [he]
    refine ⟨by simp, fun g hg => ?_⟩
    simp only [Option.some.injEq] at hg
    subst hg
    have hwf : ∀ g, w.records k = some g → g.WF := fun g hg => (h.past g hg).1
    refine ⟨hst.WF hwf, ?_⟩
    cases ho : w.records k with
    | none =>
      have hlog := h.empty ho
      subst hlog
      rw [ho] at hst
      rcases hst.from_none with hp0 | ⟨cid, seed, kk, rfl⟩
      · exact ⟨0, fun t ht hp => absurd (hp0 t ht) hp⟩
      · refine ⟨cid, fun t ht hp => ?_⟩
        rw [List.mem_singleton] at ht
        subst ht
        exact ⟨rfl, by simp, by simp [newGroupState]⟩
    | some g0 =>
      obtain ⟨hw0, cid, hc⟩ := h.past g0 ho
      refine ⟨cid, fun t ht hp => ?_⟩
      cases hst.origin hwf t ht with
      | kept g ho1 h1 =>
        rw [ho] at ho1
        simp only [Option.some.injEq] at ho1
        subst ho1
        have := hc t h1 hp
        exact ⟨this.1, this.2.1, by omega⟩
      | sent a d pt s rest hop ho1 h1 =>
        rw [ho] at ho1
        simp only [Option.some.injEq] at ho1
        subst ho1
        subst h1
        have := hc s (by simp) hp
        have hr := (GCall.reach_of hk).1 a d pt hop
        have hnx := s.next_toNat E.C (by omega)
        exact ⟨this.1, fun n hn => by have := this.2.1 n hn; omega, by omega⟩
      | moved a m g s mk hop ho1 hs hcid htk =>
        rw [ho] at ho1
        simp only [Option.some.injEq] at ho1
        subst ho1
        have := hc s hs (by rw [← htk.chainId.2.2.1]; exact hp)
        have hr := (GCall.reach_of hk).2 a m hop
        have hnx := htk.toNat (by omega)
        exact ⟨htk.chainId.1.trans this.1, fun n hn => by have := this.2.1 n hn; omega, by omega⟩
      | fresh a d hop h1 hn => subst h1; exact absurd rfl hp
      | created a d hop ho1 cid seed kk h1 => rw [ho] at ho1; simp at ho1

theorem privateSigningKey_ne {s : GState} {sk : PrivKey} (h : s.privateSigningKey = .ok sk) : s.signingPrivate ≠ [] := by
  intro he
  simp [GState.privateSigningKey, he, newPrivateKey] at h

/-- The invariant and the output of a call. -/
theorem GSentInv.call {E : GEnv} {w : GWorld} {k : Address × DistId} {log : List UInt32} {N : Nat} (h : GSentInv log N (w.records k))
    (c : GCall) (hN : N + c.reach k < 2 ^ 32) :
    ((c.run E w).1.sentIteration k = none ∧ GSentInv log (N + c.reach k) ((c.run E w).2.records k)) ∨
    (∃ n, (c.run E w).1.sentIteration k = some n ∧ n ∉ log ∧ GSentInv (log ++ [n]) (N + c.reach k) ((c.run E w).2.records k)) := by
  cases ho : (c.run E w).1.sentIteration k with
  | none => exact .inl ⟨rfl, h.step c hN⟩
  | some n =>
    refine .inr ⟨n, rfl, ?_⟩
    obtain ⟨op, rd, srd, fs⟩ := c
    cases op with
    | decrypt a m =>
      exfalso
      simp only [GCall.run] at ho
      revert ho
      generalize groupDecrypt E.C E.aliased a m _ = x
      obtain ⟨r, w'⟩ := x
      cases r <;> simp [GOut.of, GOut.sentIteration]
    | process a m =>
      exfalso
      simp only [GCall.run] at ho
      revert ho
      generalize processDistribution E.aliased a m _ = x
      obtain ⟨r, w'⟩ := x
      cases r <;> simp [GOut.of, GOut.sentIteration]
    | distribute a m =>
      exfalso
      simp only [GCall.run] at ho
      revert ho
      generalize newSenderKeyDistribution E.C a m _ = x
      obtain ⟨r, w'⟩ := x
      cases r <;> simp [GOut.of, GOut.sentIteration]
    | encrypt a d pt =>
      have hinv := h.step (E := E) ⟨.encrypt a d pt, rd, srd, fs⟩ hN
      revert hinv
      simp only [GCall.run] at ho ⊢
      have hout := groupEncrypt_outcome E.C E.aliased a d pt { w with rand := rd, sysRand := srd, faults := fs }
      generalize groupEncrypt E.C E.aliased a d pt _ = x at ho hout ⊢
      obtain ⟨r, w'⟩ := x
      simp only at ho hout ⊢
      intro hinv
      cases hout with
      | early r fs rd hr => cases r <;> simp_all [GOut.of, GOut.sentIteration, Res.Bad]
      | stopped r fs hr => cases r <;> simp_all [GOut.of, GOut.sentIteration, Res.Bad]
      | done fs s rest sk m rd hb =>
        simp only [GOut.of, GOut.sentIteration] at ho
        split at ho
        · rename_i hk
          simp only [Option.some.injEq] at ho
          subst ho
          subst hk
          obtain ⟨ct, hct, hm⟩ := hb.built
          have hmi := newSenderKey_iteration hm
          have hrec := hb.record
          simp only at hrec
          obtain ⟨hw0, cid, hc⟩ := h.past _ hrec
          have hp := privateSigningKey_ne hb.key
          obtain ⟨hs1, hs2, hs3⟩ := hc s (by simp) hp
          have hr : ∀ rd fs, GCall.reach (a, d) ⟨.encrypt a d pt, rd, srd, fs⟩ = 1 := fun rd fs =>
            (GCall.reach_of (c := ⟨.encrypt a d pt, rd, srd, fs⟩) rfl).1 a d pt rfl
          rw [hr] at hN hinv ⊢
          have hnx := s.next_toNat E.C (by omega)
          refine ⟨fun hmem => ?_, by simp, fun g hg => ?_⟩
          · have := hs2 _ hmem
            rw [hmi] at this
            omega
          · obtain ⟨hw1, c1, hc1⟩ := hinv.past g hg
            refine ⟨hw1, c1, fun t ht htp => ?_⟩
            obtain ⟨h1, h2, h3⟩ := hc1 t ht htp
            refine ⟨h1, fun n hn => ?_, h3⟩
            rcases List.mem_append.mp hn with hn | hn
            · exact h2 n hn
            · rw [List.mem_singleton] at hn
              subst hn
              rw [hmi]
              simp only [upd_same, Option.some.injEq] at hg
              subst hg
              have e := hc1 _ (List.mem_cons_self ..) (by exact hp)
              have := hw1.holds_unique ht (List.mem_cons_self ..) (h1.trans e.1.symm)
              subst this
              omega
        · simp at ho

theorem sentIterations_nodup {E : GEnv} {k : Address × DistId} (cs : List GCall) {w : GWorld} {log : List UInt32} {N : Nat}
    (h : GSentInv log N (w.records k)) (hl : log.Pairwise (· ≠ ·)) (hN : N + (cs.map (GCall.reach k)).sum < 2 ^ 32) :
    (log ++ sentIterations k (runGCalls E cs w).1).Pairwise (· ≠ ·) := by
  induction cs generalizing w log N with
  | nil => simpa [runGCalls, sentIterations] using hl
  | cons c cs ih =>
    simp only [List.map_cons, List.sum_cons] at hN
    simp only [runGCalls, sentIterations, List.filterMap_cons]
    rcases h.call (E := E) c (by omega) with ⟨ho, hi⟩ | ⟨n, ho, hn, hi⟩
    · rw [ho]
      exact ih hi hl (by omega)
    · rw [ho]
      have := ih hi (by
        rw [List.pairwise_append]
        refine ⟨hl, by simp, fun a ha b hb => ?_⟩
        rw [List.mem_singleton] at hb
        subst hb
        intro e
        exact hn (e ▸ ha)) (by omega)
      simpa [sentIterations] using this

end Verif
