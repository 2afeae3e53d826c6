import Verif.Spec.GroupTrouble
import Verif.Proofs.GroupDelivery

/-!
Groups with failing stores and many sender keys: where the state of a chain is in its record, and what a faulty delivery leaves.
-/

namespace Verif

attribute [local irreducible] maxMessageKeys

/-- The chain ids of a record, oldest first. -/
def GRecord.ids (g : GRecord) : List UInt32 := g.map GState.chainId

/-- Every state added after the one for `cid` belongs to one of `others`. -/
def GRecord.Behind (g : GRecord) (cid : UInt32) (others : List UInt32) : Prop :=
  ∀ l1 l2, g.ids = l1 ++ cid :: l2 → ∀ c ∈ l2, c ∈ others

theorem GRecord.Behind.mono {g : GRecord} {cid : UInt32} {o o' : List UInt32} (h : g.Behind cid o) (ho : ∀ c ∈ o, c ∈ o') : g.Behind cid o' :=
  fun l1 l2 hg c hc => ho c (h l1 l2 hg c hc)

theorem GRecord.Behind.of_ids {g g' : GRecord} {cid : UInt32} {o : List UInt32} (h : g.Behind cid o) (hi : g'.ids = g.ids) : g'.Behind cid o :=
  fun l1 l2 hg => h l1 l2 (hi ▸ hg)

theorem GRecord.WF.ids_nodup {g : GRecord} (h : g.WF) : g.ids.Nodup := List.pairwise_map.mpr h.distinct

/-- The place of an element of a list without repetitions. -/
theorem split_unique {α} {x : α} : ∀ {l1 l2 m1 m2 : List α}, (l1 ++ x :: l2).Nodup → l1 ++ x :: l2 = m1 ++ x :: m2 → l2 = m2 := by
  intro l1
  induction l1 with
  | nil =>
    intro l2 m1 m2 hn he
    cases m1 with
    | nil => simpa using he
    | cons y m1 =>
      simp only [List.nil_append, List.cons_append, List.cons.injEq] at he hn
      rw [List.nodup_cons] at hn
      exact absurd (by rw [he.2]; simp) hn.1
  | cons y l1 ih =>
    intro l2 m1 m2 hn he
    simp only [List.cons_append] at hn he
    rw [List.nodup_cons] at hn
    cases m1 with
    | nil =>
      simp only [List.nil_append, List.cons.injEq] at he
      exact absurd (by rw [he.1]; simp) hn.1
    | cons z m1 =>
      simp only [List.cons_append, List.cons.injEq] at he
      exact ih hn.2 he.2

/-- The state put last has nothing behind it. -/
theorem GRecord.Behind.last {g : GRecord} (hg : g.WF) {l : GRecord} {st : GState} (he : g = l ++ [st]) (o : List UInt32) : g.Behind st.chainId o := by
  intro l1 l2 h c hc
  have hn := hg.ids_nodup
  have e2 : g.ids = l.map GState.chainId ++ st.chainId :: [] := by simp [he, GRecord.ids]
  rw [h] at hn
  have := split_unique hn (h.symm.trans e2)
  subst this
  simp at hc

/-- Another chain is added: a state that has few others behind it stays. -/
theorem GRecord.WF.added_keeps {g : GRecord} (hg : g.WF) {st : GState} (hst : st ∈ g) {o : List UInt32} (hb : g.Behind st.chainId o) {s : GState} (hs : s.WF)
    {k : PubKey} (hk : s.signingPublic = k.bytes) (hne : s.chainId ≠ st.chainId) (ho : (o.insert s.chainId).length < 5) :
    st ∈ g.added s k ∧ (g.added s k).Behind st.chainId (o.insert s.chainId) := by
  have hwf := hg.added hs hk
  obtain ⟨a, b, hab⟩ := List.append_of_mem hst
  obtain ⟨f1, hf1⟩ : ∃ f1, f1 = a.filter (fun t => decide (t.chainId ≠ s.chainId)) := ⟨_, rfl⟩
  obtain ⟨f2, hf2⟩ : ∃ f2, f2 = b.filter (fun t => decide (t.chainId ≠ s.chainId)) := ⟨_, rfl⟩
  have hfil : g.filter (fun t => decide (t.chainId ≠ s.chainId)) = f1 ++ st :: f2 := by
    rw [hab, List.filter_append, List.filter_cons_of_pos (by simpa using fun e => hne e.symm), hf1, hf2]
  have hlast : ((g.find? (GRecord.isState s.chainId k)).getD s).chainId = s.chainId := by
    rcases hg.added_last s k hk with ⟨t, ht, he⟩ | ⟨_, he⟩
    · rw [he]; exact ht.2.1
    · rw [he]
  have hids : ∀ t ∈ b, t.chainId ∈ o := by
    intro t ht
    refine hb (a.map GState.chainId) (b.map GState.chainId) (by simp [hab, GRecord.ids]) _ (List.mem_map_of_mem ht)
  have hmem2 : ∀ t ∈ f2, t.chainId ∈ o ∧ t.chainId ≠ s.chainId := by
    intro t ht
    rw [hf2, List.mem_filter] at ht
    exact ⟨hids t ht.1, by simpa using ht.2⟩
  have hnd2 : (f2.map GState.chainId).Nodup := by
    have h1 : (b.map GState.chainId).Nodup := by
      have := hg.ids_nodup
      simp only [GRecord.ids, hab, List.map_append, List.map_cons] at this
      exact (List.nodup_cons.mp (List.nodup_append.mp this).2.1).2
    rw [hf2]
    exact h1.sublist (List.filter_sublist.map _)
  have hlen : f2.length < 4 := by
    have h1 : (s.chainId :: f2.map GState.chainId).Nodup := by
      rw [List.nodup_cons]
      refine ⟨fun h => ?_, hnd2⟩
      obtain ⟨t, ht, he⟩ := List.mem_map.mp h
      exact (hmem2 t ht).2 he
    have h2 : (s.chainId :: f2.map GState.chainId).length ≤ (o.insert s.chainId).length := by
      refine List.Nodup.length_le_of_subset h1 ?_
      intro c hc
      rw [List.mem_insert_iff]
      rcases List.mem_cons.mp hc with rfl | hc
      · exact .inl rfl
      · obtain ⟨t, ht, rfl⟩ := List.mem_map.mp hc
        exact .inr (hmem2 t ht).1
    simp only [List.length_cons, List.length_map] at h2
    omega
  have hadd : ∃ f0, g.added s k = f0 ++ st :: (f2 ++ [(g.find? (GRecord.isState s.chainId k)).getD s]) := by
    rw [hg.added_eq, hfil]
    refine ⟨f1.drop ((f1 ++ st :: f2).length - 4), ?_⟩
    unfold lastN
    rw [List.drop_append_of_le_length (by simp; omega)]
    simp
  obtain ⟨f0, hadd⟩ := hadd
  refine ⟨by rw [hadd]; simp, fun l1 l2 hl c hc => ?_⟩
  have hn := hwf.ids_nodup
  have e2 : (g.added s k).ids = f0.map GState.chainId ++ st.chainId :: (f2.map GState.chainId ++ [s.chainId]) := by
    rw [hadd]; simp [GRecord.ids, hlast]
  rw [hl] at hn
  have := split_unique hn (hl.symm.trans e2)
  subst this
  rw [List.mem_insert_iff]
  rcases List.mem_append.mp hc with hc | hc
  · obtain ⟨t, ht, rfl⟩ := List.mem_map.mp hc
    exact .inr (hmem2 t ht).1
  · simp only [List.mem_singleton] at hc
    exact .inl hc

/-- The same chain is added again: its state stays as it is and becomes the last. -/
theorem GRecord.WF.added_again {g : GRecord} (hg : g.WF) {st : GState} {k : PubKey} (hst : g.Holds st.chainId k st) {s : GState} (hs : s.WF)
    (hk : s.signingPublic = k.bytes) (he : s.chainId = st.chainId) (o : List UInt32) :
    st ∈ g.added s k ∧ (g.added s k).Behind st.chainId o := by
  have hwf := hg.added hs hk
  have hl : (g.find? (GRecord.isState s.chainId k)).getD s = st := by
    rcases hg.added_last s k hk with ⟨t, ht, hte⟩ | ⟨hno, _⟩
    · rw [hte]
      have h1 := hg.stateForChainID ht.1
      have h2 := hg.stateForChainID hst.1
      rw [ht.2.1, he] at h1
      rw [h1] at h2
      simpa using h2
    · exact absurd (he ▸ hst) (hno st)
  have hadd := hg.added_eq s k
  rw [hl] at hadd
  exact ⟨by rw [hadd]; simp, GRecord.Behind.last hwf hadd o⟩

/-! ## The receiver -/

/-- The receiver's record has the state of the chain, with no more than `others` behind it. -/
def GHolder (C : Crypto) (w : GWorld) (k : Address × DistId) (cid : UInt32) (pk : PubKey) (ck : SKChainKey) (acc : List Nat) (t N : Nat) (others : List UInt32) : Prop :=
  GReceiver C w k cid pk ck acc t N ∧ ∀ g, w.records k = some g → g.Behind cid others

theorem GHolder.of_record {C : Crypto} {w w' : GWorld} {k : Address × DistId} {cid : UInt32} {pk : PubKey} {ck : SKChainKey} {acc : List Nat} {t N : Nat}
    {others : List UInt32} (h : GHolder C w k cid pk ck acc t N others) (he : w'.records k = w.records k) : GHolder C w' k cid pk ck acc t N others := by
  obtain ⟨⟨g, st, p, h1, h2⟩, hb⟩ := h
  exact ⟨⟨g, st, p, he.trans h1, h2⟩, fun g hg => hb g (he ▸ hg)⟩

/-- A decryption leaves the chain ids of the record as they are. -/
theorem groupDecrypt_ids {C : Crypto} {al : Bool} {w : GWorld} {a : Address} {dist : DistId} {g : GRecord} (hrec : w.records (a, dist) = some g) (hwf : g.WF)
    (m : SenderKeyMsg) {g' : GRecord} (hg' : (groupDecrypt C al a m w).2.records (a, dist) = some g') : g'.ids = g.ids := by
  have hset : ∀ {g0 s k mk s'}, GAccepted C w a m g0 s k mk s' → ∀ g1, upd w.records (a, m.distID) (some (g0.setStateForChainID m.chainID s')) (a, dist) = some g1 → g1.ids = g.ids := by
    intro g0 s k mk s' hac g1 hg1
    by_cases hd : m.distID = dist
    · subst hd
      have h0 := hac.record
      rw [hrec, Option.some.injEq] at h0
      subst h0
      rw [upd_same, Option.some.injEq] at hg1
      subst hg1
      obtain ⟨hs1, hs2⟩ := GRecord.stateForChainID_some hac.state
      exact GRecord.setState_map ((hac.gtaken (hwf.states s hs1)).chainId.1.trans hs2)
    · rw [upd_ne _ _ (fun he => hd (Prod.mk.inj he).2.symm), hrec, Option.some.injEq] at hg1
      rw [hg1]
  have ho := groupDecrypt_outcome C al a m w
  generalize groupDecrypt C al a m w = x at ho hg'
  obtain ⟨r, w'⟩ := x
  simp only at ho hg'
  have hsame : ∀ g1, w.records (a, dist) = some g1 → g1.ids = g.ids := by
    intro g1 h1
    rw [hrec, Option.some.injEq] at h1
    rw [h1]
  cases ho with
  | early r fs hr0 => exact hsame _ hg'
  | stopped r fs hr0 g0 s k mk s' hac records hs =>
    rcases hs with hs | ⟨hs, _⟩
    · simp only [hs, gmid] at hg'
      split at hg'
      · exact hset hac _ hg'
      · exact hsame _ hg'
    · simp only [hs] at hg'
      exact hset hac _ hg'
  | done fs g0 s k mk s' q hac hq => exact hset hac _ hg'

/-- A decryption that keeps the invariant keeps the place of the state. -/
theorem GHolder.decrypt {C : Crypto} {al : Bool} {w : GWorld} {a : Address} {dist : DistId} {cid : UInt32} {pk : PubKey} {ck : SKChainKey} {acc acc' : List Nat} {t N : Nat}
    {others : List UInt32} (h : GHolder C w (a, dist) cid pk ck acc t N others) (m : SenderKeyMsg)
    (hr : GReceiver C (groupDecrypt C al a m w).2 (a, dist) cid pk ck acc' t N) : GHolder C (groupDecrypt C al a m w).2 (a, dist) cid pk ck acc' t N others := by
  obtain ⟨⟨g, st, p, h1, hwf, h2⟩, hb⟩ := h
  exact ⟨hr, fun g' hg' => (hb g h1).of_ids (groupDecrypt_ids h1 hwf m hg')⟩

/-- A delivery with failing stores: either the record is untouched, or it is the one after a delivery without failures; and no
other plaintext comes out. -/
theorem GReceiver.deliver_faulty {C : Crypto} {al : Bool} {w : GWorld} {a : Address} {dist : DistId} {cid : UInt32} {pk : PubKey} {ck : SKChainKey} {acc : List Nat}
    {t N : Nat} (hN : ck.iteration.toNat + N < 2 ^ 32) (h : GReceiver C w (a, dist) cid pk ck acc t N) {m : SenderKeyMsg} {pt : Bytes} {n : Nat}
    (hm : GSent C dist cid pk ck N m pt n) (fs : List Fault) :
    let x := groupDecrypt C al a m { w with faults := fs }
    let y := groupDecrypt C al a m { w with faults := [] }
    (x.2.records = w.records ∨ (y.1 = .ok pt ∧ x.2.records = y.2.records)) ∧ (∀ q, x.1 = .ok q → q = pt ∧ y.1 = .ok pt ∧ x.2.records = y.2.records) := by
  intro x y
  have hrecv := h
  obtain ⟨g, st, p, hrec, hwf, hst, hver, hr⟩ := h
  have hsw := hwf.states st hst.1
  have hrN : GReceiverSt C ck acc N N st p := { hr with kept := fun h => absurd h (Nat.not_lt.mpr hr.le) }
  have key : ∀ {g0 s k mk s'}, GAccepted C { w with faults := fs } a m g0 s k mk s' →
      y.1 = .ok pt ∧ y.2.records = upd w.records (a, m.distID) (some (g0.setStateForChainID m.chainID s')) ∧ cbcDecrypt C mk.cipherKey mk.iv m.ciphertext = .ok pt := by
    intro g0 s k mk s' hac
    have hrun := groupDecrypt_run C al a m { w with faults := [] } rfl g0 s k hac.record hac.state hac.version hac.key hac.signed
    rcases hrecv.deliver (w := { w with faults := [] }) (al := al) hN hm rfl with ⟨hok, _⟩ | ⟨e, her, _⟩
    · have hdec : cbcDecrypt C mk.cipherKey mk.iv m.ciphertext = .ok pt := by
        have h0 := hac.record
        simp only [hm.distID, hrec, Option.some.injEq] at h0
        subst h0
        have hs0 := hac.state
        rw [hm.chainID, ← hst.2.1, hwf.stateForChainID hst.1, Option.some.injEq] at hs0
        subst hs0
        have htk := hac.gtaken hsw
        have hmk := (hrN.take hN hm.lt hm.iteration htk (fun h => absurd h (Nat.lt_irrefl _))).1
        rw [hmk]; exact hm.opens
      exact ⟨hok, by show (groupDecrypt C al a m { w with faults := [] }).2.records = _; rw [hrun.2 mk s' pt hac.taken hdec], hdec⟩
    · exfalso
      have h0 := hac.record
      simp only [hm.distID, hrec, Option.some.injEq] at h0
      subst h0
      have hs0 := hac.state
      rw [hm.chainID, ← hst.2.1, hwf.stateForChainID hst.1, Option.some.injEq] at hs0
      subst hs0
      have htk := hac.gtaken hsw
      have hmk := (hrN.take hN hm.lt hm.iteration htk (fun h => absurd h (Nat.lt_irrefl _))).1
      have := hrun.2 mk s' pt hac.taken (by rw [hmk]; exact hm.opens)
      rw [this] at her
      simp at her
  have ho := groupDecrypt_outcome C al a m { w with faults := fs }
  change GDecOutcome C al a m { w with faults := fs } x.1 x.2 at ho
  clear_value x
  obtain ⟨r, w'⟩ := x
  simp only at ho ⊢
  cases ho with
  | early r fs hr0 => exact ⟨.inl rfl, fun q hq => by subst hq; simp at hr0⟩
  | stopped r fs hr0 g0 s k mk s' hac records hs =>
    obtain ⟨k1, k2, k3⟩ := key hac
    refine ⟨?_, fun q hq => by subst hq; simp at hr0⟩
    rcases hs with hs | ⟨hs, _⟩
    · simp only [hs, gmid]
      split
      · exact .inr ⟨k1, k2.symm⟩
      · exact .inl rfl
    · exact .inr ⟨k1, by rw [k2]; exact hs⟩
  | done fs g0 s k mk s' q hac hq =>
    obtain ⟨k1, k2, k3⟩ := key hac
    refine ⟨.inr ⟨k1, k2.symm⟩, fun q' hq' => ?_⟩
    rw [hq] at k3
    simp only [Res.ok.injEq] at hq' k3
    exact ⟨hq'.symm.trans k3, k1, k2.symm⟩

/-- Processing a distribution message. -/
theorem GHolder.process {C : Crypto} {al : Bool} {w : GWorld} {a : Address} {dist : DistId} {cid : UInt32} {pk : PubKey} {ck : SKChainKey} {acc : List Nat} {t N : Nat}
    {others : List UInt32} (h : GHolder C w (a, dist) cid pk ck acc t N others) (d : DistributionMsg) (hd : d.distID = dist → d.chainID = cid → d.signingKey = pk)
    (others' : List UInt32) (ho' : others' = if d.distID ≠ dist then others
               else if d.chainID ≠ cid then others.insert d.chainID
               else if (processDistribution al a d w).1 = .ok () then [] else others) (hlen : others'.length < 5) :
    GHolder C (processDistribution al a d w).2 (a, dist) cid pk ck acc t N others' := by
  by_cases hdist : d.distID = dist
  rotate_left
  · have hk : (a, dist) ≠ (a, d.distID) := fun he => hdist (Prod.mk.inj he).2.symm
    rw [if_pos hdist] at ho'
    subst ho'
    have ho := processDistribution_outcome al a d w
    generalize processDistribution al a d w = x at ho ⊢
    obtain ⟨r, w'⟩ := x
    simp only at ho ⊢
    cases ho with
    | early fs => exact h.of_record rfl
    | stopped fs records hs =>
      refine h.of_record ?_
      rcases hs with hs | ⟨hs, _⟩
      · simp only [hs, gmid]
        split
        · exact upd_ne _ _ hk
        · rfl
      · simp only [hs]; exact upd_ne _ _ hk
    | done fs => exact h.of_record (upd_ne _ _ hk)
  subst hdist
  rw [if_neg (by simp)] at ho'
  have hh := h
  obtain ⟨⟨g, st, p, hrec, hwf, hst, hver, hr⟩, hb⟩ := h
  have hb := hb g hrec
  have hkb : d.state.signingPublic = d.signingKey.bytes := rfl
  have hsw : d.state.WF := newGroupState_WF ..
  have hcid : d.state.chainId = d.chainID := rfl
  -- what is added keeps the state, and leaves it behind no more than the others
  have hadd : st ∈ g.added d.state d.signingKey ∧ (g.added d.state d.signingKey).Behind cid others' := by
    by_cases hc : d.chainID = cid
    · have hpk := hd rfl hc
      have := hwf.added_again (st := st) (k := d.signingKey) ⟨hst.1, rfl, by rw [hpk]; exact hst.2.2⟩ hsw hkb (by rw [hcid, hc, hst.2.1]) others'
      rwa [hst.2.1] at this
    · rw [if_pos hc] at ho'
      subst ho'
      have := hwf.added_keeps (st := st) hst.1 (o := others) (by rw [hst.2.1]; exact hb) hsw hkb (by rw [hcid, hst.2.1]; exact hc) (by rw [hcid]; exact hlen)
      rwa [hst.2.1, hcid] at this
  have hdone : ∀ w' : GWorld, w'.records (a, d.distID) = some (g.added d.state d.signingKey) → GHolder C w' (a, d.distID) cid pk ck acc t N others' := by
    intro w' hw'
    refine ⟨⟨_, st, p, hw', hwf.added hsw hkb, ⟨hadd.1, hst.2⟩, hver, hr⟩, fun g' hg' => ?_⟩
    rw [hw', Option.some.injEq] at hg'
    exact hg' ▸ hadd.2
  have hsame : (processDistribution al a d w).1 ≠ .ok () → ∀ w' : GWorld, w'.records (a, d.distID) = w.records (a, d.distID) →
      GHolder C w' (a, d.distID) cid pk ck acc t N others' := by
    intro hne w' hw'
    have h1 := hh.of_record hw'
    refine ⟨h1.1, fun g' hg' => (h1.2 g' hg').mono fun c hc => ?_⟩
    rw [ho']
    split
    · rw [List.mem_insert_iff]; exact .inr hc
    · exact hc
  have ho := processDistribution_outcome al a d w
  generalize processDistribution al a d w = x at ho hsame ⊢
  obtain ⟨r, w'⟩ := x
  simp only at ho hsame ⊢
  cases ho with
  | early fs => exact hsame (by simp) _ rfl
  | stopped fs records hs =>
    have hg : (w.records (a, d.distID)).getD [] = g := by rw [hrec]; rfl
    rw [hg] at hs
    rcases hs with hs | ⟨hs, _⟩
    · rw [gmid] at hs
      split at hs
      · exact hdone _ (by simp only [hs]; exact upd_same ..)
      · exact hsame (by simp) _ (by simp only [hs])
    · exact hdone _ (by simp only [hs]; exact upd_same ..)
  | done fs =>
    refine hdone _ ?_
    simp only [hrec, Option.getD_some]
    exact upd_same ..

/-! ## The system -/

/-- The invariant of a sender and a receiver. -/
structure GTInv (P : GPair) (cid : UInt32) (pk : PubKey) (ck : SKChainKey) (t N M : Nat) (S : GTSys) : Prop where
  sys : GSysInv P cid pk ck t N M S.toGSys
  behind : ∀ g, S.receiver.records (P.address, P.dist) = some g → g.Behind cid S.others

theorem GTInv.holder {P : GPair} {cid : UInt32} {pk : PubKey} {ck : SKChainKey} {t N M : Nat} {S : GTSys} (h : GTInv P cid pk ck t N M S) :
    GHolder P.C S.receiver (P.address, P.dist) cid pk ck S.accepted t N S.others := ⟨h.sys.receiver, h.behind⟩

theorem GPair.receiveWith_eq {P : GPair} {m : SenderKeyMsg} (h : newSenderKeyFromBytes m.serialized = .ok m) (fs : List Fault) (w : GWorld) :
    P.receiveWith m.serialized fs w = groupDecrypt P.C P.receiverAliased P.address m { w with faults := fs } := by
  unfold GPair.receiveWith; rw [h]

theorem GTInv.step {P : GPair} {cid : UInt32} {pk : PubKey} {ck : SKChainKey} {t N M : Nat} {S : GTSys} (hN : ck.iteration.toNat + N < 2 ^ 32)
    (h : GTInv P cid pk ck t N M S) (e : GTEvent) (he : e.Ok P cid pk) (hM : M + tsends [e] ≤ N) (hlen : (P.tstep cid S e).others.length < 5)
    (hout : t < N → outstanding (P.tstep cid S e).accepted (ck.iteration.toNat + t) < 2000) : GTInv P cid pk ck t N (M + tsends [e]) (P.tstep cid S e) := by
  cases e with
  | plain e =>
    have hs1 : tsends [GTEvent.plain e] = sends [e] := by cases e <;> rfl
    rw [hs1] at hM ⊢
    have hinv := h.sys.step hN e he hM hout
    refine ⟨hinv, ?_⟩
    have hr := hinv.receiver
    simp only [GPair.tstep] at hr ⊢
    cases e with
    | send pt rand faults =>
      simp only [GPair.step]
      split <;> exact h.behind
    | deliver i =>
      simp only [GPair.step] at hr ⊢
      cases hi : S.sent[i]? with
      | none => exact h.behind
      | some x =>
        obtain ⟨m, pt⟩ := x
        obtain ⟨n, hn⟩ := h.sys.sent _ (List.mem_of_getElem? hi)
        simp only at hn
        rw [hi] at hr
        simp only [GPair.receive_eq hn.parses] at hr ⊢
        have h0 : GHolder P.C { S.receiver with faults := [] } (P.address, P.dist) cid pk ck S.accepted t N S.others := h.holder
        have hids : ∀ g', (groupDecrypt P.C P.receiverAliased P.address m { S.receiver with faults := [] }).2.records (P.address, P.dist) = some g' → g'.Behind cid S.others := by
          obtain ⟨⟨g, st, p, h1, hwf, h2⟩, hb⟩ := h0
          exact fun g' hg' => (hb g h1).of_ids (groupDecrypt_ids h1 hwf m hg')
        generalize groupDecrypt P.C P.receiverAliased P.address m _ = x at hids ⊢
        obtain ⟨r, w'⟩ := x
        cases r <;> exact hids
    | foreign m faults =>
      have h0 : GHolder P.C { S.receiver with faults := faults } (P.address, P.dist) cid pk ck S.accepted t N S.others := h.holder
      exact (h0.decrypt m hr).2
    | senderCall c =>
      simp only [GPair.step]
      split <;> exact h.behind
    | receiverCall c =>
      simp only [GPair.step]
      split
      · exact h.behind
      · rename_i hk
        rcases gcall_changed ⟨P.C, P.receiverAliased⟩ c S.receiver (P.address, P.dist) with he | ⟨g', hk', _⟩
        · exact (h.holder.of_record he).2
        · exact absurd hk' hk
  | deliver i faults =>
    have hs1 : tsends [GTEvent.deliver i faults] = 0 := rfl
    rw [hs1] at hM ⊢
    simp only [GPair.tstep] at hout ⊢
    cases hi : S.sent[i]? with
    | none => exact h
    | some x =>
      obtain ⟨m, pt⟩ := x
      obtain ⟨n, hn⟩ := h.sys.sent _ (List.mem_of_getElem? hi)
      simp only at hn
      have hmn : m.iteration.toNat = ck.iteration.toNat + n := by rw [hn.iteration]; exact skIter_toNat P.C ck n (by have := hn.lt; omega)
      rw [hi] at hout
      simp only at hout ⊢
      have hf := h.sys.receiver.deliver_faulty (al := P.receiverAliased) hN hn faults
      simp only at hf
      have h0 : GHolder P.C { S.receiver with faults := [] } (P.address, P.dist) cid pk ck S.accepted t N S.others := h.holder
      by_cases htk : P.tookIn m.serialized faults S.receiver = true
      · rw [if_pos htk] at hout ⊢
        simp only [GPair.tookIn, Bool.and_eq_true, decide_eq_true_eq, GPair.receive_eq hn.parses, GPair.receiveWith_eq hn.parses] at htk
        simp only at hout
        rw [hmn] at hout ⊢
        rw [GPair.receiveWith_eq hn.parses]
        rcases h0.1.deliver (al := P.receiverAliased) hN hn rfl with ⟨hok, hr⟩ | ⟨e, her, _⟩
        · have := (h0.decrypt m (hr hout)).of_record htk.2
          exact ⟨⟨h.sys.sender, h.sys.sent, this.1⟩, this.2⟩
        · rw [her] at htk
          simp at htk
      · rw [if_neg htk] at hout ⊢
        have hsame : (groupDecrypt P.C P.receiverAliased P.address m { S.receiver with faults := faults }).2.records = S.receiver.records := by
          rcases hf.1 with hs | ⟨hok, hs⟩
          · exact hs
          · exfalso
            refine htk ?_
            simp only [GPair.tookIn, Bool.and_eq_true, decide_eq_true_eq, GPair.receive_eq hn.parses, GPair.receiveWith_eq hn.parses]
            rw [hok, hs]
            exact ⟨rfl, rfl⟩
        have := h.holder.of_record (w' := (groupDecrypt P.C P.receiverAliased P.address m { S.receiver with faults := faults }).2) (by rw [hsame])
        rw [GPair.receiveWith_eq hn.parses]
        exact ⟨⟨h.sys.sender, h.sys.sent, this.1⟩, this.2⟩
  | distribute rand sysRand faults =>
    have hs1 : tsends [GTEvent.distribute rand sysRand faults] = 0 := rfl
    rw [hs1] at hM ⊢
    refine ⟨⟨?_, h.sys.sent, h.sys.receiver⟩, h.behind⟩
    obtain ⟨st, rest, j, h1, h2⟩ := h.sys.sender.state
    have ho := newSenderKeyDistribution_outcome P.C P.address P.dist { S.sender with rand := rand, sysRand := sysRand, faults := faults }
    simp only [GPair.tstep]
    generalize newSenderKeyDistribution P.C P.address P.dist { S.sender with rand := rand, sysRand := sysRand, faults := faults } = x at ho ⊢
    obtain ⟨r, w'⟩ := x
    simp only at ho ⊢
    cases ho with
    | early r fs rd srd hr => exact ⟨st, rest, j, h1, h2⟩
    | stopped fs rd srd g h hn hf => rw [h1] at hn; simp at hn
    | existing fs s rest k h hk => exact ⟨st, _, j, h1, h2⟩
    | created fs rd srd s k h hn hk => rw [h1] at hn; simp at hn
  | process d faults =>
    have hs1 : tsends [GTEvent.process d faults] = 0 := rfl
    rw [hs1] at hM ⊢
    have h0 : GHolder P.C { S.receiver with faults := faults } (P.address, P.dist) cid pk ck S.accepted t N S.others := h.holder
    have := h0.process (al := P.receiverAliased) d he _ rfl hlen
    exact ⟨⟨h.sys.sender, h.sys.sent, this.1⟩, this.2⟩

theorem tsends_cons (e : GTEvent) (es : List GTEvent) : tsends (e :: es) = tsends [e] + tsends es := by
  unfold tsends
  rw [List.countP_cons, List.countP_cons]
  simp; omega

theorem GTInv.run {P : GPair} {cid : UInt32} {pk : PubKey} {ck : SKChainKey} {t N : Nat} (hN : ck.iteration.toNat + N < 2 ^ 32)
    (es : List GTEvent) {M : Nat} {S : GTSys} (h : GTInv P cid pk ck t N M S) (he : ∀ e ∈ es, e.Ok P cid pk) (hM : M + tsends es ≤ N)
    (hlen : ∀ n, (P.trun cid S (es.take n)).others.length < 5)
    (hout : t < N → ∀ n, outstanding (P.trun cid S (es.take n)).accepted (ck.iteration.toNat + t) < 2000) :
    GTInv P cid pk ck t N (M + tsends es) (P.trun cid S es) := by
  induction es generalizing S M with
  | nil => exact h
  | cons e es ih =>
    rw [tsends_cons] at hM ⊢
    rw [← Nat.add_assoc]
    refine ih (h.step hN e (he e (by simp)) (by omega) (hlen 1) (fun ht => hout ht 1)) (fun e' he' => he e' (by simp [he'])) (by omega) (fun n => ?_) (fun ht n => ?_)
    · have := hlen (n + 1)
      rwa [List.take_succ_cons] at this
    · have := hout ht (n + 1)
      rwa [List.take_succ_cons] at this

/-- A user without the private signing key sends nothing. -/
theorem keyless_tsends_nothing {P : GPair} {cid : UInt32} (es : List GTEvent) (S : GTSys)
    (h : ∃ st rest, S.sender.records (P.address, P.dist) = some (st :: rest) ∧ st.signingPrivate = [])
    (h0 : S.sent = []) : (P.trun cid S es).sent = [] := by
  induction es generalizing S with
  | nil => exact h0
  | cons e es ih =>
    cases e with
    | plain e =>
      refine ih _ ?_ (keyless_sends_nothing [e] S.toGSys h h0)
      obtain ⟨st, rest, hrec, hp⟩ := h
      simp only [GPair.tstep]
      cases e with
      | send pt rand faults =>
        simp only [GPair.step]
        have ho := groupEncrypt_outcome P.C P.senderAliased P.address P.dist pt { S.sender with rand := rand, faults := faults }
        generalize groupEncrypt P.C P.senderAliased P.address P.dist pt _ = x at ho ⊢
        obtain ⟨r, w'⟩ := x
        simp only at ho
        have hno : ∀ {s' rest' sk m rd}, ¬ GBuilt P.C { S.sender with rand := rand, faults := faults } P.address P.dist pt s' rest' sk m rd := by
          intro s' rest' sk m rd hb
          have := hb.record
          simp only [hrec, Option.some.injEq, List.cons.injEq] at this
          rw [this.1] at hp
          exact privateSigningKey_ne hb.key hp
        cases ho with
        | early r fs rd hr => cases r <;> first | exact ⟨st, rest, hrec, hp⟩ | simp at hr
        | stopped r fs hr s' rest' sk m rd hb => exact absurd hb hno
        | done fs s' rest' sk m rd hb => exact absurd hb hno
      | deliver i =>
        simp only [GPair.step]
        split
        · exact ⟨st, rest, hrec, hp⟩
        · split <;> exact ⟨st, rest, hrec, hp⟩
      | foreign m faults => exact ⟨st, rest, hrec, hp⟩
      | senderCall c =>
        simp only [GPair.step]
        split
        · exact ⟨st, rest, hrec, hp⟩
        · rename_i hk
          rcases gcall_changed ⟨P.C, P.senderAliased⟩ c S.sender (P.address, P.dist) with he | ⟨g', hk', _⟩
          · exact ⟨st, rest, he.trans hrec, hp⟩
          · exact absurd hk' hk
      | receiverCall c =>
        simp only [GPair.step]
        split <;> exact ⟨st, rest, hrec, hp⟩
    | deliver i faults =>
      have : P.tstep cid S (.deliver i faults) = S := by simp [GPair.tstep, h0]
      show (P.trun cid (P.tstep cid S (.deliver i faults)) es).sent = []
      rw [this]
      exact ih S h h0
    | distribute rand sysRand faults =>
      refine ih _ ?_ h0
      obtain ⟨st, rest, hrec, hp⟩ := h
      have ho := newSenderKeyDistribution_outcome P.C P.address P.dist { S.sender with rand := rand, sysRand := sysRand, faults := faults }
      simp only [GPair.tstep]
      generalize newSenderKeyDistribution P.C P.address P.dist { S.sender with rand := rand, sysRand := sysRand, faults := faults } = x at ho ⊢
      obtain ⟨r, w'⟩ := x
      simp only at ho ⊢
      cases ho with
      | early r fs rd srd hr => exact ⟨st, rest, hrec, hp⟩
      | stopped fs rd srd g h hn hf => rw [hrec] at hn; simp at hn
      | existing fs s rest k h hk => exact ⟨st, _, hrec, hp⟩
      | created fs rd srd s k h hn hk => rw [hrec] at hn; simp at hn
    | process d faults => exact ih _ h h0

end Verif
