import Verif.Proofs.GroupHistory
import Verif.Spec.GroupExample

/-!
# Group sessions: C38 to C46
-/

namespace Verif

open Ex

attribute [local irreducible] maxMessageKeys

theorem Ex.group0_empty : group0.Empty := fun _ => rfl

theorem GReachable.empty {E : GEnv} {w : GWorld} (h : w.Empty) : GReachable E w := ⟨w, [], w.rand, w.sysRand, w.faults, h, rfl⟩

/-- Bob's world in the example is reachable: they processed the distribution message. -/
theorem Ex.gbob1_reachable : GReachable gCopying gbob1 :=
  ⟨group0, [⟨.process alice d1, group0.rand, group0.sysRand, []⟩], gbob1.rand, gbob1.sysRand, gbob1.faults, group0_empty, rfl⟩

theorem GCall.run_plaintext {E : GEnv} {w : GWorld} {a : Address} {m : SenderKeyMsg} {p rd srd : Bytes} {fs : List Fault}
    (h : (groupDecrypt E.C E.aliased a m { w with rand := rd, sysRand := srd, faults := fs }).1 = .ok p) :
    (GCall.run E ⟨.decrypt a m, rd, srd, fs⟩ w).1 = .plaintext a m p := by
  simp only [GCall.run, h, GOut.of]

theorem GRecord.holds_of_any {o : Option GRecord} {c : UInt32} {k : PubKey}
    (h : (o.getD []).any (fun s => s.chainId == c && s.signingPublic == k.bytes) = true) : ∃ g s, o = some g ∧ g.Holds c k s := by
  cases o with
  | none => simp at h
  | some g =>
    simp only [Option.getD_some, List.any_eq_true, Bool.and_eq_true, beq_iff_eq] at h
    obtain ⟨s, hs, h1, h2⟩ := h
    exact ⟨g, s, rfl, hs, h1, h2⟩

/-! ## C38 -/

/-- C38: after any history of group calls that starts with an empty store, if DecryptMessage returns a plaintext for
`m`, then after any further history the same message is answered with ErrDuplicateMessage and changes nothing, and no
message with the same chain id and iteration is ever decrypted again, whatever its content and whatever the store does.
This holds for as long as the record keeps a state for this chain id and signing key (`hkeep`); a receiver that has
dropped it, after distribution messages for five other chains, knows nothing about the chain any more. -/
theorem C38_accepted_once_partial (E : GEnv) (w0 : GWorld) (h0 : w0.Empty) (cs1 cs2 : List GCall) (a : Address) (m : SenderKeyMsg)
    (c : GCall) (hc : c.op = .decrypt a m) (p : Bytes) (hp : (c.run E (gAfter E cs1 w0)).1 = .plaintext a m p)
    (hr1 : ∀ c ∈ cs1, c.Receives (a, m.distID)) (hr : c.Receives (a, m.distID)) (hr2 : ∀ c ∈ cs2, c.Receives (a, m.distID))
    (key : PubKey)
    (hkeep : ∀ n, ∃ g s, (gAfter E (cs2.take n) (c.run E (gAfter E cs1 w0)).2).records (a, m.distID) = some g ∧
      g.Holds m.chainID key s) :
    let w2 := gAfter E cs2 (c.run E (gAfter E cs1 w0)).2
    (∀ rand sysRand, groupDecrypt E.C E.aliased a m { w2 with rand := rand, sysRand := sysRand, faults := [] } =
      (.err .duplicateMessage, { w2 with rand := rand, sysRand := sysRand, faults := [] })) ∧
    (∀ (m' : SenderKeyMsg) rand sysRand faults, m'.distID = m.distID → m'.chainID = m.chainID → m'.iteration = m.iteration →
      (groupDecrypt E.C E.aliased a m' { w2 with rand := rand, sysRand := sysRand, faults := faults }).1.Bad) := by
  have hord0 : GOrdered (w0.records (a, m.distID)) := fun g hg => by rw [h0] at hg; simp at hg
  have hord1 := hord0.after (E := E) cs1 hr1
  generalize gAfter E cs1 w0 = w at hp hkeep hord1 ⊢
  have hord2 := hord1.call (E := E) c hr
  -- the state of the accepted message
  have hkeep0 := hkeep 0
  simp only [List.take_zero] at hkeep0
  obtain ⟨g, s, hg, hs⟩ := hkeep0
  have hacc : ∃ ver, GSpent ((c.run E w).2.records (a, m.distID)) m.chainID key ver m.iteration ∧
      m.verifySignature E.C key = .ok true ∧ m.version.toUInt32 = (if ver = 0 then 3 else ver) := by
    change (c.run E w).2.records (a, m.distID) = some g at hg
    have hrc := (hr (by rw [hc]; rfl)).2 a m hc
    obtain ⟨op, rd, srd, fs⟩ := c
    simp only at hc
    subst hc
    simp only [GCall.run] at hp hg hord2 ⊢
    have ho := groupDecrypt_outcome E.C E.aliased a m { w with rand := rd, sysRand := srd, faults := fs }
    generalize groupDecrypt E.C E.aliased a m _ = x at ho hp hg hord2 ⊢
    obtain ⟨r, w'⟩ := x
    simp only at ho hp hg hord2 ⊢
    cases ho with
    | early r fs hr => cases r <;> simp_all [GOut.of, Res.Bad]
    | stopped r fs hr => cases r <;> simp_all [GOut.of, Res.Bad]
    | done fs g0 s0 k mk s' q hac hq =>
      simp only [upd_same, Option.some.injEq] at hg ⊢
      subst hg
      have hrec := hac.record
      simp only at hrec
      obtain ⟨hw0, hso⟩ := hord1 g0 hrec
      obtain ⟨hm0, hc0⟩ := GRecord.stateForChainID_some hac.state
      have htk := hac.gtaken (hw0.states _ hm0)
      have hmem := (hw0.mem_setState hm0 htk.chainId.1 s').mpr (.inl rfl)
      rw [hc0] at hmem
      have hwf2 := (hord2 _ (upd_same ..)).1
      have hse : s = s' := hwf2.holds_unique hs.1 hmem (hs.2.1.trans (htk.chainId.1.trans hc0).symm)
      subst hse
      have hkk : key = k := by
        obtain ⟨k', hk', hpk⟩ := (hw0.states _ hm0).publicKey
        rw [hac.key] at hpk
        simp only [Res.ok.injEq] at hpk
        subst hpk
        exact PubKey.bytes_inj (hs.2.2.symm.trans (htk.chainId.2.1.trans hk'))
      subst hkk
      refine ⟨s.messageVersion, ⟨_, s, rfl, hs, rfl, (htk.ordered hrc (hso s0 hm0)).2.1⟩, hac.signed, ?_⟩
      rw [hac.version, GState.version, htk.chainId.2.2.2]
  obtain ⟨ver, hsp, hsig, hver⟩ := hacc
  generalize (c.run E w).2 = w1 at hsp hkeep hord2 ⊢
  -- the state stays spent
  have hfin : GSpent ((gAfter E cs2 w1).records (a, m.distID)) m.chainID key ver m.iteration ∧ GOrdered ((gAfter E cs2 w1).records (a, m.distID)) := by
    clear hg hp hord1 hs
    induction cs2 generalizing w1 with
    | nil => exact ⟨hsp, hord2⟩
    | cons c2 cs2 ih =>
      have h1 := hkeep 1
      simp only [List.take_succ_cons, List.take_zero] at h1
      refine ih (fun c hc => hr2 c (by simp [hc])) _ (hsp.call hord2 c2 (hr2 c2 (by simp)) h1) (fun n => ?_) (hord2.call c2 (hr2 c2 (by simp)))
      have := hkeep (n + 1)
      rw [List.take_succ_cons] at this
      exact this
  obtain ⟨⟨g2, s2, hg2, hs2, hv2, hspent⟩, ho2⟩ := hfin
  have hwf := (ho2 g2 hg2).1
  have hsw := hwf.states s2 hs2.1
  intro w2
  have hfind : g2.stateForChainID m.chainID = some s2 := by rw [← hs2.2.1]; exact hwf.stateForChainID hs2.1
  refine ⟨fun rand sysRand => ?_, fun m' rand sysRand faults hd hcid hit => ?_⟩
  · refine (groupDecrypt_run E.C E.aliased a m { w2 with rand := rand, sysRand := sysRand, faults := [] } rfl g2 s2 key hg2 hfind ?_ ?_ hsig).1 _ (hspent.messageKey hsw)
    · rw [hver, GState.version, hv2]
    · obtain ⟨k', hk', hpk⟩ := hsw.publicKey
      rw [hpk, PubKey.bytes_inj (hk'.symm.trans hs2.2.2)]
  · have ho := groupDecrypt_outcome E.C E.aliased a m' { w2 with rand := rand, sysRand := sysRand, faults := faults }
    generalize groupDecrypt E.C E.aliased a m' _ = x at ho ⊢
    obtain ⟨r, w'⟩ := x
    simp only at ho ⊢
    cases ho with
    | early r fs hr => exact hr
    | stopped r fs hr => exact hr
    | done fs g0 s0 k mk s' q hac hq =>
      exfalso
      have hrec := hac.record
      have hst := hac.state
      simp only [hd] at hrec
      rw [hg2] at hrec
      simp only [Option.some.injEq] at hrec
      subst hrec
      rw [hcid, hfind] at hst
      simp only [Option.some.injEq] at hst
      subst hst
      have htk := hac.gtaken hsw
      rw [hit] at htk
      exact hspent.not_taken htk

/-- The hypotheses are met in the example: Bob processes the distribution message and receives `g3`. -/
example : (∀ c ∈ ([⟨.process alice d1, [], [], []⟩] : List GCall), c.Receives (alice, g3.distID)) ∧
    GCall.Receives (alice, g3.distID) ⟨.decrypt alice g3, [], [], []⟩ ∧
    (GCall.run gCopying ⟨.decrypt alice g3, [], [], []⟩ (gAfter gCopying [⟨.process alice d1, [], [], []⟩] group0)).1 = .plaintext alice g3 [5, 5] ∧
    ∃ g s, (GCall.run gCopying ⟨.decrypt alice g3, [], [], []⟩ (gAfter gCopying [⟨.process alice d1, [], [], []⟩] group0)).2.records (alice, g3.distID) = some g ∧
      g.Holds g3.chainID d1.signingKey s := by
  refine ⟨?_, ?_, ?_, ?_⟩
  · intro c hc _
    rw [List.mem_singleton] at hc
    subst hc
    exact ⟨by simp, by simp⟩
  · intro _
    refine ⟨by simp, fun a m h => ?_⟩
    simp only [GOp.decrypt.injEq] at h
    rw [← h.2]
    decide +kernel
  · exact GCall.run_plaintext (by decide +kernel)
  · exact GRecord.holds_of_any (by decide +kernel)

/-- The bound on the record matters: once distribution messages for five other chains have pushed the chain out, its own
distribution message brings it back at the old position, and the message that was already decrypted is decrypted again.
The full claim without `hkeep` is therefore false. -/
theorem C38_dropped_chain_false :
    ∃ (w : GWorld) (a : Address) (m : SenderKeyMsg) (cs : List GCall) (p : Bytes), GReachable gCopying w ∧
      (∀ c ∈ cs, ∃ d, c = ⟨.process a d, [], [], []⟩) ∧ (groupDecrypt toy false a m w).1 = .ok p ∧
      (groupDecrypt toy false a m (gAfter gCopying cs (groupDecrypt toy false a m w).2)).1 = .ok p := by
  refine ⟨gbob1, alice, g3, [⟨.process alice { d1 with chainID := d1.chainID + 1 }, [], [], []⟩, ⟨.process alice { d1 with chainID := d1.chainID + 2 }, [], [], []⟩, ⟨.process alice { d1 with chainID := d1.chainID + 3 }, [], [], []⟩, ⟨.process alice { d1 with chainID := d1.chainID + 4 }, [], [], []⟩, ⟨.process alice { d1 with chainID := d1.chainID + 5 }, [], [], []⟩, ⟨.process alice d1, [], [], []⟩], [5, 5], gbob1_reachable, ?_, g3_delivered, by decide +kernel⟩
  simp

/-! ## C39 -/

/-- C39: a receiver processes a distribution message at iteration `k` for a chain it does not know. Whatever it then
receives, and whatever store failures occur, no message of that chain with a smaller iteration is decrypted or changes
the store, as long as no other distribution message for this very chain with a smaller iteration is processed. -/
theorem C39_nothing_before_distribution (E : GEnv) (w : GWorld) (hw : GReachable E w) (a : Address) (d : DistributionMsg)
    (hnew : ∀ g, w.records (a, d.distID) = some g → ∀ s ∈ g, s.chainId ≠ d.chainID)
    (hp : (processDistribution E.aliased a d w).1 = .ok ()) (cs : List GCall) (hr : ∀ c ∈ cs, c.Receives (a, d.distID))
    (hd : ∀ c ∈ cs, ∀ d', c.op = .process a d' → d'.distID = d.distID → d'.chainID = d.chainID → d.iteration ≤ d'.iteration)
    (m : SenderKeyMsg) (hm1 : m.distID = d.distID) (hm2 : m.chainID = d.chainID) (hm3 : m.iteration < d.iteration)
    (rand sysRand : Bytes) (faults : List Fault) :
    let w2 := { gAfter E cs (processDistribution E.aliased a d w).2 with rand := rand, sysRand := sysRand, faults := faults }
    (groupDecrypt E.C E.aliased a m w2).1.Bad ∧ (groupDecrypt E.C E.aliased a m w2).2.records = w2.records := by
  have hwf := hw.WF
  have hfrom : GFrom ((processDistribution E.aliased a d w).2.records (a, d.distID)) d.chainID d.iteration.toNat := by
    have ho := processDistribution_outcome E.aliased a d w
    generalize processDistribution E.aliased a d w = x at ho hp ⊢
    obtain ⟨r, w'⟩ := x
    simp only at ho hp ⊢
    subst hp
    cases ho with
    | done fs =>
      refine ⟨_, upd_same .., ?_, fun s hs hc => ?_⟩
      · cases hrec : w.records (a, d.distID) with
        | none => exact GRecord.WF.nil.added (newGroupState_WF ..) rfl
        | some g => exact (hwf _ g hrec).added (newGroupState_WF ..) rfl
      · have hst : GStep E w (.process a d) (w.records (a, d.distID)) _ := .proc
        cases hst.origin (hwf (a, d.distID)) s hs with
        | kept g ho h1 => exact absurd hc (hnew g ho s h1)
        | sent a d pt s rest hop => simp at hop
        | moved a m g s mk hop => simp at hop
        | fresh a' d' hop h1 hn =>
          simp only [GOp.process.injEq] at hop
          rw [← hop.2] at h1
          subst h1
          exact ⟨Nat.le_refl _, by simp [DistributionMsg.state, newGroupState]⟩
        | created a d hop => simp at hop
  obtain ⟨g, hg, hgw, hgf⟩ := hfrom.after (E := E) cs hr (fun c hc a' d' h1 h2 h3 => by
    rw [h1] at h2
    simp only [GOp.key, Prod.mk.injEq] at h2
    obtain ⟨rfl, h2⟩ := h2
    exact UInt32.le_iff_toNat_le.mp (hd c hc d' h1 h2 h3))
  intro w2
  have hno : ∀ g0 s k mk s', ¬ GAccepted E.C w2 a m g0 s k mk s' := by
    intro g0 s k mk s' hac
    have hrec := hac.record
    rw [hm1] at hrec
    have hrec : some g = some g0 := by rw [← hg]; exact hrec
    simp only [Option.some.injEq] at hrec
    subst hrec
    obtain ⟨hs1, hs2⟩ := GRecord.stateForChainID_some hac.state
    exact (hgf s hs1 (hs2.trans hm2)).not_taken (UInt32.lt_iff_toNat_lt.mp hm3) (hac.gtaken (hgw.states s hs1))
  have ho := groupDecrypt_outcome E.C E.aliased a m w2
  generalize groupDecrypt E.C E.aliased a m w2 = x at ho ⊢
  obtain ⟨r, w'⟩ := x
  simp only at ho ⊢
  cases ho with
  | early r fs hr => exact ⟨hr, rfl⟩
  | stopped r fs hr g s k mk s' h => exact absurd h (hno _ _ _ _ _)
  | done fs g s k mk s' p h => exact absurd h (hno _ _ _ _ _)

/-- Alice distributes their key again after two messages; Carol, who gets only that, cannot read `g1`. -/
example : ∃ d, (newSenderKeyDistribution toy alice dist galice3).1 = .ok d ∧ d.iteration = 2 ∧
    (processDistribution false alice d group0).1 = .ok () ∧ g1.distID = d.distID ∧ g1.chainID = d.chainID ∧ g1.iteration < d.iteration ∧
    (groupDecrypt toy false alice g3 (processDistribution false alice d group0).2).1 = .ok [5, 5] := by
  refine ⟨outDist (newSenderKeyDistribution toy alice dist galice3), ?_, ?_, ?_, ?_, ?_, ?_, ?_⟩ <;> decide +kernel

/-! ## C40 -/

/-- C40: every record that any history of group calls leaves in the store holds at most 5 states, with pairwise distinct
chain ids, each with at most 2000 message keys. -/
theorem C40_bounded (E : GEnv) (w : GWorld) (hw : GReachable E w) (k : Address × DistId) (g : GRecord) (hg : w.records k = some g) :
    g.length ≤ 5 ∧ (g.Pairwise fun s t => s.chainId ≠ t.chainId) ∧ ∀ s ∈ g, s.messageKeys.length ≤ 2000 := by
  have h := hw.WF k g hg
  refine ⟨h.size, h.distinct, fun s hs => ?_⟩
  have := (h.states s hs).keys
  unfold maxMessageKeys at this
  exact this

example : ∃ g, gbob2.records (alice, dist) = some g ∧ (g.map fun s => s.messageKeys.length) = [2] := by
  refine ⟨(gbob2.records (alice, dist)).getD [], ?_, ?_⟩ <;> decide +kernel

/-! ## C41 -/

/-- C41: what a successful ProcessSenderKeyDistribution leaves in the record: the states of other chain ids are the
same, except that the oldest is gone if there were five of them; the state for the message's chain id is the
one that was there for the same signing key, position and stored keys included, and otherwise the one the message
describes. No other record changes. -/
theorem C41_distribution (E : GEnv) (w : GWorld) (hw : GReachable E w) (a : Address) (d : DistributionMsg)
    (hp : (processDistribution E.aliased a d w).1 = .ok ()) :
    let old := (w.records (a, d.distID)).getD []
    let others := old.filter fun t => t.chainId ≠ d.chainID
    ∃ s, (processDistribution E.aliased a d w).2.records =
        upd w.records (a, d.distID) (some ((if others.length = 5 then others.drop 1 else others) ++ [s])) ∧
      (∀ t, old.Holds d.chainID d.signingKey t → s = t) ∧
      ((∀ t, ¬ old.Holds d.chainID d.signingKey t) →
        s = newGroupState d.version d.chainID d.iteration d.chainKey d.signingKey none) := by
  have hold : ((w.records (a, d.distID)).getD []).WF := by
    cases hrec : w.records (a, d.distID) with
    | none => exact .nil
    | some g => exact hw.WF _ g hrec
  have ho := processDistribution_outcome E.aliased a d w
  generalize processDistribution E.aliased a d w = x at ho hp ⊢
  obtain ⟨r, w'⟩ := x
  simp only at ho hp ⊢
  subst hp
  cases ho with
  | done fs =>
    refine ⟨(((w.records (a, d.distID)).getD []).find? (GRecord.isState d.state.chainId d.signingKey)).getD d.state, ?_, fun t ht => ?_, fun hn => ?_⟩
    rotate_left
    · rcases hold.added_last d.state d.signingKey rfl with ⟨u, hu, he⟩ | ⟨hn, _⟩
      · refine Eq.trans he (hold.holds_unique hu.1 ht.1 (hu.2.1.trans ht.2.1.symm))
      · exact absurd ht (hn t)
    · rcases hold.added_last d.state d.signingKey rfl with ⟨u, hu, _⟩ | ⟨_, he⟩
      · exact absurd hu (hn u)
      · exact he
    · show upd _ _ (some (GRecord.added _ _ _)) = _
      rw [hold.added_eq]
      congr 3
      have hle : (((w.records (a, d.distID)).getD []).filter fun t => t.chainId ≠ d.state.chainId).length ≤ 5 :=
        Nat.le_trans (List.length_filter_le _ _) hold.size
      have hcid : d.state.chainId = d.chainID := rfl
      rw [hcid] at hle ⊢
      split
      · rename_i h
        unfold lastN
        rw [h]
      · rename_i h
        unfold lastN
        rw [show List.length _ - 4 = 0 by omega, List.drop_zero]

/-- C41, for every outcome: whatever the store does, a chain the receiver knows is never rewound by a distribution
message with the same chain id and signing key. -/
theorem C41_never_rewound (E : GEnv) (w : GWorld) (hw : GReachable E w) (a : Address) (d : DistributionMsg) (g : GRecord)
    (hg : w.records (a, d.distID) = some g) (s : GState) (hs : g.Holds d.chainID d.signingKey s) :
    ∃ g', (processDistribution E.aliased a d w).2.records (a, d.distID) = some g' ∧ s ∈ g' ∧ ∀ t ∈ g', t.chainId = d.chainID → t = s := by
  have hwf := hw.WF _ g hg
  have hadd : s ∈ g.added d.state d.signingKey ∧ ∀ t ∈ g.added d.state d.signingKey, t.chainId = d.chainID → t = s := by
    have hw' : (g.added d.state d.signingKey).WF := hwf.added (newGroupState_WF ..) rfl
    have hm : s ∈ g.added d.state d.signingKey := by
      rw [hwf.added_eq]
      rcases hwf.added_last d.state d.signingKey rfl with ⟨u, hu, he⟩ | ⟨hn, _⟩
      · rw [he, hwf.holds_unique hu.1 hs.1 (hu.2.1.trans hs.2.1.symm)]; simp
      · exact absurd hs (hn s)
    exact ⟨hm, fun t ht hc => hw'.holds_unique ht hm (hc.trans hs.2.1.symm)⟩
  have hkeep : s ∈ g ∧ ∀ t ∈ g, t.chainId = d.chainID → t = s :=
    ⟨hs.1, fun t ht hc => hwf.holds_unique ht hs.1 (hc.trans hs.2.1.symm)⟩
  have ho := processDistribution_outcome E.aliased a d w
  generalize processDistribution E.aliased a d w = x at ho ⊢
  obtain ⟨r, w'⟩ := x
  simp only at ho ⊢
  cases ho with
  | early fs => exact ⟨g, hg, hkeep⟩
  | stopped fs records hrs =>
    rw [hg] at hrs
    rcases hrs with h | ⟨h, _⟩
    · rw [h]
      unfold gmid
      split
      · exact ⟨_, upd_same .., hadd⟩
      · exact ⟨g, hg, hkeep⟩
    · rw [h]; exact ⟨_, upd_same .., hadd⟩
  | done fs =>
    rw [hg]
    exact ⟨_, upd_same .., hadd⟩

/-- Bob, who has received `g3`, processes the distribution message again: nothing is rewound. -/
example : (processDistribution false alice d1 gbob2).1 = .ok () ∧
    (processDistribution false alice d1 gbob2).2.records (alice, dist) = gbob2.records (alice, dist) ∧
    gbob2.records (alice, dist) ≠ gbob1.records (alice, dist) := by decide +kernel

/-! ## C42 -/

/-- C42: a group message more than 25000 iterations ahead of the chain is rejected and nothing changes, for both kinds of
store and any store failures. -/
theorem C42_jump_limit (E : GEnv) (w : GWorld) (hw : GReachable E w) (a : Address) (m : SenderKeyMsg) (g : GRecord) (s : GState)
    (hg : w.records (a, m.distID) = some g) (hs : s ∈ g) (hc : s.chainId = m.chainID)
    (hfar : s.chainKey.iteration.toNat + 25000 < m.iteration.toNat) :
    (groupDecrypt E.C E.aliased a m w).1.Bad ∧ (groupDecrypt E.C E.aliased a m w).2.records = w.records := by
  have hwf := hw.WF _ g hg
  have hno : ∀ g0 s k mk s', ¬ GAccepted E.C w a m g0 s k mk s' := by
    intro g0 s0 k mk s' hac
    have hrec := hac.record
    rw [hg] at hrec
    simp only [Option.some.injEq] at hrec
    subst hrec
    obtain ⟨h1, h2⟩ := GRecord.stateForChainID_some hac.state
    have := hwf.holds_unique hs h1 (hc.trans h2.symm)
    subst this
    cases hac.gtaken (hwf.states s hs) with
    | stored hlt => omega
    | ahead d hd hj => omega
  have ho := groupDecrypt_outcome E.C E.aliased a m w
  generalize groupDecrypt E.C E.aliased a m w = x at ho ⊢
  obtain ⟨r, w'⟩ := x
  simp only at ho ⊢
  cases ho with
  | early r fs hr => exact ⟨hr, rfl⟩
  | stopped r fs hr g s k mk s' h => exact absurd h (hno _ _ _ _ _)
  | done fs g s k mk s' p h => exact absurd h (hno _ _ _ _ _)

/-- C42, the boundary: an authentic message that is at most 25000 ahead gets a message key, and when its ciphertext
decrypts under that key, DecryptMessage returns the plaintext (for a store that does not fail). -/
theorem C42_boundary (E : GEnv) (w : GWorld) (hw : GReachable E w) (hf : w.faults = []) (a : Address) (m : SenderKeyMsg) (g : GRecord)
    (s : GState) (key : PubKey) (hg : w.records (a, m.distID) = some g) (hs : g.Holds m.chainID key s)
    (hv : m.version.toUInt32 = s.version) (hsig : m.verifySignature E.C key = .ok true)
    (hfar : s.chainKey.iteration.toNat ≤ m.iteration.toNat ∧ m.iteration.toNat ≤ s.chainKey.iteration.toNat + 25000) :
    ∃ mk s', groupMessageKey E.C s m.iteration = .ok (mk, s') ∧
      ∀ p, cbcDecrypt E.C mk.cipherKey mk.iv m.ciphertext = .ok p → (groupDecrypt E.C E.aliased a m w).1 = .ok p := by
  have hwf := hw.WF _ g hg
  have hsw := hwf.states s hs.1
  have hkey : s.publicSigningKey = .ok key := by
    obtain ⟨k', hk', hpk⟩ := hsw.publicKey
    rw [hpk, PubKey.bytes_inj (hk'.symm.trans hs.2.2)]
  have hfind : g.stateForChainID m.chainID = some s := by rw [← hs.2.1]; exact hwf.stateForChainID hs.1
  have hmk := groupMessageKey_cases E.C s hsw.keys m.iteration
  have hrun := groupDecrypt_run E.C E.aliased a m w hf g s key hg hfind hv hkey hsig
  generalize groupMessageKey E.C s m.iteration = x at hmk hrun ⊢
  cases hmk with
  | taken mk s' ht => exact ⟨mk, s', rfl, fun p hp => by rw [hrun.2 mk s' p rfl hp]⟩
  | duplicate hlt => omega
  | far h => omega

/-- Bob is at iteration 0: 25001 is too far, 25000 is not. -/
example : ∃ g s, gbob1.records (alice, dist) = some g ∧ s ∈ g ∧ s.chainId = g1.chainID ∧ g1.distID = dist ∧
    s.chainKey.iteration.toNat + 25000 < ({ g1 with iteration := 25001 } : SenderKeyMsg).iteration.toNat := by
  have h : ((gbob1.records (alice, dist)).getD []).any (fun s => s.chainId == g1.chainID && s.chainKey.iteration == 0) = true := by
    decide +kernel
  have hd : g1.distID = dist := by decide +kernel
  cases hr : gbob1.records (alice, dist) with
  | none => rw [hr] at h; simp at h
  | some g =>
    rw [hr] at h
    simp only [Option.getD_some, List.any_eq_true, Bool.and_eq_true, beq_iff_eq] at h
    obtain ⟨s, hs, h1, h2⟩ := h
    exact ⟨g, s, rfl, hs, h1, hd, by rw [h2]; decide⟩

/-! ## C43 -/

/-- C43: if the group DecryptMessage returns a plaintext, or the stored records change, then the message's signature
verifies under the signing key that is registered for its chain id. For both kinds of store and any store failures. -/
theorem C43_authenticated (E : GEnv) (w : GWorld) (a : Address) (m : SenderKeyMsg)
    (h : (∃ p, (groupDecrypt E.C E.aliased a m w).1 = .ok p) ∨ (groupDecrypt E.C E.aliased a m w).2.records ≠ w.records) :
    ∃ g s key, w.records (a, m.distID) = some g ∧ s ∈ g ∧ s.chainId = m.chainID ∧ newPublicKey s.signingPublic = .ok key ∧
      m.verifySignature E.C key = .ok true := by
  have hacc : ∀ g s k mk s', GAccepted E.C w a m g s k mk s' → ∃ g s key, w.records (a, m.distID) = some g ∧ s ∈ g ∧
      s.chainId = m.chainID ∧ newPublicKey s.signingPublic = .ok key ∧ m.verifySignature E.C key = .ok true := by
    intro g s k mk s' hac
    obtain ⟨h1, h2⟩ := GRecord.stateForChainID_some hac.state
    exact ⟨g, s, k, hac.record, h1, h2, hac.key, hac.signed⟩
  have ho := groupDecrypt_outcome E.C E.aliased a m w
  generalize groupDecrypt E.C E.aliased a m w = x at ho h
  obtain ⟨r, w'⟩ := x
  simp only at ho h
  cases ho with
  | early r fs hr =>
    rcases h with ⟨p, hp⟩ | h
    · subst hp; simp at hr
    · exact absurd rfl h
  | stopped r fs hr g s k mk s' hac => exact hacc _ _ _ _ _ hac
  | done fs g s k mk s' p hac => exact hacc _ _ _ _ _ hac

example : (groupDecrypt gCopying.C gCopying.aliased alice g3 gbob1).1 = .ok [5, 5] := g3_delivered

/-- and a forged message is rejected with nothing changed -/
example : (groupDecrypt toy false alice { g3 with serialized := g3.serialized.map (· + 1) } gbob1).1 = .err .badSignature := by decide +kernel

/-! ## C19 -/

/-- C19 for groups: a message whose version differs from that of the state with its chain id is refused, and no record changes, for both
kinds of store and any store failures. -/
theorem C19_group_other_version_is_rejected (E : GEnv) (w : GWorld) (a : Address) (m : SenderKeyMsg)
    (h : ∀ g s, w.records (a, m.distID) = some g → s ∈ g → s.chainId = m.chainID → s.version ≠ m.version.toUInt32) :
    (groupDecrypt E.C E.aliased a m w).1.Bad ∧ (groupDecrypt E.C E.aliased a m w).2.records = w.records := by
  have hacc : ∀ g s k mk s', ¬ GAccepted E.C w a m g s k mk s' := by
    intro g s k mk s' hac
    obtain ⟨h1, h2⟩ := GRecord.stateForChainID_some hac.state
    exact h g s hac.record h1 h2 hac.version.symm
  have ho := groupDecrypt_outcome E.C E.aliased a m w
  generalize groupDecrypt E.C E.aliased a m w = x at ho ⊢
  obtain ⟨r, w'⟩ := x
  simp only at ho ⊢
  cases ho with
  | early r fs hr => exact ⟨hr, rfl⟩
  | stopped r fs hr g s k mk s' hac => exact absurd hac (hacc _ _ _ _ _)
  | done fs g s k mk s' p hac => exact absurd hac (hacc _ _ _ _ _)

/-- a message of version 4 for the chain that Bob has -/
example : (groupDecrypt toy false alice { g3 with version := 4 } gbob1).1 = .err .unsupportedVersion := by decide +kernel

/-! ## C44 -/

/-- C44: in any history that starts with an empty store, with any store failures, the messages that EncryptMessage
returns for one sender and distribution id have pairwise different iterations. The bound says that the chain
cannot have passed the last 32-bit iteration: an encryption moves it by one, and a decrypted message under the user's own sender
address by up to 25001. -/
theorem C44_iterations_distinct (E : GEnv) (w0 : GWorld) (h0 : w0.Empty) (cs : List GCall) (a : Address) (d : DistId)
    (hlen : (cs.map (GCall.reach (a, d))).sum < 2 ^ 32) :
    (sentIterations (a, d) (runGCalls E cs w0).1).Pairwise (· ≠ ·) := by
  have := sentIterations_nodup (E := E) (k := (a, d)) cs (w := w0) (log := []) (N := 0)
    ⟨fun _ => rfl, fun g hg => by rw [h0] at hg; simp at hg⟩ .nil (by omega)
  simpa using this

/-- C44: the advance is stored before the message is returned: the record from which the message was taken was at the
message's iteration, and the stored one is at the next. -/
theorem C44_advance_persisted (E : GEnv) (w : GWorld) (a : Address) (d : DistId) (pt : Bytes) (m : SenderKeyMsg)
    (hm : (groupEncrypt E.C E.aliased a d pt w).1 = .ok m) :
    ∃ s s' rest, w.records (a, d) = some (s :: rest) ∧ (groupEncrypt E.C E.aliased a d pt w).2.records (a, d) = some (s' :: rest) ∧
      m.chainID = s.chainId ∧ m.iteration = s.chainKey.iteration ∧ s'.chainKey.iteration = m.iteration + 1 ∧
      s'.chainId = s.chainId ∧ s'.messageKeys = s.messageKeys := by
  have ho := groupEncrypt_outcome E.C E.aliased a d pt w
  generalize groupEncrypt E.C E.aliased a d pt w = x at ho hm ⊢
  obtain ⟨r, w'⟩ := x
  simp only at ho hm ⊢
  subst hm
  cases ho with
  | early r fs rd hr => simp at hr
  | stopped r fs hr => simp at hr
  | done fs s rest sk m rd hb =>
    obtain ⟨ct, hct, hm⟩ := hb.built
    have hi := newSenderKey_iteration hm
    have hc := newSenderKey_chainID hm
    exact ⟨s, _, rest, hb.record, upd_same .., hc, hi, by rw [hi]; rfl, rfl, rfl⟩

/-- Three messages in a row, with a failing store in between: the second call reports a failure although the
record was written, and its iteration is not used again. -/
example : (sentIterations (alice, dist) (runGCalls gCopying
    [⟨.distribute alice dist, randomness 1, randomness 9, []⟩, ⟨.encrypt alice dist [1], randomness 2, [], []⟩,
     ⟨.encrypt alice dist [2], randomness 3, [], [.none, .after]⟩, ⟨.encrypt alice dist [3], randomness 4, [], []⟩] group0).1) = [0, 2] := by
  decide +kernel

/-! ## C45 -/

/-- A correctly signed message whose ciphertext is not a whole number of blocks. -/
def Ex.gbad : SenderKeyMsg :=
  match ((galice3.records (alice, dist)).getD []) with
  | s :: _ =>
    match s.privateSigningKey with
    | .ok sk => outGroup ((newSenderKey toy 3 dist s.chainId s.chainKey.iteration [1, 2, 3] sk (randomness 4)).1, group0)
    | _ => g1
  | [] => g1

/-- C45 does not hold for the library's own in-memory store: a signed message that cannot be decrypted uses up its
message key and moves the stored chain on. -/
theorem C45_failed_decrypt_keeps_record_false :
    ∃ (E : GEnv) (w : GWorld) (a : Address) (m : SenderKeyMsg) (e : Err), E.aliased = true ∧ GReachable E w ∧ w.faults = [] ∧
      (groupDecrypt E.C E.aliased a m w).1 = .err e ∧
      (groupDecrypt E.C E.aliased a m w).2.records (a, m.distID) ≠ w.records (a, m.distID) :=
  ⟨gSharing, (processDistribution true alice d1 group0).2, alice, gbad, .badCiphertextLength, rfl,
    ⟨group0, [⟨.process alice d1, group0.rand, group0.sysRand, []⟩], _, _, _, group0_empty, rfl⟩,
    by decide +kernel, by decide +kernel, by decide +kernel⟩

/-- C45, for stores that return copies and whose failed calls have no effect. Missing from the full claim: the in-memory
store, for which it is false. -/
theorem C45_failed_decrypt_keeps_record_partial (E : GEnv) (hE : E.aliased = false) (w : GWorld) (hw : Fault.after ∉ w.faults)
    (a : Address) (m : SenderKeyMsg) (h : (groupDecrypt E.C E.aliased a m w).1.Bad) :
    (groupDecrypt E.C E.aliased a m w).2.records = w.records := by
  have ho := groupDecrypt_outcome E.C E.aliased a m w
  generalize groupDecrypt E.C E.aliased a m w = x at ho h ⊢
  obtain ⟨r, w'⟩ := x
  simp only at ho h ⊢
  cases ho with
  | early r fs hr => rfl
  | stopped r fs hr g s k mk s' hac records hs =>
    rcases hs with hs | ⟨_, hs⟩
    · rw [hs, gmid, hE]; rfl
    · exact absurd hs hw
  | done fs g s k mk s' p hac hp => simp at h

/-- C45, for both kinds of store and any failure: only an authentic message can leave a change behind when DecryptMessage
fails, and the change is that its iteration has been used up. -/
theorem C45_only_authentic_partial (E : GEnv) (w : GWorld) (a : Address) (m : SenderKeyMsg)
    (h : (groupDecrypt E.C E.aliased a m w).2.records ≠ w.records) :
    ∃ g s key mk s', w.records (a, m.distID) = some g ∧ s ∈ g ∧ s.chainId = m.chainID ∧ newPublicKey s.signingPublic = .ok key ∧
      m.verifySignature E.C key = .ok true ∧ groupMessageKey E.C s m.iteration = .ok (mk, s') ∧
      (groupDecrypt E.C E.aliased a m w).2.records = upd w.records (a, m.distID) (some (g.setStateForChainID m.chainID s')) := by
  have ho := groupDecrypt_outcome E.C E.aliased a m w
  generalize groupDecrypt E.C E.aliased a m w = x at ho h ⊢
  obtain ⟨r, w'⟩ := x
  simp only at ho h ⊢
  have hx : ∀ {g s k mk s'}, GAccepted E.C w a m g s k mk s' → s ∈ g ∧ s.chainId = m.chainID := fun hac =>
    GRecord.stateForChainID_some hac.state
  cases ho with
  | early r fs hr => exact absurd rfl h
  | stopped r fs hr g s k mk s' hac records hs =>
    refine ⟨g, s, k, mk, s', hac.record, (hx hac).1, (hx hac).2, hac.key, hac.signed, hac.taken, ?_⟩
    rcases hs with hs | ⟨hs, _⟩
    · rw [hs, gmid] at h ⊢
      split
      · rfl
      · rename_i hn; simp [hn] at h
    · exact hs
  | done fs g s k mk s' p hac hp =>
    exact ⟨g, s, k, mk, s', hac.record, (hx hac).1, (hx hac).2, hac.key, hac.signed, hac.taken, rfl⟩

example : (groupDecrypt gCopying.C false alice gbad gbob1).1 = .err .badCiphertextLength ∧ Fault.after ∉ gbob1.faults := by decide +kernel

/-! ## C46 -/

/-- C46: if a record exists, NewSenderKeyDistribution leaves the store unchanged, whatever its result, and a returned
message describes the current position of the record's first state. -/
theorem C46_existing_key (E : GEnv) (w : GWorld) (a : Address) (d : DistId) (g : GRecord) (hg : w.records (a, d) = some g) :
    (newSenderKeyDistribution E.C a d w).2.records = w.records ∧
    ∀ msg, (newSenderKeyDistribution E.C a d w).1 = .ok msg → ∃ s rest, g = s :: rest ∧ msg.distID = d ∧ msg.chainID = s.chainId ∧
      msg.iteration = s.chainKey.iteration ∧ msg.chainKey = s.chainKey.seed ∧ newPublicKey s.signingPublic = .ok msg.signingKey := by
  have ho := newSenderKeyDistribution_outcome E.C a d w
  generalize newSenderKeyDistribution E.C a d w = x at ho ⊢
  obtain ⟨r, w'⟩ := x
  simp only at ho ⊢
  cases ho with
  | early r fs rd srd hr => exact ⟨rfl, fun msg h => by subst h; simp at hr⟩
  | stopped fs rd srd g' h hn => rw [hg] at hn; simp at hn
  | existing fs s rest k h hk =>
    refine ⟨rfl, fun msg hm => ?_⟩
    rw [hg] at h
    simp only [Option.some.injEq] at h
    simp only [Res.ok.injEq] at hm
    subst h hm
    exact ⟨s, rest, rfl, rfl, rfl, rfl, rfl, hk⟩
  | created fs rd srd s k h hn => rw [hg] at hn; simp at hn

/-- C46: in every reachable store with a record for this sender and distribution id, and no store failure,
NewSenderKeyDistribution does return a message. -/
theorem C46_existing_key_succeeds (E : GEnv) (w : GWorld) (hw : GReachable E w) (hf : w.faults = []) (a : Address) (d : DistId) (g : GRecord)
    (hg : w.records (a, d) = some g) (hne : g ≠ []) : ∃ msg, (newSenderKeyDistribution E.C a d w).1 = .ok msg := by
  cases g with
  | nil => exact absurd rfl hne
  | cons s rest =>
    obtain ⟨k, _, hk⟩ := ((hw.WF _ _ hg).states s (by simp)).publicKey
    have hload : gLoad (a, d) w = (.ok (some (s :: rest)), w) := by
      simp only [gLoad]; rw [gStoreCall_none _ hf, hg]
    refine ⟨s.distribution d k, ?_⟩
    unfold newSenderKeyDistribution
    rw [M.bind_ok_run hload]
    simp only
    rw [M.bind_ok_run (M.pure_run _ _)]
    rw [M.bind_ok_run (show M.lift _ _ = (.ok s, _) by rw [M.lift_run]; rfl)]
    rw [M.bind_ok_run (show M.lift _ _ = (.ok k, _) by rw [M.lift_run, hk])]
    rfl

/-- C46: if there is no record, the only change NewSenderKeyDistribution can make is to store a record with one new
state: at iteration 0, with no stored message keys, a chain id of at most 31 bits, and a matching signing key pair.
A returned message describes that state. -/
theorem C46_new_key (E : GEnv) (w : GWorld) (a : Address) (d : DistId) (hn : w.records (a, d) = none) :
    (newSenderKeyDistribution E.C a d w).2.records = w.records ∧ (newSenderKeyDistribution E.C a d w).1.Bad ∨
    ∃ (cid : UInt32) (seed : Bytes) (k : KeyPair), cid.toNat < 2 ^ 31 ∧ seed.length = 32 ∧ k.pub = k.priv.pub E.C ∧
      (newSenderKeyDistribution E.C a d w).2.records = upd w.records (a, d) (some [newGroupState 3 cid 0 seed k.pub (some k.priv)]) ∧
      ∀ msg, (newSenderKeyDistribution E.C a d w).1 = .ok msg →
        msg.distID = d ∧ msg.chainID = cid ∧ msg.iteration = 0 ∧ msg.chainKey = seed ∧ msg.signingKey = k.pub := by
  have ho := newSenderKeyDistribution_outcome E.C a d w
  generalize newSenderKeyDistribution E.C a d w = x at ho ⊢
  obtain ⟨r, w'⟩ := x
  simp only at ho ⊢
  cases ho with
  | early r fs rd srd hr => exact .inl ⟨rfl, hr⟩
  | stopped fs rd srd g h _ _ =>
    obtain ⟨cid, seed, k, h1, h2, h3, _, rfl⟩ := h.shape
    exact .inr ⟨cid, seed, k, h1, h2, h3, rfl, by simp⟩
  | existing fs s rest k h hk => rw [hn] at h; simp at h
  | created fs rd srd s k' h _ hk =>
    obtain ⟨cid, seed, k, h1, h2, h3, _, he⟩ := h.shape
    simp only [List.cons.injEq, and_true] at he
    subst he
    refine .inr ⟨cid, seed, k, h1, h2, h3, rfl, fun msg hm => ?_⟩
    simp only [Res.ok.injEq] at hm
    subst hm
    rw [newGroupState_publicKey] at hk
    simp only [Res.ok.injEq] at hk
    exact ⟨rfl, rfl, rfl, rfl, hk.symm⟩

example : group0.records (alice, dist) = none ∧ (newSenderKeyDistribution toy alice dist group0).1 = .ok d1 ∧ d1.iteration = 0 ∧
    (newSenderKeyDistribution toy alice dist galice3).1 ≠ .ok d1 := by decide +kernel

end Verif
