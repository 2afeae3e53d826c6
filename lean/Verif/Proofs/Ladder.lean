import Verif.Proofs.Chains
import Verif.Spec.Duo

/-!
The ladder of ratchet keys of a conversation, and what a party's session state knows of it.
-/

namespace Verif

attribute [local irreducible] maxMessageKeys

/-- One ratchet key pair with the root key and the message chain that start with it, and the number of the last message of the
sender's chain before. -/
structure Rung where
  kp : KeyPair
  root : RootKey
  ck : ChainKey
  prev : UInt32

/-- The number of the last of `n` messages. -/
def lastNumber (n : Nat) : UInt32 := if UInt32.ofNat n > 0 then UInt32.ofNat n - 1 else 0

/-- The first `t + 1` rungs: every rung follows from the one before. -/
structure Ladder (C : Crypto) (L : Nat → Rung) (t : Nat) : Prop where
  matched : ∀ i, i ≤ t → (L i).kp.Matched C
  step : ∀ i, i < t → (L i).root.createChain C (L (i + 1)).kp.priv (L i).kp.pub = .ok ((L (i + 1)).root, (L (i + 1)).ck)
  root : ∀ i, i ≤ t → (L i).root.key.length = 32
  chain : ∀ i, i ≤ t → (L i).ck.key.length = 32 ∧ (L i).ck.index = 0
  distinct : ∀ i j, i ≤ t → j ≤ t → (L i).kp.pub = (L j).kp.pub → i = j

/-- Both sides compute the same step. -/
theorem createChain_comm (C : Crypto) (r : RootKey) {a b : KeyPair} (ha : a.Matched C) (hb : b.Matched C) :
    ∃ o, r.createChain C a.priv b.pub = .ok o ∧ r.createChain C b.priv a.pub = .ok o := by
  obtain ⟨s, h1, h2, _⟩ := agreement_honest C a.priv b.priv
  rw [createChain_eq, createChain_eq, ha, hb, h1, h2]
  exact ⟨_, rfl, rfl⟩

theorem Ladder.step' {C : Crypto} {L : Nat → Rung} {t : Nat} (h : Ladder C L t) {i : Nat} (hi : i < t) :
    (L i).root.createChain C (L i).kp.priv (L (i + 1)).kp.pub = .ok ((L (i + 1)).root, (L (i + 1)).ck) := by
  obtain ⟨o, h1, h2⟩ := createChain_comm C (L i).root (h.matched i (by omega)) (h.matched (i + 1) (by omega))
  rw [h1, ← h2, h.step i hi]

/-- A new rung on top. -/
theorem Ladder.extend {C : Crypto} {L : Nat → Rung} {t : Nat} (h : Ladder C L t) {r : Rung} (hm : r.kp.Matched C)
    (hs : (L t).root.createChain C r.kp.priv (L t).kp.pub = .ok (r.root, r.ck))
    (hd : ∀ i, i ≤ t → (L i).kp.pub ≠ r.kp.pub) : Ladder C (upd L (t + 1) r) (t + 1) := by
  obtain ⟨l1, l2, l3⟩ := RootKey.createChain_ok hs
  have old : ∀ i, i ≤ t → upd L (t + 1) r i = L i := fun i hi => upd_ne _ _ (by omega)
  refine ⟨?_, ?_, ?_, ?_, ?_⟩
  · intro i hi
    by_cases he : i = t + 1
    · subst he; rw [upd_same]; exact hm
    · rw [old i (by omega)]; exact h.matched i (by omega)
  · intro i hi
    by_cases he : i = t
    · subst he; rw [upd_same, old i (by omega)]; exact hs
    · rw [old i (by omega), old (i + 1) (by omega)]; exact h.step i (by omega)
  · intro i hi
    by_cases he : i = t + 1
    · subst he; rw [upd_same]; exact l1
    · rw [old i (by omega)]; exact h.root i (by omega)
  · intro i hi
    by_cases he : i = t + 1
    · subst he; rw [upd_same]; exact ⟨l2, l3⟩
    · rw [old i (by omega)]; exact h.chain i (by omega)
  · intro i j hi hj hij
    by_cases he : i = t + 1
    · subst he
      by_cases hf : j = t + 1
      · exact hf.symm
      · rw [upd_same, old j (by omega)] at hij
        exact absurd hij.symm (hd j (by omega))
    · by_cases hf : j = t + 1
      · subst hf
        rw [upd_same, old i (by omega)] at hij
        exact absurd hij (hd i (by omega))
      · rw [old i (by omega), old j (by omega)] at hij
        exact h.distinct i j (by omega) (by omega) hij

/-- The other side's rungs below rung `x`, oldest first. -/
def peers (L : Nat → Rung) : Nat → List Rung
  | 0 => []
  | 1 => [L 0]
  | x + 2 => peers L x ++ [L (x + 1)]

theorem peers_congr {L L' : Nat → Rung} : ∀ x, (∀ i, i < x → L' i = L i) → peers L' x = peers L x
  | 0, _ => rfl
  | 1, h => by simp [peers, h 0 (by omega)]
  | x + 2, h => by
    rw [peers, peers, peers_congr x (fun i hi => h i (by omega)), h (x + 1) (by omega)]

theorem peers_mem {L : Nat → Rung} : ∀ {x : Nat} {r : Rung}, r ∈ peers L x → ∃ e, e < x ∧ r = L e
  | 0, r, h => by simp [peers] at h
  | 1, r, h => by
    simp only [peers, List.mem_singleton] at h
    exact ⟨0, by omega, h⟩
  | x + 2, r, h => by
    rw [peers, List.mem_append, List.mem_singleton] at h
    rcases h with h | h
    · obtain ⟨e, he, hr⟩ := peers_mem h
      exact ⟨e, by omega, hr⟩
    · exact ⟨x + 1, by omega, h⟩

theorem mem_peers {L : Nat → Rung} : ∀ {x e : Nat}, e < x → (x - e) % 2 = 1 → L e ∈ peers L x
  | 0, e, h, _ => by omega
  | 1, e, h, _ => by
    have : e = 0 := by omega
    subst this; simp [peers]
  | x + 2, e, h, hp => by
    rw [peers, List.mem_append, List.mem_singleton]
    by_cases he : e = x + 1
    · subst he; exact .inr rfl
    · exact .inl (mem_peers (x := x) (by omega) (by omega))

/-- What a receiving chain holds after messages with these positions have been accepted. -/
structure Holds (C : Crypto) (ck : ChainKey) (got : List (PubKey × UInt32)) (k : PubKey) (c : PBChain) : Prop where
  key : c.chainKey = some (chainIter C ck (newestUnder got k)).toPB
  stored : ∀ p ∈ c.messageKeys, p = ((chainIter C ck p.index.toNat).messageKeys C).toPB
  kept : ∀ n : UInt32, n.toNat < newestUnder got k → (k, n) ∉ got → newestUnder got k ≤ n.toNat + 2000 → ∃ p ∈ c.messageKeys, p.index = n
  full : InOrder got k → c.messageKeys = lastN maxMessageKeys (skipped C ck (newestUnder got k))

/-- What a party knows of the ladder: it stands on rung `x`, has sent `n` messages there, and has accepted messages with
these positions. -/
structure View (C : Crypto) (L : Nat → Rung) (x : Nat) (lk rk : PubKey) (got : List (PubKey × UInt32)) (n : Nat) (s : SState) : Prop where
  wf : s.WF
  loc : s.localIdentityPublic = lk.bytes
  rem : s.remoteIdentityPublic = rk.bytes
  root : s.rootKey = (L x).root.key
  prev : s.previousCounter = (L x).prev
  sender : ∃ c, s.senderChain = some c ∧ c.senderRatchetKey = (L x).kp.pub.bytes ∧ c.senderRatchetKeyPrivate = (L x).kp.priv.bytes ∧
    c.chainKey = some (chainIter C (L x).ck n).toPB
  chains : s.receiverChains.map (·.senderRatchetKey) = lastN 5 ((peers L x).map fun r => r.kp.pub.bytes)
  each : ∀ c ∈ s.receiverChains, ∀ e, e < x → c.senderRatchetKey = (L e).kp.pub.bytes → Holds C (L e).ck got (L e).kp.pub c

/-! ## Accepted positions -/

theorem newestUnder_append (got : List (PubKey × UInt32)) (k : PubKey) (p : PubKey × UInt32) :
    newestUnder (got ++ [p]) k = if p.1 = k then max (newestUnder got k) p.2.toNat else newestUnder got k := by
  simp only [newestUnder, List.foldl_append, List.foldl_cons, List.foldl_nil]

theorem InOrder.init {got : List (PubKey × UInt32)} {k : PubKey} {p : PubKey × UInt32} (h : InOrder (got ++ [p]) k) : InOrder got k := by
  intro pre post n he
  exact h pre (post ++ [p]) n (by rw [he]; simp)

theorem InOrder.last {got : List (PubKey × UInt32)} {k : PubKey} {n : UInt32} (h : InOrder (got ++ [(k, n)]) k) : newestUnder got k ≤ n.toNat :=
  h got [] n rfl

theorem InOrder.append {got : List (PubKey × UInt32)} {k : PubKey} {n : UInt32} (h : InOrder got k) (hn : newestUnder got k ≤ n.toNat) :
    InOrder (got ++ [(k, n)]) k := by
  intro pre post j he
  rcases List.eq_nil_or_concat post with rfl | ⟨post', q, rfl⟩
  · have := List.append_inj' he rfl
    obtain ⟨rfl, h2⟩ := this
    simp only [List.cons.injEq, Prod.mk.injEq, true_and, and_true] at h2
    rw [← h2]; exact hn
  · rw [List.concat_eq_append, ← List.cons_append, ← List.append_assoc] at he
    exact h pre post' j (List.append_inj' he rfl).1

theorem skipped_add (C : Crypto) (ck : ChainKey) (a b : Nat) : skipped C ck (a + b) = skipped C ck a ++ skipped C (chainIter C ck a) b := by
  simp only [skipped, List.range_add, List.map_append, List.map_map]
  congr 1
  apply List.map_congr_left
  intro j _
  simp only [Function.comp_apply, chainIter_add]

theorem newestUnder_none {got : List (PubKey × UInt32)} {k : PubKey} (h : ∀ p ∈ got, p.1 ≠ k) : newestUnder got k = 0 := by
  unfold newestUnder
  generalize 0 = z
  induction got generalizing z with
  | nil => rfl
  | cons p got ih =>
    rw [List.foldl_cons, if_neg (h p (by simp))]
    exact ih (fun q hq => h q (by simp [hq])) z

theorem newestUnder_ge_start (got : List (PubKey × UInt32)) (k : PubKey) (z : Nat) :
    z ≤ got.foldl (fun m p => if p.1 = k then max m p.2.toNat else m) z := by
  induction got generalizing z with
  | nil => exact Nat.le_refl _
  | cons p got ih =>
    rw [List.foldl_cons]
    refine Nat.le_trans ?_ (ih _)
    split
    · exact Nat.le_max_left _ _
    · exact Nat.le_refl _

theorem newestUnder_lt (got : List (PubKey × UInt32)) (k : PubKey) : newestUnder got k < 4294967296 := by
  unfold newestUnder
  have : (0 : Nat) < 4294967296 := by omega
  revert this
  generalize 0 = z
  induction got generalizing z with
  | nil => exact id
  | cons p got ih =>
    intro hz
    rw [List.foldl_cons]
    refine ih _ ?_
    have := p.2.toNat_lt
    split
    · omega
    · exact hz

theorem sorted_length {l : List PBMessageKey} (h : l.Pairwise fun a b => a.index < b.index) {lo hi : Nat}
    (h1 : ∀ p ∈ l, lo < p.index.toNat) (h2 : ∀ p ∈ l, p.index.toNat < hi) : l.length ≤ hi - lo - 1 := by
  induction l generalizing lo with
  | nil => simp
  | cons a l ih =>
    rw [List.pairwise_cons] at h
    have := ih h.2 (lo := a.index.toNat) (fun p hp => by have := h.1 p hp; rwa [UInt32.lt_iff_toNat_lt] at this) (fun p hp => h2 p (by simp [hp]))
    have ha := h1 a (by simp)
    have hb := h2 a (by simp)
    rw [List.length_cons]
    omega

/-- The last `m` of a sorted list contain everything at most `m` below the bound. -/
theorem lastN_keeps {l : List PBMessageKey} {p : PBMessageKey} {m N : Nat} (hp : p ∈ l) (h : l.Pairwise fun a b => a.index < b.index)
    (hb : ∀ q ∈ l, q.index.toNat < N) (hN : N ≤ p.index.toNat + m) : p ∈ lastN m l := by
  induction l with
  | nil => simp at hp
  | cons a l ih =>
    rw [List.pairwise_cons] at h
    rw [List.mem_cons] at hp
    rcases hp with rfl | hp
    · have h1 := sorted_length h.2 (lo := p.index.toNat) (fun q hq => by have := h.1 q hq; rwa [UInt32.lt_iff_toNat_lt] at this) (fun q hq => hb q (by simp [hq]))
      have := hb p (by simp)
      rw [lastN_of_le (by rw [List.length_cons]; omega)]
      simp
    · have h1 := ih hp h.2 (fun q hq => hb q (by simp [hq]))
      by_cases hl : (a :: l).length ≤ m
      · rw [lastN_of_le hl]; simp [hp]
      · rw [List.length_cons] at hl
        have : lastN m (a :: l) = lastN m l := by
          unfold lastN
          rw [List.length_cons, show l.length + 1 - m = l.length - m + 1 by omega, List.drop_succ_cons]
        rw [this]; exact h1

/-- What a new acceptance does to the chain it is on, when that chain takes the message key. -/
theorem Holds.take {C : Crypto} {ck ck1 : ChainKey} (hi : ck.index = 0) {got : List (PubKey × UInt32)} {k : PubKey} {c c' : PBChain} {n : UInt32} {mk : MessageKeys}
    (h : Holds C ck got k c) (hw : c.WF) (hk : c.chainKey = some ck1.toPB) (ht : ChainTaken C c ck1 n mk c') :
    mk = (chainIter C ck n.toNat).messageKeys C ∧ Holds C ck (got ++ [(k, n)]) k c' := by
  have hck1 : ck1 = chainIter C ck (newestUnder got k) := by
    have := h.key
    rw [hk] at this
    simp only [ChainKey.toPB, Option.some.injEq, PBChainKey.mk.injEq] at this
    cases ck1
    cases hx : chainIter C ck (newestUnder got k)
    rw [hx] at this
    simp_all
  subst hck1
  have hnl := newestUnder_lt got k
  have hidx : ∀ j, j < 4294967296 → (chainIter C ck j).index.toNat = j := by
    intro j hj
    rw [chainIter_toNat C ck j (by rw [hi]; simpa using hj), hi]
    simp
  have hnn := n.toNat_lt
  cases ht with
  | stored hlt _ hn hmk =>
    rw [hidx _ hnl] at hlt
    refine ⟨?_, ?_, ?_, ?_, ?_⟩
    · have := h.stored _ hmk
      simp only [MessageKeys.toPB, PBMessageKey.mk.injEq] at this
      rw [hn] at this
      have e : mk = ⟨mk.cipherKey, mk.macKey, mk.iv, mk.counter⟩ := rfl
      rw [e, this.2.1, this.2.2.1, this.2.2.2, hn]
      have : (chainIter C ck n.toNat).index = n := UInt32.toNat_inj.mp (hidx _ hnn)
      simp only [ChainKey.messageKeys, deriveMessageKeys, this]
    · show c.chainKey = _
      rw [h.key, newestUnder_append, if_pos rfl, Nat.max_eq_left (by simp only; omega)]
    · intro p hp
      simp only [PBChain.withKeys, List.mem_filter] at hp
      exact h.stored p hp.1
    · intro j hj hg hr
      rw [newestUnder_append, if_pos rfl, Nat.max_eq_left (by simp only; omega)] at hj hr
      simp only [List.mem_append, List.mem_singleton, Prod.mk.injEq, true_and, not_or] at hg
      obtain ⟨p, hp, hpj⟩ := h.kept j hj hg.1 hr
      refine ⟨p, ?_, hpj⟩
      simp only [PBChain.withKeys, List.mem_filter]
      exact ⟨hp, by simp [hpj, hg.2]⟩
    · intro ho
      have := ho.last
      omega
  | ahead hle =>
    rw [hidx _ hnl] at hle
    have hmax : newestUnder (got ++ [(k, n)]) k = n.toNat := by
      rw [newestUnder_append, if_pos rfl]
      exact Nat.max_eq_right hle
    have hiter : chainIter C (chainIter C ck (newestUnder got k)) (n.toNat - (chainIter C ck (newestUnder got k)).index.toNat) = chainIter C ck n.toNat := by
      rw [hidx _ hnl, chainIter_add, Nat.add_sub_cancel' hle]
    have hskm : ∀ p, p ∈ skipped C (chainIter C ck (newestUnder got k)) (n.toNat - (chainIter C ck (newestUnder got k)).index.toNat) ↔
        ∃ j, newestUnder got k ≤ j ∧ j < n.toNat ∧ p = ((chainIter C ck j).messageKeys C).toPB := by
      intro p
      rw [hidx _ hnl]
      simp only [skipped, List.mem_map, List.mem_range]
      constructor
      · rintro ⟨j, hj, rfl⟩
        exact ⟨newestUnder got k + j, by omega, by omega, by rw [← chainIter_add]⟩
      · rintro ⟨j, h1, h2, rfl⟩
        exact ⟨j - newestUnder got k, by omega, by rw [chainIter_add, Nat.add_sub_cancel' h1]⟩
    rw [hiter]
    refine ⟨rfl, ?_, ?_, ?_, ?_⟩
    · rw [hmax]
    · intro p hp
      have hp := lastN_mem hp
      rw [List.mem_append] at hp
      rcases hp with hp | hp
      · exact h.stored p hp
      · obtain ⟨j, _, hj, rfl⟩ := (hskm p).mp hp
        rw [toPB_index, hidx j (by omega)]
    · intro j hj hg hr
      rw [hmax] at hj hr
      simp only [List.mem_append, List.mem_singleton, Prod.mk.injEq, true_and, not_or] at hg
      -- the key is in the untruncated list
      have hin : ∃ p ∈ c.messageKeys ++ skipped C (chainIter C ck (newestUnder got k)) (n.toNat - (chainIter C ck (newestUnder got k)).index.toNat), p.index = j := by
        by_cases hjo : j.toNat < newestUnder got k
        · obtain ⟨p, hp, hpj⟩ := h.kept j hjo hg.1 (by omega)
          exact ⟨p, List.mem_append_left _ hp, hpj⟩
        · refine ⟨_, List.mem_append_right _ ((hskm _).mpr ⟨j.toNat, by omega, hj, rfl⟩), ?_⟩
          rw [toPB_index]
          exact UInt32.toNat_inj.mp (hidx _ (by omega))
      -- and it is among the last ones
      have hsorted : (c.messageKeys ++ skipped C (chainIter C ck (newestUnder got k)) (n.toNat - (chainIter C ck (newestUnder got k)).index.toNat)).Pairwise
          fun a b => a.index < b.index := by
        rw [List.pairwise_append]
        refine ⟨hw.sorted, ?_, ?_⟩
        · simp only [skipped, List.pairwise_map]
          refine List.Pairwise.imp_of_mem (fun {a b} ha hb hab => ?_) List.pairwise_lt_range
          rw [List.mem_range, hidx _ hnl] at ha hb
          rw [toPB_index, toPB_index, UInt32.lt_iff_toNat_lt, chainIter_add, chainIter_add, hidx _ (by omega), hidx _ (by omega)]
          omega
        · intro a ha b hb
          obtain ⟨j', h1, h2, rfl⟩ := (hskm b).mp hb
          obtain ⟨ck', hck', _, hlt⟩ := hw.chain
          rw [h.key] at hck'
          have hx := hlt a ha
          have : ck'.index.toNat = newestUnder got k := by
            simp only [ChainKey.toPB, Option.some.injEq, PBChainKey.mk.injEq] at hck'
            rw [← hck'.1, hidx _ hnl]
          rw [toPB_index, UInt32.lt_iff_toNat_lt, hidx _ (by omega)]
          rw [UInt32.lt_iff_toNat_lt] at hx
          omega
      have hbound : ∀ p ∈ c.messageKeys ++ skipped C (chainIter C ck (newestUnder got k)) (n.toNat - (chainIter C ck (newestUnder got k)).index.toNat), p.index.toNat < n.toNat := by
        intro p hp
        rw [List.mem_append] at hp
        rcases hp with hp | hp
        · obtain ⟨ck', hck', _, hlt⟩ := hw.chain
          rw [h.key] at hck'
          have hx := hlt p hp
          have : ck'.index.toNat = newestUnder got k := by
            simp only [ChainKey.toPB, Option.some.injEq, PBChainKey.mk.injEq] at hck'
            rw [← hck'.1, hidx _ hnl]
          rw [UInt32.lt_iff_toNat_lt] at hx
          omega
        · obtain ⟨j', h1, h2, rfl⟩ := (hskm p).mp hp
          rw [toPB_index, hidx _ (by omega)]
          exact h2
      obtain ⟨p, hp, hpj⟩ := hin
      refine ⟨p, ?_, hpj⟩
      revert hsorted hbound hp
      generalize c.messageKeys ++ skipped C (chainIter C ck (newestUnder got k)) (n.toNat - (chainIter C ck (newestUnder got k)).index.toNat) = l
      intro hsorted hbound hp
      exact lastN_keeps hp hsorted hbound (by rw [maxMessageKeys_eq, hpj]; omega)
    · intro ho
      show lastN maxMessageKeys (c.messageKeys ++ _) = _
      rw [h.full ho.init, lastN_append, hidx _ hnl, ← skipped_add, hmax, Nat.add_sub_cancel' hle]

end Verif
