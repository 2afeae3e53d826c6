import Verif.Proofs.State
import Verif.Proofs.Encoding
import Verif.Proofs.Ops

/-!
The invariant of session states and records: sizes, key formats, ordering of the stored message keys.
-/

namespace Verif

open Wire (Field encFields)

attribute [local irreducible] maxMessageKeys

/-! ## The message cipher, case by case -/

theorem messageKeysFor_old (C : Crypto) (s : SState) (eph : PubKey) (ck : ChainKey) (n : UInt32) (i : Nat) (c : PBChain)
    (hc : s.receiverChain eph = some (i, c)) (h : ck.index > n) :
    messageKeysFor C s eph ck n =
      match (c.messageKeys.filter fun k => k.index = n).getLast? with
      | none => .err .duplicateMessage
      | some k => (newMessageKeys k.cipherKey k.macKey k.iv n >>= fun mk => .ok (mk,
          { s with receiverChains := s.receiverChains.set i (c.withKeys (c.messageKeys.filter fun k => k.index ≠ n)) })) := by
  simp only [messageKeysFor, h, if_true, SState.takeMessageKeys, hc]
  cases (c.messageKeys.filter fun k => k.index = n).getLast? with
  | none => rfl
  | some k =>
    simp only
    cases newMessageKeys k.cipherKey k.macKey k.iv n <;> rfl

/-- The state after receiving position `n` (or a later one) on chain `i`. -/
def advanced (C : Crypto) (s : SState) (i : Nat) (c : PBChain) (ck : ChainKey) (n : Nat) : SState :=
  let c' := { c with messageKeys := lastN maxMessageKeys (c.messageKeys ++ skipped C ck n), chainKey := some (chainIter C ck n).toPB }
  { s with receiverChains := s.receiverChains.set i c' }

theorem messageKeysFor_new (C : Crypto) (s : SState) (eph : PubKey) (ck : ChainKey) (n : UInt32) (i : Nat) (c : PBChain)
    (hc : s.receiverChain eph = some (i, c)) (hl : c.messageKeys.length ≤ maxMessageKeys) (h : ¬ ck.index > n)
    (hj : ¬ (n - ck.index > maxJumps) ∨ s.sessionWithSelf = .ok true) :
    messageKeysFor C s eph ck n = .ok ((chainIter C ck (n.toNat - ck.index.toNat)).messageKeys C,
      advanced C s i c ck (n.toNat - ck.index.toNat)) := by
  simp only [messageKeysFor, h, if_false]
  have hle : ck.index.toNat ≤ n.toNat := by
    rw [gt_iff_lt, UInt32.lt_iff_toNat_lt] at h; omega
  have hloop := skipLoop_spec C eph n (n.toNat - ck.index.toNat) ck s i c hc hl (by omega)
  have hset := SState.receiverChain_set (c' := c.withKeys (lastN maxMessageKeys (c.messageKeys ++ skipped C ck (n.toNat - ck.index.toNat)))) hc rfl
  have hfin : ((skipLoop C eph n (n.toNat - ck.index.toNat) ck s) >>= fun x =>
      (x.2.setReceiverChainKey eph x.1) >>= fun s => Res.ok (x.1.messageKeys C, s)) =
      .ok ((chainIter C ck (n.toNat - ck.index.toNat)).messageKeys C, advanced C s i c ck (n.toNat - ck.index.toNat)) := by
    rw [hloop, Res.bind_ok]
    simp only [SState.setReceiverChainKey, hset, Res.bind_ok, List.set_set, advanced]
    rfl
  rcases hj with hj | hj
  · simp only [hj, if_false]
    exact hfin
  · by_cases hj' : n - ck.index > maxJumps
    · simp only [hj', if_true, hj, Res.bind_ok]
      exact hfin
    · simp only [hj', if_false]
      exact hfin

theorem messageKeysFor_far (C : Crypto) (s : SState) (eph : PubKey) (ck : ChainKey) (n : UInt32)
    (h : ¬ ck.index > n) (hj : n - ck.index > maxJumps) (hs : s.sessionWithSelf ≠ .ok true) :
    (messageKeysFor C s eph ck n).Bad := by
  simp only [messageKeysFor, h, if_false, hj, if_true]
  cases hw : s.sessionWithSelf with
  | ok b =>
    cases b with
    | true => exact absurd hw hs
    | false => simp
  | err e => simp
  | panic => simp

theorem chainKeyFor_ok {C : Crypto} {s s' : SState} {eph : PubKey} {rd rd' : Bytes} {ck : ChainKey}
    (h : chainKeyFor C s eph rd = (.ok (ck, s'), rd')) :
    (s.receiverChainKey eph = .ok (some ck) ∧ s' = s ∧ rd' = rd) ∨
    (s.receiverChainKey eph = .ok none ∧ ∃ root ours rRoot kp sRoot sCk cur,
      s.getRootKey = .ok root ∧ s.senderRatchetPrivateKey = .ok ours ∧ root.createChain C ours eph = .ok (rRoot, ck) ∧
      generateKeyPair C rd = (.ok kp, rd') ∧ rRoot.createChain C kp.priv eph = .ok (sRoot, sCk) ∧
      s.senderChainKey = .ok cur ∧
      s' = { ({ s with rootKey := sRoot.key } : SState).addReceiverChain eph ck with
        previousCounter := if cur.index > 0 then cur.index - 1 else 0 }.setSenderChain kp sCk) := by
  unfold chainKeyFor at h
  rw [M.bind_eq_ok] at h
  obtain ⟨o, rd1, h1, h2⟩ := h
  simp only [M.lift_run, Prod.mk.injEq] at h1
  obtain ⟨h1, rfl⟩ := h1
  cases o with
  | some c =>
    left
    simp only [M.pure_run, Prod.mk.injEq, Res.ok.injEq] at h2
    obtain ⟨⟨rfl, rfl⟩, rfl⟩ := h2
    exact ⟨h1, rfl, rfl⟩
  | none =>
    right
    refine ⟨h1, ?_⟩
    simp only [M.bind_eq_ok, M.lift_run, Prod.mk.injEq, M.pure_run, Res.ok.injEq] at h2
    obtain ⟨root, _, ⟨hroot, rfl⟩, ours, _, ⟨hours, rfl⟩, ⟨rRoot, rCk⟩, _, ⟨hr, rfl⟩, kp, rd2, hkp, ⟨sRoot, sCk⟩, _, ⟨hs, rfl⟩,
      cur, _, ⟨hcur, rfl⟩, ⟨h3, h4⟩, rfl⟩ := h2
    simp only at h3
    subst h3
    exact ⟨root, ours, rRoot, kp, sRoot, sCk, cur, hroot, hours, hr, hkp, hs, hcur, h4.symm⟩

theorem decryptMessageSession_ok {C : Crypto} {s s' : SState} {m : Signal} {rd rd' p : Bytes}
    (h : decryptMessageSession C s m rd = (.ok (p, s'), rd')) :
    s.senderChain.isSome ∧ m.version.toUInt32 = s.version ∧ ∃ ck s1 mk s2 rk lk,
      chainKeyFor C s m.senderRatchetKey rd = (.ok (ck, s1), rd') ∧
      messageKeysFor C s1 m.senderRatchetKey ck m.counter = .ok (mk, s2) ∧
      s2.remoteIdentityKey = .ok (some rk) ∧ s2.localIdentityKey = .ok lk ∧
      m.verifyMAC C mk.macKey rk lk = .ok true ∧ cbcDecrypt C mk.cipherKey mk.iv m.ciphertext = .ok p ∧
      s' = s2.clearUnacknowledgedPreKeyMessage := by
  unfold decryptMessageSession at h
  cases hs : s.senderChain with
  | none => simp [hs] at h
  | some sc =>
    simp only [hs] at h
    by_cases hv : m.version.toUInt32 ≠ s.version
    · rw [if_pos hv] at h
      simp at h
    · simp only [if_neg hv, M.bind_eq_ok, M.lift_run, Prod.mk.injEq, Res.bind_eq_ok] at h
      obtain ⟨⟨ck, s1⟩, rd1, h1, ⟨⟨mk, s2⟩, h2, o, h3, h4⟩, rfl⟩ := h
      simp only at h2 h3 h4
      cases o with
      | none => simp at h4
      | some rk =>
        simp only [Res.bind_eq_ok] at h4
        obtain ⟨lk, h5, v, h6, h7⟩ := h4
        cases v with
        | false => simp at h7
        | true =>
          simp only [if_true, Res.bind_eq_ok] at h7
          obtain ⟨p', h8, h9⟩ := h7
          simp only [Res.pure_eq, Res.ok.injEq, Prod.mk.injEq] at h9
          obtain ⟨rfl, rfl⟩ := h9
          exact ⟨rfl, Decidable.not_not.mp hv, ck, s1, mk, s2, rk, lk, h1, h2, h3, h5, h6, h8, rfl⟩

/-! ## Well-formed states -/

/-- A receiving chain as the library builds it. -/
structure PBChain.WF (c : PBChain) : Prop where
  ratchet : ∃ k : PubKey, c.senderRatchetKey = k.bytes
  noPriv : c.senderRatchetKeyPrivate = []
  count : c.messageKeys.length ≤ maxMessageKeys
  sizes : ∀ k ∈ c.messageKeys, k.cipherKey.length = 32 ∧ k.macKey.length = 32 ∧ k.iv.length = 16
  sorted : c.messageKeys.Pairwise fun a b => a.index < b.index
  chain : ∃ ck : ChainKey, c.chainKey = some ck.toPB ∧ ck.key.length = 32 ∧ ∀ k ∈ c.messageKeys, k.index < ck.index

/-- A sending chain as the library builds it. -/
structure PBChain.SendWF (c : PBChain) : Prop where
  ratchet : ∃ k : PubKey, c.senderRatchetKey = k.bytes
  priv : ∃ k : PrivKey, c.senderRatchetKeyPrivate = k.bytes
  chain : ∃ ck : ChainKey, c.chainKey = some ck.toPB ∧ ck.key.length = 32
  noKeys : c.messageKeys = []

/-- A session state as the library builds it. -/
structure SState.WF (s : SState) : Prop where
  version : s.sessionVersion = 3
  localId : ∃ k : PubKey, s.localIdentityPublic = k.bytes
  remoteId : ∃ k : PubKey, s.remoteIdentityPublic = k.bytes
  root : s.rootKey.length = 32
  sender : ∃ c, s.senderChain = some c ∧ c.SendWF
  chains : s.receiverChains.length ≤ maxReceiverChains
  chainWF : ∀ c ∈ s.receiverChains, c.WF
  distinct : s.receiverChains.Pairwise fun a b => a.senderRatchetKey ≠ b.senderRatchetKey
  pending : ∀ p, s.pendingPreKey = some p → ∃ k : PubKey, p.baseKey = k.bytes
  base : ∃ k : PubKey, s.aliceBaseKey = k.bytes

/-- A session record as the library builds it: the archive holds serialised well-formed states. -/
structure Record.WF (r : Record) : Prop where
  current : ∀ s, r.current = some s → s.WF
  count : r.previous.length ≤ maxArchivedStates
  archived : ∀ b ∈ r.previous, ∃ s : SState, s.WF ∧ b = s.marshal

theorem Record.WF.empty : ({} : Record).WF := ⟨by simp, by simp, by simp⟩

theorem PBChain.WF.receiverChainKey {s : SState} {eph : PubKey} {i : Nat} {c : PBChain} (hc : s.receiverChain eph = some (i, c))
    {ck : ChainKey} (h : c.chainKey = some ck.toPB) (hl : ck.key.length = 32) : s.receiverChainKey eph = .ok (some ck) := by
  simp [SState.receiverChainKey, hc, h, ChainKey.toPB, newChainKey, hl]

theorem toPB_index (C : Crypto) (ck : ChainKey) : ((ck.messageKeys C).toPB).index = ck.index := rfl

theorem skipped_mem {C : Crypto} {ck : ChainKey} {n : Nat} {k : PBMessageKey} (h : k ∈ skipped C ck n) :
    ∃ j, j < n ∧ k = ((chainIter C ck j).messageKeys C).toPB := by
  simp only [skipped, List.mem_map, List.mem_range] at h
  obtain ⟨j, hj, rfl⟩ := h
  exact ⟨j, hj, rfl⟩

theorem chainIter_toNat (C : Crypto) (ck : ChainKey) (j : Nat) (h : ck.index.toNat + j < 4294967296) :
    (chainIter C ck j).index.toNat = ck.index.toNat + j := by
  have : j < 4294967296 := by omega
  rw [chainIter_index, UInt32.toNat_add, UInt32.toNat_ofNat']
  omega

theorem PBChain.WF.advance {C : Crypto} {c : PBChain} (h : c.WF) {ck : ChainKey} (hck : c.chainKey = some ck.toPB) (n : Nat)
    (hn : ck.index.toNat + n < 4294967296) :
    PBChain.WF { c with messageKeys := lastN maxMessageKeys (c.messageKeys ++ skipped C ck n), chainKey := some (chainIter C ck n).toPB } := by
  obtain ⟨ck', hck', hlen, hlt⟩ := h.chain
  have e : ck' = ck := by
    rw [hck] at hck'
    simp only [ChainKey.toPB, Option.some.injEq, PBChainKey.mk.injEq] at hck'
    cases ck; cases ck'; simp_all
  subst e
  refine ⟨h.ratchet, h.noPriv, ?_, ?_, ?_, ?_⟩
  · simp only [lastN_length]; exact Nat.min_le_left _ _
  · intro k hk
    rcases List.mem_append.mp (lastN_mem hk) with hk | hk
    · exact h.sizes k hk
    · obtain ⟨j, _, rfl⟩ := skipped_mem hk
      exact ⟨messageKeys_cipherKey_len C _, messageKeys_macKey_len C _, messageKeys_iv_len C _⟩
  · apply List.Pairwise.drop
    rw [List.pairwise_append]
    refine ⟨h.sorted, ?_, ?_⟩
    · simp only [skipped]
      rw [List.pairwise_map]
      refine List.Pairwise.imp_of_mem ?_ List.pairwise_lt_range
      intro i j hi hj hij
      simp only [List.mem_range] at hi hj
      rw [toPB_index, toPB_index, UInt32.lt_iff_toNat_lt, chainIter_toNat C _ _ (by omega), chainIter_toNat C _ _ (by omega)]
      omega
    · intro a ha b hb
      obtain ⟨j, hj, rfl⟩ := skipped_mem hb
      have := hlt a ha
      rw [UInt32.lt_iff_toNat_lt] at this
      rw [toPB_index, UInt32.lt_iff_toNat_lt, chainIter_toNat C _ _ (by omega)]
      omega
  · refine ⟨_, rfl, chainIter_key_len C _ hlen n, ?_⟩
    intro k hk
    rw [UInt32.lt_iff_toNat_lt, chainIter_toNat C _ _ hn]
    rcases List.mem_append.mp (lastN_mem hk) with hk | hk
    · have := hlt k hk
      rw [UInt32.lt_iff_toNat_lt] at this
      omega
    · obtain ⟨j, hj, rfl⟩ := skipped_mem hk
      rw [toPB_index, chainIter_toNat C _ _ (by omega)]
      omega

theorem PBChain.WF.filter {c : PBChain} (h : c.WF) (f : PBMessageKey → Bool) : (c.withKeys (c.messageKeys.filter f)).WF := by
  obtain ⟨ck, hck, hlen, hlt⟩ := h.chain
  refine ⟨h.ratchet, h.noPriv, ?_, ?_, ?_, ck, hck, hlen, ?_⟩
  · exact Nat.le_trans (List.length_filter_le _ _) h.count
  · intro k hk; exact h.sizes k (List.mem_filter.mp hk).1
  · exact List.Pairwise.filter _ h.sorted
  · intro k hk; exact hlt k (List.mem_filter.mp hk).1

/-- Replacing a chain by a well-formed one with the same ratchet key. -/
theorem SState.WF.set {s : SState} (h : s.WF) {i : Nat} {c c' : PBChain} (hc : s.receiverChains[i]? = some c)
    (hk : c'.senderRatchetKey = c.senderRatchetKey) (hw : c'.WF) :
    SState.WF { s with receiverChains := s.receiverChains.set i c' } := by
  refine ⟨h.version, h.localId, h.remoteId, h.root, h.sender, ?_, ?_, ?_, h.pending, h.base⟩
  · simp only [List.length_set]; exact h.chains
  · intro d hd
    rcases List.mem_or_eq_of_mem_set hd with hd | rfl
    · exact h.chainWF d hd
    · exact hw
  · have := h.distinct
    rw [List.pairwise_iff_getElem] at this ⊢
    intro a b ha hb hab
    simp only [List.length_set] at ha hb
    have hth := this a b ha hb hab
    obtain ⟨hi, rfl⟩ := List.getElem?_eq_some_iff.mp hc
    simp only [List.getElem_set]
    split <;> split
    · omega
    · subst_vars; rw [hk]; exact hth
    · subst_vars; rw [hk]; exact hth
    · exact hth

theorem SState.WF.messageKeysFor {C : Crypto} {s s' : SState} {eph : PubKey} {ck : ChainKey} {n : UInt32} {mk : MessageKeys}
    (h : s.WF) (hck : s.receiverChainKey eph = .ok (some ck)) (hm : Verif.messageKeysFor C s eph ck n = .ok (mk, s')) : s'.WF := by
  cases hc : s.receiverChain eph with
  | none => simp [SState.receiverChainKey, hc] at hck
  | some x =>
    obtain ⟨i, c⟩ := x
    obtain ⟨hci, hce⟩ := SState.receiverChain_some hc
    have hcw := h.chainWF c (SState.receiverChain_mem hc)
    obtain ⟨ck', hck', hlen, hlt⟩ := hcw.chain
    have e := PBChain.WF.receiverChainKey hc hck' hlen
    rw [hck] at e
    simp only [Res.ok.injEq, Option.some.injEq] at e
    subst e
    by_cases hgt : ck.index > n
    · rw [messageKeysFor_old C s eph ck n i c hc hgt] at hm
      split at hm
      · simp at hm
      · rename_i k hk
        simp only [Res.bind_eq_ok, Res.ok.injEq, Prod.mk.injEq] at hm
        obtain ⟨mk', _, _, rfl⟩ := hm
        exact h.set hci rfl (hcw.filter _)
    · by_cases hj : ¬ (n - ck.index > maxJumps) ∨ s.sessionWithSelf = .ok true
      · rw [messageKeysFor_new C s eph ck n i c hc hcw.count hgt hj] at hm
        simp only [Res.ok.injEq, Prod.mk.injEq] at hm
        obtain ⟨_, rfl⟩ := hm
        have hle : ck.index.toNat ≤ n.toNat := by
          rw [gt_iff_lt, UInt32.lt_iff_toNat_lt] at hgt; omega
        have := n.toNat_lt
        refine h.set hci ?_ (hcw.advance (C := C) hck' _ ?_)
        · rfl
        · omega
      · simp only [not_or, Decidable.not_not] at hj
        exact absurd hm (messageKeysFor_far C s eph ck n hgt hj.1 hj.2 _)

theorem RootKey.createChain_ok {C : Crypto} {r r' : RootKey} {a : PrivKey} {q : PubKey} {ck : ChainKey}
    (h : r.createChain C a q = .ok (r', ck)) : r'.key.length = 32 ∧ ck.key.length = 32 ∧ ck.index = 0 := by
  rw [createChain_eq, Res.bind_eq_ok] at h
  obtain ⟨s, _, h⟩ := h
  simp only [Res.ok.injEq, Prod.mk.injEq] at h
  obtain ⟨rfl, rfl⟩ := h
  simp [C.hkdf_len]

theorem SState.WF.setSenderChain {s : SState} (h : s.WF) (kp : KeyPair) (ck : ChainKey) (hl : ck.key.length = 32) :
    (s.setSenderChain kp ck).WF :=
  ⟨h.version, h.localId, h.remoteId, h.root, ⟨_, rfl, ⟨_, rfl⟩, ⟨_, rfl⟩, ⟨ck, rfl, hl⟩, rfl⟩, h.chains, h.chainWF, h.distinct,
    h.pending, h.base⟩

theorem fresh_chain_WF (eph : PubKey) (ck : ChainKey) (hl : ck.key.length = 32) :
    PBChain.WF { senderRatchetKey := eph.bytes, chainKey := some { index := ck.index, key := ck.key } } :=
  ⟨⟨eph, rfl⟩, rfl, by simp, by simp, by simp, ck, rfl, hl, by simp⟩

theorem SState.WF.addReceiverChain {s : SState} (h : s.WF) (eph : PubKey) (ck : ChainKey) (hl : ck.key.length = 32)
    (hn : s.receiverChain eph = none) : (s.addReceiverChain eph ck).WF := by
  have hne : ∀ c ∈ s.receiverChains, c.senderRatchetKey ≠ eph.bytes := SState.findChain_none.mp hn
  have hall : ∀ c ∈ s.receiverChains ++ [({ senderRatchetKey := eph.bytes, chainKey := some { index := ck.index, key := ck.key } } : PBChain)], c.WF := by
    intro c hc
    rcases List.mem_append.mp hc with hc | hc
    · exact h.chainWF c hc
    · simp only [List.mem_singleton] at hc; subst hc; exact fresh_chain_WF eph ck hl
  have hpair : (s.receiverChains ++ [({ senderRatchetKey := eph.bytes, chainKey := some { index := ck.index, key := ck.key } } : PBChain)]).Pairwise
      fun a b => a.senderRatchetKey ≠ b.senderRatchetKey := by
    rw [List.pairwise_append]
    refine ⟨h.distinct, by simp, ?_⟩
    intro a ha b hb
    simp only [List.mem_singleton] at hb
    subst hb
    exact hne a ha
  unfold SState.addReceiverChain
  simp only
  split
  · refine ⟨h.version, h.localId, h.remoteId, h.root, h.sender, ?_, ?_, ?_, h.pending, h.base⟩
    · have := h.chains
      simp only [List.length_drop, List.length_append, List.length_singleton]; omega
    · intro c hc; exact hall c (List.mem_of_mem_drop hc)
    · exact List.Pairwise.drop hpair
  · rename_i hlen
    exact ⟨h.version, h.localId, h.remoteId, h.root, h.sender, Nat.le_of_not_gt hlen, hall, hpair, h.pending, h.base⟩

/-- After adding a chain for a new ratchet key, that chain is found. -/
theorem SState.receiverChain_add (s : SState) (eph : PubKey) (ck : ChainKey) (hn : s.receiverChain eph = none) :
    ∃ i, (s.addReceiverChain eph ck).receiverChain eph =
      some (i, { senderRatchetKey := eph.bytes, chainKey := some { index := ck.index, key := ck.key } }) := by
  have hne : ∀ c ∈ s.receiverChains, c.senderRatchetKey ≠ eph.bytes := SState.findChain_none.mp hn
  have key : ∀ (l : List PBChain) (i : Nat), (∀ c ∈ l, c.senderRatchetKey ≠ eph.bytes) →
      SState.findChain eph.bytes (l ++ [{ senderRatchetKey := eph.bytes, chainKey := some { index := ck.index, key := ck.key } }]) i =
        some (i + l.length, { senderRatchetKey := eph.bytes, chainKey := some { index := ck.index, key := ck.key } }) := by
    intro l
    induction l with
    | nil => intro i _; simp [SState.findChain]
    | cons x l ih =>
      intro i hl
      have hx : x.senderRatchetKey ≠ eph.bytes := hl x (by simp)
      simp only [List.cons_append, SState.findChain, hx, if_false]
      rw [ih (i + 1) (fun c hc => hl c (by simp [hc]))]
      simp only [List.length_cons]
      congr 2
      omega
  unfold SState.addReceiverChain SState.receiverChain
  simp only
  split
  · rename_i hlen
    have hpos : 1 ≤ s.receiverChains.length := by
      simp only [List.length_append, List.length_singleton, maxReceiverChains] at hlen; omega
    rw [List.drop_append_of_le_length hpos]
    exact ⟨_, key _ 0 (fun c hc => hne c (List.mem_of_mem_drop hc))⟩
  · exact ⟨_, key _ 0 hne⟩

theorem SState.WF.chainKeyFor {C : Crypto} {s s' : SState} {eph : PubKey} {rd rd' : Bytes} {ck : ChainKey} (h : s.WF)
    (hm : Verif.chainKeyFor C s eph rd = (.ok (ck, s'), rd')) : s'.WF ∧ s'.receiverChainKey eph = .ok (some ck) := by
  rcases chainKeyFor_ok hm with ⟨h1, rfl, rfl⟩ | ⟨h1, root, ours, rRoot, kp, sRoot, sCk, cur, _, _, hr, _, hs, _, rfl⟩
  · exact ⟨h, h1⟩
  · obtain ⟨hl1, hl2, _⟩ := RootKey.createChain_ok hr
    obtain ⟨hl3, hl4, _⟩ := RootKey.createChain_ok hs
    have hnone : s.receiverChain eph = none := by
      cases hc : s.receiverChain eph with
      | none => rfl
      | some x =>
        exfalso
        simp only [SState.receiverChainKey, hc] at h1
        cases hk : newChainKey (x.2.chainKey.getD {}).key (x.2.chainKey.getD {}).index <;> simp [hk] at h1
    have hw : SState.WF { s with rootKey := sRoot.key } :=
      ⟨h.version, h.localId, h.remoteId, hl3, h.sender, h.chains, h.chainWF, h.distinct, h.pending, h.base⟩
    have hw' := hw.addReceiverChain eph ck hl2 hnone
    have hw'' : SState.WF { ({ s with rootKey := sRoot.key } : SState).addReceiverChain eph ck with previousCounter := if cur.index > 0 then cur.index - 1 else 0 } :=
      ⟨hw'.version, hw'.localId, hw'.remoteId, hw'.root, hw'.sender, hw'.chains, hw'.chainWF, hw'.distinct, hw'.pending, hw'.base⟩
    refine ⟨hw''.setSenderChain kp sCk hl4, ?_⟩
    obtain ⟨i, hi⟩ := SState.receiverChain_add { s with rootKey := sRoot.key } eph ck hnone
    exact PBChain.WF.receiverChainKey (s := _) (i := i) hi rfl hl2

theorem SState.WF.clear {s : SState} (h : s.WF) : s.clearUnacknowledgedPreKeyMessage.WF :=
  ⟨h.version, h.localId, h.remoteId, h.root, h.sender, h.chains, h.chainWF, h.distinct, by simp [SState.clearUnacknowledgedPreKeyMessage], h.base⟩

theorem SState.WF.decrypt {C : Crypto} {s s' : SState} {m : Signal} {rd rd' p : Bytes} (h : s.WF)
    (hd : decryptMessageSession C s m rd = (.ok (p, s'), rd')) : s'.WF := by
  obtain ⟨_, _, ck, s1, mk, s2, rk, lk, h1, h2, _, _, _, _, rfl⟩ := decryptMessageSession_ok hd
  obtain ⟨hw, hck⟩ := h.chainKeyFor h1
  exact (hw.messageKeysFor hck h2).clear

theorem SState.WF.senderChainKey {s : SState} (h : s.WF) : ∃ ck, s.senderChainKey = .ok ck ∧ ck.key.length = 32 := by
  obtain ⟨c, hc, _, _, ⟨ck, hck, hl⟩, _⟩ := h.sender
  exact ⟨ck, by simp [SState.senderChainKey, hc, hck, ChainKey.toPB, newChainKey, hl], hl⟩

theorem SState.WF.setSenderChainKey {s : SState} (h : s.WF) (ck : ChainKey) (hl : ck.key.length = 32) :
    (s.setSenderChainKey ck).WF := by
  obtain ⟨c, hc, h1, h2, _, h4⟩ := h.sender
  simp only [SState.setSenderChainKey, hc]
  exact ⟨h.version, h.localId, h.remoteId, h.root, ⟨_, rfl, h1, h2, ⟨ck, rfl, hl⟩, h4⟩, h.chains, h.chainWF, h.distinct, h.pending, h.base⟩

theorem SState.WF.encrypt {C : Crypto} {s s' : SState} {pt : Bytes} {msg : Ciphertext} {k : PubKey} (h : s.WF)
    (he : encryptState C s pt = .ok (msg, s', k)) : s'.WF := by
  unfold encryptState at he
  simp only [Res.bind_eq_ok] at he
  obtain ⟨ck, hck, eph, _, lk, _, o, _, he⟩ := he
  cases o with
  | none => simp at he
  | some rk =>
    simp only [Res.bind_eq_ok] at he
    obtain ⟨ct, _, m, _, items, _, he⟩ := he
    simp only [Res.pure_eq, Res.ok.injEq, Prod.mk.injEq] at he
    obtain ⟨_, rfl, _⟩ := he
    exact h.setSenderChainKey _ (by simp)

/-! ## Records -/

theorem attempt_ok {σ α} {x : M σ α} {s s' : σ} {e : Except Err α} (h : M.attempt x s = (.ok e, s')) :
    (∃ a, e = .ok a ∧ x s = (.ok a, s')) ∨ ∃ er, e = .error er ∧ x s = (.err er, s') := by
  unfold M.attempt at h
  rcases hx : x s with ⟨r, s1⟩
  rw [hx] at h
  cases r with
  | ok a =>
    simp only [Prod.mk.injEq, Res.ok.injEq] at h
    obtain ⟨rfl, rfl⟩ := h
    exact .inl ⟨a, rfl, rfl⟩
  | err er =>
    simp only [Prod.mk.injEq, Res.ok.injEq] at h
    obtain ⟨rfl, rfl⟩ := h
    exact .inr ⟨er, rfl, rfl⟩
  | panic => simp at h

/-- Code that consumes its random bytes in blocks of 32. -/
def M.Blocks {α} (x : M Bytes α) : Prop := ∀ rd, ∃ n, (x rd).2 = rd.drop (32 * n)

theorem M.Blocks.id {α} {x : M Bytes α} (h : ∀ rd, (x rd).2 = rd) : x.Blocks := fun rd => ⟨0, by simp [h]⟩

theorem M.Blocks.bind {α β} {x : M Bytes α} {f : α → M Bytes β} (hx : x.Blocks) (hf : ∀ a, (f a).Blocks) : (x >>= f).Blocks := by
  intro rd
  obtain ⟨n, hn⟩ := hx rd
  rw [M.bind_run]
  rcases h : x rd with ⟨r, rd'⟩
  rw [h] at hn
  simp only at hn
  subst hn
  cases r with
  | ok a =>
    obtain ⟨m, hm⟩ := hf a (rd.drop (32 * n))
    exact ⟨n + m, by simp only [hm, List.drop_drop]; congr 1; omega⟩
  | err e => exact ⟨n, rfl⟩
  | panic => exact ⟨n, rfl⟩

theorem generateKeyPair_blocks (C : Crypto) : (generateKeyPair C).Blocks := by
  intro rd
  by_cases h : 32 ≤ rd.length
  · obtain ⟨k, hk, _⟩ := generateKeyPair_run C rd h
    exact ⟨1, by rw [hk]⟩
  · exact ⟨rd.length, by rw [generateKeyPair_short C rd h, List.drop_eq_nil_of_le (by omega)]⟩

theorem chainKeyFor_blocks (C : Crypto) (s : SState) (eph : PubKey) : (chainKeyFor C s eph).Blocks := by
  unfold chainKeyFor
  refine M.Blocks.bind (.id fun _ => rfl) fun o => ?_
  cases o with
  | some c => exact .id fun _ => rfl
  | none =>
    refine M.Blocks.bind (.id fun _ => rfl) fun _ => ?_
    refine M.Blocks.bind (.id fun _ => rfl) fun _ => ?_
    refine M.Blocks.bind (.id fun _ => rfl) fun _ => ?_
    refine M.Blocks.bind (generateKeyPair_blocks C) fun _ => ?_
    refine M.Blocks.bind (.id fun _ => rfl) fun _ => ?_
    refine M.Blocks.bind (.id fun _ => rfl) fun _ => ?_
    exact .id fun _ => rfl

theorem decryptMessageSession_blocks (C : Crypto) (s : SState) (m : Signal) : (decryptMessageSession C s m).Blocks := by
  unfold decryptMessageSession
  split
  · exact .id fun _ => rfl
  · split
    · exact .id fun _ => rfl
    · exact M.Blocks.bind (chainKeyFor_blocks C s _) fun _ => .id fun _ => rfl

theorem tryPrevious_ok {C : Crypto} {m : Signal} {l : List SState} {i idx : Nat} {found : Option (Nat × SState × Bytes)}
    {rd rd' : Bytes} {s' : SState} {p : Bytes} (h : tryPrevious C m l i found rd = (.ok (some (idx, s', p)), rd')) :
    found = some (idx, s', p) ∨
      ∃ j s rd1 rd2, l[j]? = some s ∧ idx = i + j ∧ decryptMessageSession C s m rd1 = (.ok (p, s'), rd2) ∧ ∃ n, rd1 = rd.drop (32 * n) := by
  induction l generalizing i found rd with
  | nil =>
    simp only [tryPrevious, M.pure_run, Prod.mk.injEq, Res.ok.injEq] at h
    exact .inl h.1
  | cons x l ih =>
    simp only [tryPrevious] at h
    rw [M.bind_eq_ok] at h
    obtain ⟨e, rd1, h1, h2⟩ := h
    have hb : ∃ n, rd1 = rd.drop (32 * n) := by
      obtain ⟨n, hn⟩ := decryptMessageSession_blocks C x m rd
      rcases attempt_ok h1 with ⟨_, _, h3⟩ | ⟨_, _, h3⟩
      · rw [h3] at hn; exact ⟨n, hn⟩
      · rw [h3] at hn; exact ⟨n, hn⟩
    obtain ⟨nb, rfl⟩ := hb
    have hdrop : ∀ r1 : Bytes, (∃ n, r1 = (rd.drop (32 * nb)).drop (32 * n)) → ∃ n, r1 = rd.drop (32 * n) := by
      rintro r1 ⟨n, rfl⟩
      exact ⟨nb + n, by rw [List.drop_drop]; congr 1; omega⟩
    rcases attempt_ok h1 with ⟨⟨p1, s1⟩, rfl, h3⟩ | ⟨er, rfl, h3⟩
    · simp only at h2
      rcases ih h2 with h4 | ⟨j, s, r1, r2, h4, h5, h6, h7⟩
      · simp only [Option.some.injEq, Prod.mk.injEq] at h4
        obtain ⟨rfl, rfl, rfl⟩ := h4
        exact .inr ⟨0, x, rd, _, by simp, rfl, h3, 0, by simp⟩
      · exact .inr ⟨j + 1, s, r1, r2, by simpa using h4, by omega, h6, hdrop _ h7⟩
    · have h2' : tryPrevious C m l (i + 1) found (rd.drop (32 * nb)) = (.ok (some (idx, s', p)), rd') := by
        cases er <;> first | exact h2 | simp at h2
      rcases ih h2' with h4 | ⟨j, s, r1, r2, h4, h5, h6, h7⟩
      · exact .inl h4
      · exact .inr ⟨j + 1, s, r1, r2, by simpa using h4, by omega, h6, hdrop _ h7⟩

/-- A successful decryption used the current state or an archived one. -/
theorem decryptRecord_ok {C : Crypto} {r r' : Record} {m : Signal} {rd rd' p : Bytes}
    (h : decryptRecord C r m rd = (.ok (p, r'), rd')) :
    (∃ s s', r.current = some s ∧ decryptMessageSession C s m rd = (.ok (p, s'), rd') ∧ r' = r.setSessionState s') ∨
    (∃ prev idx s s' rd1 rd2, r.previousStates = .ok prev ∧ prev[idx]? = some s ∧
      decryptMessageSession C s m rd1 = (.ok (p, s'), rd2) ∧ (∃ n, rd1 = rd.drop (32 * n)) ∧ r' = r.promoteOldState idx s') := by
  have hprev : ∀ rd0, decryptPrevious C r m rd0 = (.ok (p, r'), rd') →
      (∃ prev idx s s' rd1 rd2, r.previousStates = .ok prev ∧ prev[idx]? = some s ∧
        decryptMessageSession C s m rd1 = (.ok (p, s'), rd2) ∧ (∃ n, rd1 = rd0.drop (32 * n)) ∧ r' = r.promoteOldState idx s') := by
    intro rd0 h
    unfold decryptPrevious at h
    rw [M.bind_eq_ok] at h
    obtain ⟨prev, _, h1, h⟩ := h
    simp only [M.lift_run, Prod.mk.injEq] at h1
    obtain ⟨h1, rfl⟩ := h1
    rw [M.bind_eq_ok] at h
    obtain ⟨o, rd1, h2, h3⟩ := h
    cases o with
    | none => simp at h3
    | some x =>
      obtain ⟨idx, s', p'⟩ := x
      simp only [M.pure_run, Prod.mk.injEq, Res.ok.injEq] at h3
      obtain ⟨⟨rfl, rfl⟩, rfl⟩ := h3
      rcases tryPrevious_ok h2 with h4 | ⟨j, s, r1, r2, h4, h5, h6, h7⟩
      · simp at h4
      · simp only [Nat.zero_add] at h5
        subst h5
        exact ⟨prev, idx, s, s', r1, r2, h1, h4, h6, h7, rfl⟩
  unfold decryptRecord at h
  cases hc : r.current with
  | none =>
    simp only [hc] at h
    exact .inr (hprev _ h)
  | some s =>
    simp only [hc] at h
    rw [M.bind_eq_ok] at h
    obtain ⟨e, rd1, h1, h2⟩ := h
    rcases attempt_ok h1 with ⟨⟨p1, s1⟩, rfl, h3⟩ | ⟨er, rfl, h3⟩
    · simp only [M.pure_run, Prod.mk.injEq, Res.ok.injEq] at h2
      obtain ⟨⟨rfl, rfl⟩, rfl⟩ := h2
      exact .inl ⟨s, s1, rfl, h3, rfl⟩
    · right
      have h2' : decryptPrevious C r m rd1 = (.ok (p, r'), rd') := by
        cases er <;> first | exact h2 | simp at h2
      obtain ⟨prev, idx, t, t', r1, r2, e1, e2, e3, ⟨n, e4⟩, e5⟩ := hprev _ h2'
      obtain ⟨k, hk⟩ := decryptMessageSession_blocks C s m rd
      rw [h3] at hk
      simp only at hk
      exact ⟨prev, idx, t, t', r1, r2, e1, e2, e3, ⟨k + n, by rw [e4, hk, List.drop_drop]; congr 1; omega⟩, e5⟩

theorem encField_le (f : Field) (n : Nat) (h : match f.val with | .varint _ => 10 ≤ n | .len b => b.length + 10 ≤ n | .group => True | .fixed64 b => b.length ≤ n | .fixed32 b => b.length ≤ n) :
    (Wire.encField f).length ≤ 10 + n := by
  obtain ⟨num, v⟩ := f
  have h0 := encVarint_length (num * 8 + v.wtype)
  cases v with
  | varint x =>
    have := encVarint_length x
    simp only [Wire.encField, List.length_append] at h ⊢; omega
  | len b =>
    have := encVarint_length b.length
    simp only [Wire.encField, List.length_append] at h ⊢; omega
  | group => simp only [Wire.encField, List.length_append, List.length_nil] at h ⊢; omega
  | fixed64 b => simp only [Wire.encField, List.length_append] at h ⊢; omega
  | fixed32 b => simp only [Wire.encField, List.length_append] at h ⊢; omega

theorem encFields_append (a b : List Field) : encFields (a ++ b) = encFields a ++ encFields b := by simp [encFields]

theorem nzVarint_le (n : Nat) (v : UInt32) : (encFields (nzVarint n v)).length ≤ 20 := by
  unfold nzVarint; split
  · simp [encFields]
  · simp only [encFields, List.map_cons, List.map_nil, List.flatten_cons, List.flatten_nil, List.append_nil]
    exact encField_le _ 10 (by simp)

theorem nzInt32_le (n : Nat) (v : Int32) : (encFields (nzInt32 n v)).length ≤ 20 := by
  unfold nzInt32; split
  · simp [encFields]
  · simp only [encFields, List.map_cons, List.map_nil, List.flatten_cons, List.flatten_nil, List.append_nil]
    exact encField_le _ 10 (by simp)

theorem nzLen_le (n : Nat) (v : Bytes) : (encFields (nzLen n v)).length ≤ 20 + v.length := by
  unfold nzLen; split
  · simp [encFields]
  · simp only [encFields, List.map_cons, List.map_nil, List.flatten_cons, List.flatten_nil, List.append_nil]
    have := encField_le ⟨n, .len v⟩ (10 + v.length) (by simp only; omega)
    omega

theorem optMsg_le (n : Nat) (v : Option Bytes) (k : Nat) (h : ∀ b, v = some b → b.length ≤ k) :
    (encFields (optMsg n v)).length ≤ 20 + k := by
  cases v with
  | none => simp [optMsg, optLen, encFields]
  | some b =>
    have := h b rfl
    simp only [optMsg, optLen, encFields, List.map_cons, List.map_nil, List.flatten_cons, List.flatten_nil, List.append_nil]
    have := encField_le ⟨n, .len b⟩ (10 + b.length) (by simp only; omega)
    omega

theorem map_le {α} (n : Nat) (l : List α) (g : α → Bytes) (k : Nat) (h : ∀ a ∈ l, (g a).length ≤ k) :
    (encFields (l.map fun a => (⟨n, .len (g a)⟩ : Field))).length ≤ l.length * (20 + k) := by
  induction l with
  | nil => simp [encFields]
  | cons a l ih =>
    have h1 := ih (fun b hb => h b (by simp [hb]))
    have h2 := encField_le ⟨n, .len (g a)⟩ (10 + (g a).length) (by simp only; omega)
    have h3 := h a (by simp)
    have e : encFields ((a :: l).map fun a => (⟨n, .len (g a)⟩ : Field)) =
      Wire.encField ⟨n, .len (g a)⟩ ++ encFields (l.map fun a => (⟨n, .len (g a)⟩ : Field)) := by simp [encFields]
    rw [e, List.length_append, List.length_cons, Nat.add_mul]
    omega

theorem PBMessageKey.marshal_le (k : PBMessageKey) (h : k.cipherKey.length = 32 ∧ k.macKey.length = 32 ∧ k.iv.length = 16) :
    k.marshal.length ≤ 160 := by
  simp only [PBMessageKey.marshal, encFields_append, List.length_append]
  have h1 := nzVarint_le 1 k.index
  have h2 := nzLen_le 2 k.cipherKey
  have h3 := nzLen_le 3 k.macKey
  have h4 := nzLen_le 4 k.iv
  omega

theorem PBChainKey.marshal_le (k : PBChainKey) (h : k.key.length = 32) : k.marshal.length ≤ 72 := by
  simp only [PBChainKey.marshal, encFields_append, List.length_append]
  have h1 := nzVarint_le 1 k.index
  have h2 := nzLen_le 2 k.key
  omega

theorem PBChain.marshal_le (c : PBChain) (h1 : c.senderRatchetKey.length ≤ 33) (h2 : c.senderRatchetKeyPrivate.length ≤ 32)
    (h3 : ∀ k, c.chainKey = some k → k.key.length = 32) (h4 : c.messageKeys.length ≤ 2000)
    (h5 : ∀ k ∈ c.messageKeys, k.cipherKey.length = 32 ∧ k.macKey.length = 32 ∧ k.iv.length = 16) :
    c.marshal.length ≤ 370000 := by
  simp only [PBChain.marshal, encFields_append, List.length_append]
  have e1 := nzLen_le 1 c.senderRatchetKey
  have e2 := nzLen_le 2 c.senderRatchetKeyPrivate
  have e3 := optMsg_le 3 (c.chainKey.map PBChainKey.marshal) 72 (by
    intro b hb
    cases hk : c.chainKey with
    | none => simp [hk] at hb
    | some k =>
      simp [hk] at hb
      subst hb
      exact PBChainKey.marshal_le k (h3 k hk))
  have e4 := map_le 4 c.messageKeys PBMessageKey.marshal 160 (fun k hk => PBMessageKey.marshal_le k (h5 k hk))
  have e5 : c.messageKeys.length * (20 + 160) ≤ 2000 * 180 := Nat.mul_le_mul_right _ h4
  omega

theorem maxMessageKeys_eq : maxMessageKeys = 2000 := by
  unfold maxMessageKeys; rfl

/-- A well-formed state is small enough to be serialised and parsed back. -/
theorem SState.WF.marshal_length {s : SState} (h : s.WF) : s.marshal.length < 2 ^ 64 := by
  obtain ⟨lk, hlk⟩ := h.localId
  obtain ⟨rk, hrk⟩ := h.remoteId
  obtain ⟨bk, hbk⟩ := h.base
  simp only [SState.marshal, encFields_append, List.length_append]
  have e1 := nzVarint_le 1 s.sessionVersion
  have e2 := nzLen_le 2 s.localIdentityPublic
  have e3 := nzLen_le 3 s.remoteIdentityPublic
  have e4 := nzLen_le 4 s.rootKey
  have e5 := nzVarint_le 5 s.previousCounter
  have e6 := optMsg_le 6 (s.senderChain.map PBChain.marshal) 370000 (by
    intro b hb
    obtain ⟨c, hc, ⟨k, hk⟩, ⟨q, hq⟩, ⟨ck, hck, hl⟩, hn⟩ := h.sender
    simp [hc] at hb
    subst hb
    refine PBChain.marshal_le c (by simp [hk]) (by simp [hq]) ?_ (by simp [hn]) (by simp [hn])
    intro k' hk'
    rw [hck] at hk'
    simp only [Option.some.injEq] at hk'
    subst hk'
    exact hl)
  have e7 := map_le 7 s.receiverChains PBChain.marshal 370000 (by
    intro c hc
    have hw := h.chainWF c hc
    obtain ⟨k, hk⟩ := hw.ratchet
    obtain ⟨ck, hck, hl, _⟩ := hw.chain
    refine PBChain.marshal_le c (by simp [hk]) (by simp [hw.noPriv]) ?_ (by have := hw.count; rw [maxMessageKeys_eq] at this; exact this) hw.sizes
    intro k' hk'
    rw [hck] at hk'
    simp only [Option.some.injEq] at hk'
    subst hk'
    exact hl)
  have e8 := optMsg_le 9 (s.pendingPreKey.map PBPendingPreKey.marshal) 93 (by
    intro b hb
    cases hp : s.pendingPreKey with
    | none => simp [hp] at hb
    | some q =>
      obtain ⟨k, hk⟩ := h.pending q hp
      simp [hp] at hb
      subst hb
      simp only [PBPendingPreKey.marshal, encFields_append, List.length_append]
      have a1 := nzVarint_le 1 q.preKeyId
      have a2 := nzLen_le 2 q.baseKey
      have a3 := nzInt32_le 3 q.signedPreKeyId
      have a4 : q.baseKey.length = 33 := by rw [hk]; simp
      omega)
  have e9 := nzVarint_le 10 s.remoteRegistrationId
  have e10 := nzVarint_le 11 s.localRegistrationId
  have e11 := nzLen_le 13 s.aliceBaseKey
  have l1 : s.localIdentityPublic.length = 33 := by rw [hlk]; simp
  have l2 : s.remoteIdentityPublic.length = 33 := by rw [hrk]; simp
  have l3 : s.aliceBaseKey.length = 33 := by rw [hbk]; simp
  have l4 := h.root
  have l5 : s.receiverChains.length * (20 + 370000) ≤ 5 * 370020 := Nat.mul_le_mul_right _ h.chains
  omega

theorem SState.WF.round_trip {s : SState} (h : s.WF) : SState.unmarshal s.marshal = .ok s :=
  SState.unmarshal_marshal s h.marshal_length

theorem parseAll_map {l : List SState} (h : ∀ s ∈ l, s.WF) : Record.parseAll (l.map SState.marshal) = .ok l := by
  induction l with
  | nil => rfl
  | cons s l ih =>
    simp only [List.map_cons, Record.parseAll]
    rw [(h s (by simp)).round_trip, ih (fun t ht => h t (by simp [ht]))]
    rfl

/-- The archive of a well-formed record is the serialisation of a list of well-formed states. -/
theorem Record.WF.states {r : Record} (h : r.WF) :
    ∃ l : List SState, (∀ s ∈ l, s.WF) ∧ r.previous = l.map SState.marshal ∧ r.previousStates = .ok l := by
  have key : ∀ bs : List Bytes, (∀ b ∈ bs, ∃ s : SState, s.WF ∧ b = s.marshal) →
      ∃ l : List SState, (∀ s ∈ l, s.WF) ∧ bs = l.map SState.marshal := by
    intro bs
    induction bs with
    | nil => intro _; exact ⟨[], by simp, rfl⟩
    | cons b bs ih =>
      intro hb
      obtain ⟨s, hs, rfl⟩ := hb b (by simp)
      obtain ⟨l, hl, rfl⟩ := ih (fun b' hb' => hb b' (by simp [hb']))
      exact ⟨s :: l, by simpa using ⟨hs, hl⟩, rfl⟩
  obtain ⟨l, hl, e⟩ := key r.previous h.archived
  exact ⟨l, hl, e, by rw [Record.previousStates, e]; exact parseAll_map hl⟩

theorem Record.WF.setSessionState {r : Record} (h : r.WF) {s : SState} (hs : s.WF) : (r.setSessionState s).WF :=
  ⟨by simp only [Record.setSessionState, Option.some.injEq]; rintro t rfl; exact hs, h.count, h.archived⟩

theorem Record.WF.archive {r : Record} (h : r.WF) : r.archiveCurrentState.WF := by
  unfold Record.archiveCurrentState
  cases hc : r.current with
  | none => exact h
  | some s =>
    have hs := h.current s hc
    have hcount := h.count
    refine ⟨?_, ?_, ?_⟩
    · simp only; intro t ht; exact h.current t (by rw [hc] at *; exact ht)
    · simp only [List.length_append, List.length_singleton]
      split
      · simp only [List.length_drop, maxArchivedStates] at *; omega
      · rename_i hlt; omega
    · simp only
      intro b hb
      rcases List.mem_append.mp hb with hb | hb
      · refine h.archived b ?_
        split at hb
        · exact List.mem_of_mem_drop hb
        · exact hb
      · simp only [List.mem_singleton] at hb; exact ⟨s, hs, hb⟩

theorem Record.WF.promoteState {r : Record} (h : r.WF) {s : SState} (hs : s.WF) : (r.promoteState s).WF := by
  have ha := h.archive
  exact ⟨by simp only [Record.promoteState, Option.some.injEq]; rintro t rfl; exact hs, ha.count, ha.archived⟩

theorem Record.WF.promoteOldState {r : Record} (h : r.WF) (i : Nat) {s : SState} (hs : s.WF) : (r.promoteOldState i s).WF := by
  unfold Record.promoteOldState
  split
  · exact h
  · refine Record.WF.promoteState ?_ hs
    refine ⟨h.current, ?_, ?_⟩
    · have := h.count
      simp only [List.length_append, List.length_take, List.length_drop]; omega
    · intro b hb
      rcases List.mem_append.mp hb with hb | hb
      · exact h.archived b (List.mem_of_mem_take hb)
      · exact h.archived b (List.mem_of_mem_drop hb)

theorem Record.WF.decrypt {C : Crypto} {r r' : Record} {m : Signal} {rd rd' p : Bytes} (h : r.WF)
    (hd : decryptRecord C r m rd = (.ok (p, r'), rd')) : r'.WF := by
  rcases decryptRecord_ok hd with ⟨s, s', hc, h1, rfl⟩ | ⟨prev, idx, s, s', rd1, rd2, hp, hi, h1, hrd, rfl⟩
  · exact h.setSessionState ((h.current s hc).decrypt h1)
  · obtain ⟨l, hl, _, hl2⟩ := h.states
    rw [hp] at hl2
    simp only [Res.ok.injEq] at hl2
    subst hl2
    exact h.promoteOldState idx ((hl s (List.mem_of_getElem? hi)).decrypt h1)

/-! ## Set-up -/

theorem initializeBob_ok {C : Crypto} {p : BobParameters} {s : SState} (h : initializeBobSession C p = .ok s) :
    ∃ signed ratchet dh1 dh2 dh3 dh4, p.ourSignedPreKeyPair = some signed ∧ p.ourRatchetKeyPair = some ratchet ∧
      signed.priv.agreement C p.theirIdentityKey = .ok dh1 ∧ p.ourIdentityKeyPair.priv.agreement C p.theirBaseKey = .ok dh2 ∧
      signed.priv.agreement C p.theirBaseKey = .ok dh3 ∧
      (match p.ourOneTimePreKeyPair with | some k => k.priv.agreement C p.theirBaseKey | none => .ok []) = .ok dh4 ∧
      ∃ rk ck, deriveKeys C (discontinuityBytes ++ dh1 ++ dh2 ++ dh3 ++ dh4) = .ok (rk, ck) ∧
        s = ({ sessionVersion := ciphertextVersion, localIdentityPublic := p.ourIdentityKeyPair.pub.bytes, remoteIdentityPublic := p.theirIdentityKey.bytes, rootKey := rk.key } : SState).setSenderChain ratchet ck := by
  unfold initializeBobSession at h
  simp only [Res.bind_eq_ok] at h
  obtain ⟨signed, h0, dh1, h1, dh2, h2, dh3, h3, h⟩ := h
  obtain ⟨dh4, h4, ⟨rk, ck⟩, h5, ratchet, h6, h7⟩ : ∃ dh4,
      (match p.ourOneTimePreKeyPair with | some k => k.priv.agreement C p.theirBaseKey | none => .ok []) = .ok dh4 ∧
      ∃ a, deriveKeys C (discontinuityBytes ++ dh1 ++ dh2 ++ dh3 ++ dh4) = .ok a ∧ ∃ ratchet, deref p.ourRatchetKeyPair = .ok ratchet ∧
        Res.ok (({ sessionVersion := ciphertextVersion, localIdentityPublic := p.ourIdentityKeyPair.pub.bytes, remoteIdentityPublic := p.theirIdentityKey.bytes, rootKey := a.1.key } : SState).setSenderChain ratchet a.2) = .ok s := by
    cases ho : p.ourOneTimePreKeyPair with
    | none => simp only [ho, Res.bind_eq_ok] at h; exact h
    | some k => simp only [ho, Res.bind_eq_ok] at h; exact h
  simp only [Res.ok.injEq] at h7
  refine ⟨signed, ratchet, dh1, dh2, dh3, dh4, ?_, ?_, h1, h2, h3, h4, rk, ck, h5, h7.symm⟩
  · cases hs : p.ourSignedPreKeyPair <;> simp [hs, deref] at h0; rw [h0]
  · cases hs : p.ourRatchetKeyPair <;> simp [hs, deref] at h6; rw [h6]

theorem Processed.WF {E : Env} {w : World} {r r' : Record} {m : PreKeyMsg} {id : Option UInt32} (h : r.WF)
    (hp : Processed E w r m id r') : r'.WF := by
  cases hp with
  | found _ => exact h
  | fresh hf signed oneTime s hs ho hi s' hs' =>
    refine h.promoteState ?_
    obtain ⟨sg, rt, d1, d2, d3, d4, _, _, _, _, _, _, rk, ck, hk, rfl⟩ := initializeBob_ok hi
    rw [deriveKeys_ok] at hk
    simp only [Res.ok.injEq, Prod.mk.injEq] at hk
    obtain ⟨rfl, rfl⟩ := hk
    subst hs'
    exact ⟨rfl, ⟨_, rfl⟩, ⟨_, rfl⟩, by simp [SState.setSenderChain, E.C.hkdf_len],
      ⟨_, rfl, ⟨_, rfl⟩, ⟨_, rfl⟩, ⟨⟨_, 0⟩, rfl, by simp [E.C.hkdf_len]⟩, rfl⟩, by simp [SState.setSenderChain],
      by simp [SState.setSenderChain], by simp [SState.setSenderChain], by simp [SState.setSenderChain], ⟨_, rfl⟩⟩

theorem initializeAlice_ok {C : Crypto} {p : AliceParameters} {rd rd' : Bytes} {s : SState}
    (h : initializeAliceSession C p rd = (.ok s, rd')) :
    ∃ kp dh1 dh2 dh3 dh4, generateKeyPair C rd = (.ok kp, rd') ∧
      p.ourIdentityKeyPair.priv.agreement C p.theirSignedPreKey = .ok dh1 ∧
      p.ourBaseKeyPair.priv.agreement C p.theirIdentityKey = .ok dh2 ∧
      p.ourBaseKeyPair.priv.agreement C p.theirSignedPreKey = .ok dh3 ∧
      (match p.theirOneTimePreKey with | some k => p.ourBaseKeyPair.priv.agreement C k | none => .ok []) = .ok dh4 ∧
      ∃ rk ck, deriveKeys C (discontinuityBytes ++ dh1 ++ dh2 ++ dh3 ++ dh4) = .ok (rk, ck) ∧
      ∃ sr sc, rk.createChain C kp.priv p.theirRatchetKey = .ok (sr, sc) ∧
        s = (({ sessionVersion := ciphertextVersion, localIdentityPublic := p.ourIdentityKeyPair.pub.bytes, remoteIdentityPublic := p.theirIdentityKey.bytes, rootKey := sr.key } : SState).addReceiverChain p.theirRatchetKey ck).setSenderChain kp sc := by
  unfold initializeAliceSession at h
  rw [M.bind_eq_ok] at h
  obtain ⟨kp, rd1, h0, h⟩ := h
  simp only [M.lift_run, Prod.mk.injEq] at h
  obtain ⟨h, rfl⟩ := h
  simp only [Res.bind_eq_ok] at h
  obtain ⟨dh1, h1, dh2, h2, dh3, h3, h⟩ := h
  obtain ⟨dh4, h4, ⟨rk, ck⟩, h5, ⟨sr, sc⟩, h6, h7⟩ : ∃ dh4,
      (match p.theirOneTimePreKey with | some k => p.ourBaseKeyPair.priv.agreement C k | none => .ok []) = .ok dh4 ∧
      ∃ a, deriveKeys C (discontinuityBytes ++ dh1 ++ dh2 ++ dh3 ++ dh4) = .ok a ∧
        ∃ b, a.1.createChain C kp.priv p.theirRatchetKey = .ok b ∧
        Res.ok ((({ sessionVersion := ciphertextVersion, localIdentityPublic := p.ourIdentityKeyPair.pub.bytes, remoteIdentityPublic := p.theirIdentityKey.bytes, rootKey := b.1.key } : SState).addReceiverChain p.theirRatchetKey a.2).setSenderChain kp b.2) = .ok s := by
    cases ho : p.theirOneTimePreKey with
    | none => simp only [ho, Res.bind_eq_ok] at h; exact h
    | some k => simp only [ho, Res.bind_eq_ok] at h; exact h
  simp only [Res.ok.injEq] at h7
  exact ⟨kp, dh1, dh2, dh3, dh4, h0, h1, h2, h3, h4, rk, ck, h5, sr, sc, h6, h7.symm⟩

theorem FromBundle.WF {E : Env} {w : World} {b : Bundle} {s : SState} {rd : Bytes} (h : FromBundle E w b s rd) : s.WF := by
  obtain ⟨base, rd1, _, s0, hb, hi, _, rfl⟩ := h
  obtain ⟨kp, d1, d2, d3, d4, _, _, _, _, _, rk, ck, hk, sr, sc, hc, rfl⟩ := initializeAlice_ok hi
  obtain ⟨hl1, hl2, _⟩ := RootKey.createChain_ok hc
  have hl3 : ck.key.length = 32 := by
    rw [deriveKeys_ok] at hk
    simp only [Res.ok.injEq, Prod.mk.injEq] at hk
    rw [← hk.2]
    simp [E.C.hkdf_len]
  refine ⟨rfl, ⟨_, rfl⟩, ⟨_, rfl⟩, hl1, ⟨_, rfl, ⟨_, rfl⟩, ⟨_, rfl⟩, ⟨sc, rfl, hl2⟩, rfl⟩, ?_, ?_, ?_, ?_, ⟨_, rfl⟩⟩
  · simp [SState.setUnacknowledgedPreKeyMessage, SState.setSenderChain, SState.addReceiverChain, maxReceiverChains]
  · simp only [SState.setUnacknowledgedPreKeyMessage, SState.setSenderChain, SState.addReceiverChain, maxReceiverChains, List.nil_append,
      List.length_singleton, Nat.reduceGT, if_false, gt_iff_lt, Nat.reduceLT, List.mem_singleton]
    rintro c rfl
    exact fresh_chain_WF _ ck hl3
  · simp [SState.setUnacknowledgedPreKeyMessage, SState.setSenderChain, SState.addReceiverChain, maxReceiverChains]
  · simp only [SState.setUnacknowledgedPreKeyMessage, SState.setSenderChain, SState.addReceiverChain, Option.some.injEq]
    rintro q rfl
    exact ⟨_, rfl⟩

end Verif
