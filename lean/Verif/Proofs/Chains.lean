import Verif.Proofs.Cipher

/-!
How receiving chains change when a message is decrypted.
-/

namespace Verif

attribute [local irreducible] maxMessageKeys

/-- The state after the ratchet step for a new ratchet key. -/
def ratcheted (s : SState) (eph : PubKey) (ck : ChainKey) (kp : KeyPair) (sRoot : RootKey) (sCk : ChainKey) (prev : UInt32) : SState :=
  { ({ s with rootKey := sRoot.key } : SState).addReceiverChain eph ck with previousCounter := prev }.setSenderChain kp sCk

/-- How a receiving chain `c` at chain key `ck` changes when counter `n` is taken from it. -/
inductive ChainTaken (C : Crypto) (c : PBChain) (ck : ChainKey) (n : UInt32) : MessageKeys → PBChain → Prop
  /-- a stored key -/
  | stored (hlt : n.toNat < ck.index.toNat) (mk : MessageKeys) (hn : mk.counter = n) (hmk : mk.toPB ∈ c.messageKeys) :
      ChainTaken C c ck n mk (c.withKeys (c.messageKeys.filter fun k => k.index ≠ n))
  /-- the chain moves on -/
  | ahead (hle : ck.index.toNat ≤ n.toNat) :
      ChainTaken C c ck n ((chainIter C ck (n.toNat - ck.index.toNat)).messageKeys C)
        { c with messageKeys := lastN maxMessageKeys (c.messageKeys ++ skipped C ck (n.toNat - ck.index.toNat)), chainKey := some (chainIter C ck (n.toNat - ck.index.toNat)).toPB }

theorem messageKeysFor_taken {C : Crypto} {s s' : SState} {eph : PubKey} {ck : ChainKey} {n : UInt32} {mk : MessageKeys}
    (h : s.WF) (hck : s.receiverChainKey eph = .ok (some ck)) (hm : messageKeysFor C s eph ck n = .ok (mk, s')) :
    ∃ i c c', s.receiverChain eph = some (i, c) ∧ c.chainKey = some ck.toPB ∧ ChainTaken C c ck n mk c' ∧
      s' = { s with receiverChains := s.receiverChains.set i c' } := by
  cases hc : s.receiverChain eph with
  | none => simp [SState.receiverChainKey, hc] at hck
  | some x =>
    obtain ⟨i, c⟩ := x
    have hcw := h.chainWF c (SState.receiverChain_mem hc)
    obtain ⟨ck', hck', hlen, hlt⟩ := hcw.chain
    have e : ck' = ck := by
      rw [PBChain.WF.receiverChainKey hc hck' hlen] at hck
      simpa using hck
    subst e
    by_cases hgt : ck'.index > n
    · rw [messageKeysFor_old C s eph ck' n i c hc hgt] at hm
      cases hg : (c.messageKeys.filter fun k => k.index = n).getLast? with
      | none => simp [hg] at hm
      | some k =>
        have hk := List.mem_of_getLast? hg
        rw [List.mem_filter] at hk
        obtain ⟨hk1, hk2⟩ := hk
        simp only [decide_eq_true_eq] at hk2
        obtain ⟨l1, l2, l3⟩ := hcw.sizes k hk1
        simp only [hg, Res.bind_eq_ok, Res.ok.injEq, Prod.mk.injEq] at hm
        obtain ⟨mk', hmk', rfl, rfl⟩ := hm
        have : mk' = ⟨k.cipherKey, k.macKey, k.iv, n⟩ := by
          simpa [newMessageKeys, l1, l2, l3, eq_comm] using hmk'
        subst this
        rw [gt_iff_lt, UInt32.lt_iff_toNat_lt] at hgt
        refine ⟨i, c, _, rfl, hck', .stored hgt _ rfl ?_, rfl⟩
        have : (MessageKeys.toPB ⟨k.cipherKey, k.macKey, k.iv, n⟩) = k := by
          cases k; simp only [MessageKeys.toPB] at hk2 ⊢; rw [hk2]
        rw [this]; exact hk1
    · have hj : ¬ (n - ck'.index > maxJumps) ∨ s.sessionWithSelf = .ok true := by
        rcases Classical.em (n - ck'.index > maxJumps) with hj | hj
        · rcases Classical.em (s.sessionWithSelf = .ok true) with hs | hs
          · exact .inr hs
          · exact absurd hm (messageKeysFor_far C s eph ck' n hgt hj hs _)
        · exact .inl hj
      rw [messageKeysFor_new C s eph ck' n i c hc hcw.count hgt hj] at hm
      simp only [Res.ok.injEq, Prod.mk.injEq] at hm
      obtain ⟨rfl, rfl⟩ := hm
      have hle : ck'.index.toNat ≤ n.toNat := by
        rw [gt_iff_lt, UInt32.lt_iff_toNat_lt] at hgt; omega
      exact ⟨i, c, _, rfl, hck', .ahead hle, rfl⟩

/-- What a successful decryption does to the state. -/
structure Decrypted (C : Crypto) (s : SState) (m : Signal) (rd p : Bytes) (s' : SState) (rd' : Bytes) : Prop where
  version : m.version = 3
  shape : ∃ (s1 : SState) (i : Nat) (c c' : PBChain) (ck : ChainKey) (mk : MessageKeys) (rk lk : PubKey),
    chainKeyFor C s m.senderRatchetKey rd = (.ok (ck, s1), rd') ∧ s1.WF ∧
    s1.receiverChain m.senderRatchetKey = some (i, c) ∧ c.chainKey = some ck.toPB ∧ ChainTaken C c ck m.counter mk c' ∧
    s.remoteIdentityPublic = rk.bytes ∧ s.localIdentityPublic = lk.bytes ∧ Opens C mk rk lk m p ∧
    s' = { s1 with receiverChains := s1.receiverChains.set i c', pendingPreKey := none }

theorem SState.WF.chainKeyFor_ids {C : Crypto} {s s1 : SState} (h : s.WF) {eph : PubKey} {rd rd' : Bytes} {ck : ChainKey}
    (hx : Verif.chainKeyFor C s eph rd = (.ok (ck, s1), rd')) :
    s1.localIdentityPublic = s.localIdentityPublic ∧ s1.remoteIdentityPublic = s.remoteIdentityPublic ∧ s1.position eph = s.position eph := by
  rcases chainKeyFor_cases (C := C) h eph rd with ⟨ck', s1', rd'', h1', hl, hr, hp⟩ | ⟨_, e, rd'', h1', _⟩
  · rw [hx] at h1'
    simp only [Prod.mk.injEq, Res.ok.injEq] at h1'
    obtain ⟨⟨rfl, rfl⟩, rfl⟩ := h1'
    exact ⟨hl, hr, hp⟩
  · rw [hx] at h1'; simp at h1'

theorem decrypted_shape {C : Crypto} {s s' : SState} {m : Signal} {rd rd' p : Bytes} (h : s.WF)
    (hd : decryptMessageSession C s m rd = (.ok (p, s'), rd')) : Decrypted C s m rd p s' rd' := by
  obtain ⟨_, hv, ck, s1, mk, s2, rk, lk, h1, h2, h3, h4, h5, h6, rfl⟩ := decryptMessageSession_ok hd
  have hv3 : m.version = 3 := by
    rw [h.versionEq] at hv
    have := congrArg UInt32.toNat hv
    simp only [UInt8.toNat_toUInt32] at this
    exact UInt8.toNat_inj.mp this
  obtain ⟨hw, hck⟩ := h.chainKeyFor h1
  obtain ⟨hl, hr, _⟩ := h.chainKeyFor_ids h1
  obtain ⟨i, c, c', e1, e2, e3, rfl⟩ := messageKeysFor_taken hw hck h2
  obtain ⟨lk', hlk⟩ := h.localId
  obtain ⟨rk', hrk⟩ := h.remoteId
  rw [SState.remoteIdentityKey_bytes (k := rk') (by exact hr.trans hrk)] at h3
  rw [SState.localIdentityKey_bytes (k := lk') (by exact hl.trans hlk)] at h4
  simp only [Res.ok.injEq, Option.some.injEq] at h3 h4
  subst h3 h4
  exact ⟨hv3, s1, i, c, c', ck, mk, rk', lk', h1, hw, e1, e2, e3, hrk, hlk, ⟨hv3, h5, h6⟩, rfl⟩

/-- The chains of the state in which message keys are looked up: the old ones, or with a new one added. -/
theorem chainKeyFor_chains {C : Crypto} {s s1 : SState} {eph : PubKey} {rd rd' : Bytes} {ck : ChainKey}
    (h : chainKeyFor C s eph rd = (.ok (ck, s1), rd')) :
    (s1 = s ∧ rd' = rd) ∨ (s.receiverChainKey eph = .ok none ∧ ∀ c ∈ s1.receiverChains, c ∈ s.receiverChains ∨ c.senderRatchetKey = eph.bytes) := by
  rcases chainKeyFor_ok h with ⟨_, rfl, rfl⟩ | ⟨h1, root, ours, rRoot, kp, sRoot, sCk, cur, _, _, _, _, _, _, rfl⟩
  · exact .inl ⟨rfl, rfl⟩
  · refine .inr ⟨h1, ?_⟩
    intro c hc
    simp only [SState.setSenderChain, SState.addReceiverChain] at hc
    have : c ∈ s.receiverChains ++ [{ senderRatchetKey := eph.bytes, chainKey := some { index := ck.index, key := ck.key } }] := by
      split at hc
      · exact List.mem_of_mem_drop hc
      · exact hc
    rcases List.mem_append.mp this with hc | hc
    · exact .inl hc
    · simp only [List.mem_singleton] at hc; subst hc; exact .inr rfl

theorem SState.WF.step {C : Crypto} {s : SState} (h : s.WF) (ev : SEvent) : (s.step C ev).WF := by
  cases ev with
  | send pt =>
    simp only [SState.step]
    cases he : encryptState C s pt with
    | ok o => exact h.encrypt he
    | err e => exact h
    | panic => exact h
  | receive m rd =>
    simp only [SState.step]
    rcases hd : decryptMessageSession C s m rd with ⟨r, rd'⟩
    cases r with
    | ok o => exact h.decrypt hd
    | err e => exact h
    | panic => exact h

theorem same_chain {l : List PBChain} (h : l.Pairwise fun a b => a.senderRatchetKey ≠ b.senderRatchetKey) {a b : PBChain}
    (ha : a ∈ l) (hb : b ∈ l) (he : a.senderRatchetKey = b.senderRatchetKey) : a = b := by
  induction l with
  | nil => simp at ha
  | cons x l ih =>
    rw [List.pairwise_cons] at h
    rcases List.mem_cons.mp ha with rfl | ha'
    · rcases List.mem_cons.mp hb with rfl | hb'
      · rfl
      · exact absurd he (h.1 b hb')
    · rcases List.mem_cons.mp hb with rfl | hb'
      · exact absurd he.symm (h.1 a ha')
      · exact ih h.2 ha' hb'

theorem SState.WF.receiverChain_of_mem {s : SState} (h : s.WF) {k : PubKey} {c : PBChain} (hc : c ∈ s.receiverChains)
    (hk : c.senderRatchetKey = k.bytes) : ∃ i, s.receiverChain k = some (i, c) := by
  obtain ⟨i, d, hd⟩ := SState.findChain_exists 0 hc hk
  have hd' : s.receiverChain k = some (i, d) := hd
  have := same_chain h.distinct hc (SState.receiverChain_mem hd') (hk.trans (SState.receiverChain_some hd').2.symm)
  subst this
  exact ⟨i, hd'⟩

theorem ChainTaken.ratchet {C : Crypto} {c c' : PBChain} {ck : ChainKey} {n : UInt32} {mk : MessageKeys} (h : ChainTaken C c ck n mk c') :
    c'.senderRatchetKey = c.senderRatchetKey := by cases h <;> rfl

/-- A spent counter of a chain stays spent. -/
theorem ChainTaken.spent {C : Crypto} {c c' : PBChain} {ck : ChainKey} {n j : UInt32} {mk : MessageKeys} (h : ChainTaken C c ck n mk c')
    (hck : c.chainKey = some ck.toPB) (hj : j < ck.index) (hk : ∀ k ∈ c.messageKeys, k.index ≠ j) :
    (∃ ck', c'.chainKey = some ck' ∧ j < ck'.index) ∧ ∀ k ∈ c'.messageKeys, k.index ≠ j := by
  cases h with
  | stored hlt mk hn hmk => exact ⟨⟨_, hck, hj⟩, fun k h => hk k (List.mem_filter.mp h).1⟩
  | ahead hle =>
    have hn : n.toNat < 4294967296 := n.toNat_lt
    rw [UInt32.lt_iff_toNat_lt] at hj
    have hix : ∀ i, i ≤ n.toNat - ck.index.toNat → (chainIter C ck i).index.toNat = ck.index.toNat + i := by
      intro i hi; exact chainIter_toNat C ck i (by omega)
    refine ⟨⟨_, rfl, ?_⟩, ?_⟩
    · rw [UInt32.lt_iff_toNat_lt]
      have := hix _ (Nat.le_refl _)
      simp only [ChainKey.toPB]; omega
    · intro k h
      rcases List.mem_append.mp (lastN_mem h) with h | h
      · exact hk k h
      · obtain ⟨i, hi, rfl⟩ := skipped_mem h
        intro e
        rw [toPB_index] at e
        have := hix i (by omega)
        rw [e] at this
        omega

theorem SState.setSenderChainKey_chains (s : SState) (ck : ChainKey) : (s.setSenderChainKey ck).receiverChains = s.receiverChains := by
  unfold SState.setSenderChainKey
  cases s.senderChain <;> rfl

theorem SState.Spent.step {C : Crypto} {s : SState} (h : s.WF) {k : PubKey} {n : UInt32} (hs : s.Spent k n) (ev : SEvent)
    (hc : (s.step C ev).HasChain k) : (s.step C ev).Spent k n := by
  cases ev with
  | send pt =>
    simp only [SState.step] at hc ⊢
    obtain ⟨c, ck, eph, lk, rk, msg, _, _, _, _, _, _, _, _, _, _, _, out, he, _⟩ := h.encrypts C pt
    rw [he] at hc ⊢
    obtain ⟨c0, h0, h1⟩ := hs
    refine ⟨c0, ?_, h1⟩
    simp only [SState.setSenderChainKey_chains]
    exact h0
  | receive m rd =>
    simp only [SState.step] at hc ⊢
    rcases hd : decryptMessageSession C s m rd with ⟨r, rd'⟩
    rw [hd] at hc
    cases r with
    | err e => exact hs
    | panic => exact hs
    | ok o =>
    obtain ⟨p, s'⟩ := o
    simp only at hc ⊢
    obtain ⟨_, s1, i, c, c', ck, mk, rk, lk, h1, hw1, hrc, hck, ht, _, _, _, rfl⟩ := decrypted_shape h hd
    obtain ⟨c0, h0, hk0, ⟨ck0, hck0, hlt0⟩, hno⟩ := hs
    obtain ⟨hci, hce⟩ := SState.receiverChain_some hrc
    have hlen : i < s1.receiverChains.length := by
      rw [List.getElem?_eq_some_iff] at hci; exact hci.1
    by_cases hkk : k = m.senderRatchetKey
    · subst hkk
      rcases chainKeyFor_chains h1 with ⟨rfl, rfl⟩ | ⟨hn, _⟩
      · have hcc := same_chain h.distinct h0 (SState.receiverChain_mem hrc) (hk0.trans hce.symm)
        subst hcc
        rw [hck] at hck0
        simp only [Option.some.injEq] at hck0
        subst hck0
        obtain ⟨h3, h4⟩ := ht.spent hck hlt0 hno
        exact ⟨c', List.mem_set hlen c', ht.ratchet.trans hce, h3, h4⟩
      · have := h.receiverChainKey_none hn
        obtain ⟨j, hj⟩ := h.receiverChain_of_mem h0 hk0
        rw [hj] at this; simp at this
    · have hne : m.senderRatchetKey.bytes ≠ k.bytes := fun e => hkk (PubKey.bytes_inj e).symm
      obtain ⟨d, hd1, hd2⟩ := hc
      simp only at hd1
      have hd3 : d ∈ s1.receiverChains := by
        rcases List.mem_or_eq_of_mem_set hd1 with hd1 | rfl
        · exact hd1
        · exact absurd ((ht.ratchet.trans hce).symm.trans hd2) hne
      have hd4 : d ∈ s.receiverChains := by
        rcases chainKeyFor_chains h1 with ⟨rfl, _⟩ | ⟨_, hsub⟩
        · exact hd3
        · rcases hsub d hd3 with hd4 | hd4
          · exact hd4
          · exact absurd (hd4.symm.trans hd2) hne
      have := same_chain h.distinct hd4 h0 (hd2.trans hk0.symm)
      subst this
      exact ⟨d, hd1, hd2, ⟨ck0, hck0, hlt0⟩, hno⟩

theorem SState.Spent.rejected {C : Crypto} {s : SState} (h : s.WF) {m : Signal} (hs : s.Spent m.senderRatchetKey m.counter)
    (hv : m.version = 3) (rd : Bytes) : decryptMessageSession C s m rd = (.err .duplicateMessage, rd) := by
  obtain ⟨c0, h0, hk0, ⟨ck0, hck0, hlt0⟩, hno⟩ := hs
  obtain ⟨i, hi⟩ := h.receiverChain_of_mem h0 hk0
  obtain ⟨ck, hck, hl, _⟩ := (h.chainWF c0 h0).chain
  have : ck.toPB = ck0 := by rw [hck] at hck0; simpa using hck0
  subst this
  have hkey := PBChain.WF.receiverChainKey hi hck hl
  have hold := messageKeysFor_old C s m.senderRatchetKey ck m.counter i c0 hi hlt0
  have hnil : (c0.messageKeys.filter fun k => k.index = m.counter) = [] := by
    rw [List.filter_eq_nil_iff]
    intro k hk
    simpa using hno k hk
  rw [hnil] at hold
  obtain ⟨sc, hsc, _⟩ := h.sender
  unfold decryptMessageSession
  rw [hsc]
  have hvv : ¬ (m.version.toUInt32 ≠ s.version) := by rw [hv, h.versionEq]; decide
  simp only
  rw [if_neg hvv, M.bind_ok_run (chainKeyFor_known rd hkey)]
  simp only
  rw [M.lift_run, hold]
  rfl

theorem SState.Spent.of_decrypted {C : Crypto} {s s' : SState} {m : Signal} {rd rd' p : Bytes} (h : s.WF)
    (hd : decryptMessageSession C s m rd = (.ok (p, s'), rd')) (hlt : m.counter.toNat < s.position m.senderRatchetKey) :
    s'.Spent m.senderRatchetKey m.counter := by
  have hrec := h.decrypted_received hd
  obtain ⟨_, s1, i, c, c', ck, mk, rk, lk, h1, hw1, hrc, hck, ht, _, _, _, rfl⟩ := decrypted_shape h hd
  obtain ⟨_, _, hpos⟩ := h.chainKeyFor_ids h1
  rw [← hpos, SState.position_some hrc hck] at hlt
  obtain ⟨hci, hce⟩ := SState.receiverChain_some hrc
  have hlen : i < s1.receiverChains.length := by
    rw [List.getElem?_eq_some_iff] at hci; exact hci.1
  cases ht with
  | ahead hle => omega
  | stored hlt' mk hn hmk =>
    refine ⟨_, List.mem_set hlen _, hce, ⟨_, hck, ?_⟩, ?_⟩
    · rw [UInt32.lt_iff_toNat_lt]; exact hlt'
    · intro k hk
      simpa using (List.mem_filter.mp hk).2

end Verif
