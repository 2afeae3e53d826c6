import Verif.Proofs.Ladder
import Verif.Proofs.Protocol

/-!
How a party's view of the ladder changes when it sends and receives.
-/

namespace Verif

attribute [local irreducible] maxMessageKeys

variable {C : Crypto} {L : Nat → Rung} {x n t : Nat} {lk rk : PubKey} {got : List (PubKey × UInt32)} {s s' : SState}

/-! ## Sending -/

theorem ChainKey.toPB_inj {a b : ChainKey} (h : a.toPB = b.toPB) : a = b := by
  simp only [ChainKey.toPB, PBChainKey.mk.injEq] at h
  cases a; cases b; simp_all

/-- The next message of a party, and its view afterwards. -/
theorem View.send (h : View C L x lk rk got n s) (pt : Bytes) :
    ∃ (msg : Signal) (out : Ciphertext) (s' : SState), encryptState C s pt = .ok (out, s', rk) ∧
      Opens C ((chainIter C (L x).ck n).messageKeys C) lk rk msg pt ∧ msg.senderRatchetKey = (L x).kp.pub ∧
      msg.counter = (chainIter C (L x).ck n).index ∧
      (pt.length + 16 < 2 ^ 64 → newSignalFromBytes msg.serialized = .ok msg ∧ msg.serialized.length ≤ pt.length + 138) ∧
      ((s.pendingPreKey = none ∧ out = .signal msg) ∨
        ∃ p base, s.pendingPreKey = some p ∧ p.baseKey = base.bytes ∧
          out = .preKey (newPreKey 3 s.localRegistrationId (if p.preKeyId ≠ 0 then some p.preKeyId else none)
            p.signedPreKeyId.toUInt32 base lk msg)) ∧
      View C L x lk rk got (n + 1) s' ∧ s'.pendingPreKey = s.pendingPreKey ∧ s'.aliceBaseKey = s.aliceBaseKey ∧
      s'.localRegistrationId = s.localRegistrationId ∧
      ((L x).ck.index = 0 → n < 4294967296 → pt.length < 2 ^ 62 →
        msg.serialized = Doc.signalMessage C (L x).ck.key (L x).kp.pub (UInt32.ofNat n) (L x).prev lk rk pt) := by
  obtain ⟨c, ck, eph, lk', rk', msg, h1, h2, h3, h4, h5, h6, h7, h8, h9, h10, ⟨ct, hct, hmk⟩, out, h11, h12⟩ := h.wf.encrypts C pt
  obtain ⟨c', e1, e2, e3, e4⟩ := h.sender
  rw [h1] at e1
  simp only [Option.some.injEq] at e1
  subst e1
  have hck : ck = chainIter C (L x).ck n := by
    rw [h2] at e4
    simp only [Option.some.injEq] at e4
    exact ChainKey.toPB_inj e4
  have heph : eph = (L x).kp.pub := PubKey.bytes_inj (h4.symm.trans e2)
  have hlk : lk' = lk := PubKey.bytes_inj (h5.symm.trans h.loc)
  have hrk : rk' = rk := PubKey.bytes_inj (h6.symm.trans h.rem)
  subst hck heph hlk hrk
  have hset : s.setSenderChainKey (ChainKey.next C (chainIter C (L x).ck n)) =
      { s with senderChain := some { c with chainKey := some (ChainKey.next C (chainIter C (L x).ck n)).toPB } } := by
    simp only [SState.setSenderChainKey, h1]
    rfl
  refine ⟨msg, out, _, h11, h7, h8, h9, h10, h12, ⟨h.wf.encrypt h11, ?_, ?_, ?_, ?_, ?_, ?_, ?_⟩, ?_, ?_, ?_, fun hz hn hpt => Doc.newSignal_bytes hz hn hpt hct (h.prev ▸ hmk)⟩ <;> rw [hset]
  · exact h.loc
  · exact h.rem
  · exact h.root
  · exact h.prev
  · exact ⟨_, rfl, e2, e3, rfl⟩
  · exact h.chains
  · exact h.each

/-! ## Looking up chains -/

theorem View.key_of_chain (h : View C L x lk rk got n s) {c : PBChain} (hc : c ∈ s.receiverChains) :
    ∃ e, e < x ∧ c.senderRatchetKey = (L e).kp.pub.bytes := by
  have : c.senderRatchetKey ∈ s.receiverChains.map (·.senderRatchetKey) := List.mem_map_of_mem hc
  rw [h.chains] at this
  have := lastN_mem this
  rw [List.mem_map] at this
  obtain ⟨r, hr, he⟩ := this
  obtain ⟨e, hlt, rfl⟩ := peers_mem hr
  exact ⟨e, hlt, he.symm⟩

theorem View.lookup_none (h : View C L x lk rk got n s) (hl : Ladder C L t) (hx : x + 1 ≤ t) :
    s.receiverChain (L (x + 1)).kp.pub = none := by
  refine SState.findChain_none.mpr ?_
  intro c hc he
  obtain ⟨e, hlt, hk⟩ := h.key_of_chain hc
  have := hl.distinct e (x + 1) (by omega) hx (PubKey.bytes_inj (hk.symm.trans he))
  omega

theorem View.lookup_some (h : View C L x lk rk got n s) {k : PubKey} (hk : k ∈ lastN 5 ((peers L x).map fun r => r.kp.pub)) :
    ∃ i c, s.receiverChain k = some (i, c) := by
  have : k.bytes ∈ s.receiverChains.map (·.senderRatchetKey) := by
    rw [h.chains]
    have : (peers L x).map (fun r => r.kp.pub.bytes) = ((peers L x).map fun r => r.kp.pub).map PubKey.bytes := by simp
    rw [this]
    unfold lastN
    rw [List.length_map, ← List.map_drop]
    exact List.mem_map_of_mem hk
  rw [List.mem_map] at this
  obtain ⟨c, hc, he⟩ := this
  obtain ⟨j, c', hj⟩ := SState.findChain_exists 0 hc he
  exact ⟨j, c', hj⟩

/-! ## Receiving -/

theorem Holds.other {ck : ChainKey} {k k' : PubKey} {c : PBChain} {m : UInt32} (h : Holds C ck got k c) (hne : k' ≠ k) :
    Holds C ck (got ++ [(k', m)]) k c := by
  have hn : newestUnder (got ++ [(k', m)]) k = newestUnder got k := by rw [newestUnder_append, if_neg hne]
  refine ⟨by rw [hn]; exact h.key, h.stored, ?_, ?_⟩
  · intro j hj hg hr
    rw [hn] at hj hr
    exact h.kept j hj (fun hm => hg (List.mem_append_left _ hm)) hr
  · intro ho
    rw [hn]
    exact h.full ho.init

/-- Taking a message key from one chain. -/
theorem View.taken (h : View C L x lk rk got n s) (hl : Ladder C L t) (hx : x ≤ t) {k : PubKey} {i : Nat} {c c' : PBChain} {ck : ChainKey} {m : UInt32} {mk : MessageKeys}
    (hw' : SState.WF { s with receiverChains := s.receiverChains.set i c', pendingPreKey := none })
    (hc : s.receiverChain k = some (i, c)) (hck : c.chainKey = some ck.toPB) (ht : ChainTaken C c ck m mk c') :
    ∃ e, e < x ∧ k = (L e).kp.pub ∧ mk = (chainIter C (L e).ck m.toNat).messageKeys C ∧
      View C L x lk rk (got ++ [(k, m)]) n { s with receiverChains := s.receiverChains.set i c', pendingPreKey := none } := by
  have hmem := SState.receiverChain_mem hc
  obtain ⟨hi, hkey⟩ := SState.receiverChain_some hc
  obtain ⟨e, hlt, he⟩ := h.key_of_chain hmem
  have hk : k = (L e).kp.pub := PubKey.bytes_inj (hkey.symm.trans he)
  subst hk
  have hh := h.each c hmem e hlt he
  obtain ⟨h1, h2⟩ := hh.take (hl.chain e (by omega)).2 (h.wf.chainWF c hmem) hck ht
  have hkey' : c'.senderRatchetKey = c.senderRatchetKey := ht.ratchet
  refine ⟨e, hlt, rfl, h1, hw', h.loc, h.rem, h.root, h.prev, h.sender, ?_, ?_⟩
  · show (s.receiverChains.set i c').map _ = _
    rw [List.map_set, hkey', ← h.chains]
    apply set_getElem?
    rw [List.getElem?_map, hi]
    rfl
  · intro d hd f hf hdk
    have hd : d ∈ s.receiverChains.set i c' := hd
    rw [List.mem_iff_getElem?] at hd
    obtain ⟨j, hj⟩ := hd
    rw [List.getElem?_set] at hj
    by_cases hij : i = j
    · rw [if_pos hij] at hj
      split at hj
      · simp only [Option.some.injEq] at hj
        subst hj
        have : f = e := hl.distinct f e (by omega) (by omega) (PubKey.bytes_inj (hdk.symm.trans (hkey'.trans he)))
        subst this
        exact h2
      · simp at hj
    · rw [if_neg hij] at hj
      have hdm : d ∈ s.receiverChains := List.mem_of_getElem? hj
      refine (h.each d hdm f hf hdk).other ?_
      intro hff
      have hpair := h.wf.distinct
      have hne : c.senderRatchetKey ≠ d.senderRatchetKey := by
        rw [List.pairwise_iff_getElem] at hpair
        obtain ⟨hi1, hi2⟩ := List.getElem?_eq_some_iff.mp hi
        obtain ⟨hj1, hj2⟩ := List.getElem?_eq_some_iff.mp hj
        rcases Nat.lt_or_gt_of_ne hij with hlt | hgt
        · have := hpair i j hi1 hj1 hlt
          rw [hi2, hj2] at this; exact this
        · have := hpair j i hj1 hi1 hgt
          rw [hi2, hj2] at this; exact this.symm
      exact hne (by rw [he, hdk, hff])

/-- The ratchet step for the next rung. -/
theorem View.ratchet (h : View C L x lk rk got n s) (hl : Ladder C L (x + 1)) (hgot : ∀ p ∈ got, p.1 ≠ (L (x + 1)).kp.pub)
    {rd rd' : Bytes} {ck : ChainKey} {s1 : SState} (hck : chainKeyFor C s (L (x + 1)).kp.pub rd = (.ok (ck, s1), rd')) :
    ∃ r : Rung, generateKeyPair C rd = (.ok r.kp, rd') ∧ r.prev = lastNumber n ∧
      ((∀ i, i ≤ x + 1 → (L i).kp.pub ≠ r.kp.pub) → Ladder C (upd L (x + 2) r) (x + 2)) ∧
      View C (upd L (x + 2) r) (x + 2) lk rk got 0 s1 := by
  have hnone := h.lookup_none hl (Nat.le_refl _)
  obtain ⟨hw1, _⟩ := h.wf.chainKeyFor hck
  rcases chainKeyFor_ok hck with ⟨h1, _, _⟩ | ⟨_, root, ours, rRoot, kp, sRoot, sCk, cur, e1, e2, e3, e4, e5, e6, e7⟩
  · simp [SState.receiverChainKey, hnone] at h1
  have hroot : root = (L x).root := by
    have := hl.root x (by omega)
    simp only [SState.getRootKey, newRootKey, h.root, this, ne_eq, not_true_eq_false, if_false, Res.ok.injEq] at e1
    rw [← e1]
  have hours : ours = (L x).kp.priv := by
    obtain ⟨c, hc1, _, hc3, _⟩ := h.sender
    simp only [SState.senderRatchetPrivateKey, hc1, hc3, newPrivateKey_bytes, Res.ok.injEq] at e2
    exact e2.symm
  subst hroot hours
  rw [hl.step' (by omega)] at e3
  simp only [Res.ok.injEq, Prod.mk.injEq] at e3
  obtain ⟨rfl, rfl⟩ := e3
  have old : ∀ i, i < x + 2 → upd L (x + 2) ⟨kp, sRoot, sCk, lastNumber n⟩ i = L i := fun i hi => upd_ne _ _ (by omega)
  refine ⟨⟨kp, sRoot, sCk, lastNumber n⟩, e4, rfl, ?_, ?_⟩
  · intro hfresh
    exact hl.extend (generateKeyPair_ok e4).2.2.1 e5 hfresh
  have hadd : ∃ cs : List PBChain, s1 = { s with rootKey := sRoot.key, receiverChains := cs, previousCounter := if cur.index > 0 then cur.index - 1 else 0, senderChain := some { senderRatchetKey := kp.pub.bytes, senderRatchetKeyPrivate := kp.priv.bytes, chainKey := some { index := sCk.index, key := sCk.key } } } ∧
      cs = lastN 5 (s.receiverChains ++ [{ senderRatchetKey := (L (x + 1)).kp.pub.bytes, chainKey := some { index := (L (x + 1)).ck.index, key := (L (x + 1)).ck.key } }]) := by
    have hlen := h.wf.chains
    rw [e7]
    unfold SState.addReceiverChain SState.setSenderChain
    refine ⟨_, ?_, rfl⟩
    have := push_eq_lastN ({ senderRatchetKey := (L (x + 1)).kp.pub.bytes, chainKey := some { index := (L (x + 1)).ck.index, key := (L (x + 1)).ck.key } } : PBChain) hlen
    simp only [show maxReceiverChains = 5 from rfl] at this ⊢
    rw [← this]
    by_cases hgt : (s.receiverChains ++ [({ senderRatchetKey := (L (x + 1)).kp.pub.bytes, chainKey := some { index := (L (x + 1)).ck.index, key := (L (x + 1)).ck.key } } : PBChain)]).length > 5
    · simp only [if_pos hgt]
    · simp only [if_neg hgt]
  obtain ⟨cs, hs1, hcs⟩ := hadd
  have hcur : cur.index = UInt32.ofNat n := by
    obtain ⟨c, hc1, _, _, hc4⟩ := h.sender
    have hcl : (chainIter C (L x).ck n).key.length = 32 := chainIter_key_len C _ (hl.chain x (by omega)).1 n
    have : cur = chainIter C (L x).ck n := by
      simpa [SState.senderChainKey, hc1, hc4, ChainKey.toPB, newChainKey, hcl] using e6.symm
    rw [this, chainIter_index, (hl.chain x (by omega)).2]
    simp
  subst hs1
  refine ⟨hw1, h.loc, h.rem, ?_, ?_, ?_, ?_, ?_⟩
  · rw [upd_same]
  · rw [upd_same]
    show (if cur.index > 0 then _ else _) = _
    rw [hcur]
    rfl
  · exact ⟨_, rfl, by rw [upd_same], by rw [upd_same], by rw [upd_same]; rfl⟩
  · have hp : peers (upd L (x + 2) ⟨kp, sRoot, sCk, lastNumber n⟩) (x + 2) = peers L x ++ [L (x + 1)] := by
      rw [peers, peers_congr x (fun i hi => old i (by omega)), old (x + 1) (by omega)]
    show cs.map _ = _
    have hR : lastN 5 ((peers L x).map (fun r => r.kp.pub.bytes) ++ [(L (x + 1)).kp.pub.bytes]) =
        lastN 5 (s.receiverChains.map (·.senderRatchetKey) ++ [(L (x + 1)).kp.pub.bytes]) := by
      rw [← lastN_append, ← h.chains]
    rw [hp, hcs, List.map_append]
    refine Eq.trans ?_ hR.symm
    unfold lastN
    simp only [List.map_drop, List.map_append, List.map_cons, List.map_nil, List.length_append, List.length_map, List.length_cons, List.length_nil]
  · intro c hc e he hce
    have hc : c ∈ cs := hc
    rw [old e he] at hce ⊢
    rw [hcs] at hc
    have hc := lastN_mem hc
    rw [List.mem_append, List.mem_singleton] at hc
    rcases hc with hc | hc
    · obtain ⟨f, hf, hcf⟩ := h.key_of_chain hc
      have : e = f := hl.distinct e f (by omega) (by omega) (PubKey.bytes_inj (hce.symm.trans hcf))
      subst this
      exact h.each c hc e hf hce
    · subst hc
      have : x + 1 = e := hl.distinct (x + 1) e (by omega) (by omega) (PubKey.bytes_inj hce)
      subst this
      have hz := newestUnder_none hgot
      refine ⟨?_, by simp, ?_, ?_⟩
      · rw [hz]; rfl
      · intro j hj; rw [hz] at hj; omega
      · intro _; rw [hz]; simp [skipped, lastN]

/-- The message was sent by the other party on this rung. -/
structure OnRung (C : Crypto) (L : Nat → Rung) (e : Nat) (snd rcv : PubKey) (m : Signal) (pt : Bytes) : Prop where
  key : m.senderRatchetKey = (L e).kp.pub
  opens : Opens C ((chainIter C (L e).ck m.counter.toNat).messageKeys C) snd rcv m pt
  made : m.serialized = Doc.signalMessage C (L e).ck.key (L e).kp.pub m.counter (L e).prev snd rcv pt

theorem Opens.unique {mk : MessageKeys} {a b : PubKey} {m : Signal} {p q : Bytes} (h1 : Opens C mk a b m p) (h2 : Opens C mk a b m q) : p = q := by
  have := h1.text
  rw [h2.text] at this
  simp only [Res.ok.injEq] at this
  exact this.symm

/-- A message of a known chain that is accepted. -/
theorem View.receive_known (h : View C L x lk rk got n s) (hl : Ladder C L t) (hx : x ≤ t) {m : Signal} {pt p rd rd' : Bytes} {e : Nat}
    (he : e < x) (hm : OnRung C L e rk lk m pt) (hk : m.senderRatchetKey ∈ lastN 5 ((peers L x).map fun r => r.kp.pub))
    (hd : decryptMessageSession C s m rd = (.ok (p, s'), rd')) :
    p = pt ∧ View C L x lk rk (got ++ [(m.senderRatchetKey, m.counter)]) n s' ∧ s'.pendingPreKey = none ∧ s'.aliceBaseKey = s.aliceBaseKey := by
  have hw' := h.wf.decrypt hd
  obtain ⟨_, s1, i, c, c', ck, mk, rk', lk', h1, hw, hc, hck, ht, hrk, hlk, ho, rfl⟩ := decrypted_shape h.wf hd
  have hrk : rk' = rk := PubKey.bytes_inj (hrk.symm.trans h.rem)
  have hlk : lk' = lk := PubKey.bytes_inj (hlk.symm.trans h.loc)
  subst hrk hlk
  obtain ⟨i0, c0, hc0⟩ := h.lookup_some hk
  have hs1 : s1 = s := by
    rcases chainKeyFor_ok h1 with ⟨_, hs, _⟩ | ⟨h2, _⟩
    · exact hs
    · have := h.wf.receiverChainKey_none h2
      rw [hc0] at this; simp at this
  subst hs1
  obtain ⟨f, hf, hkf, hmk, hv⟩ := h.taken hl hx hw' hc hck ht
  have : f = e := hl.distinct f e (by omega) (by omega) (hkf.symm.trans hm.key)
  subst this
  subst hmk
  exact ⟨ho.unique hm.opens, hv, rfl, rfl⟩

/-- A message of a new chain that is accepted. -/
theorem View.receive_new (h : View C L x lk rk got n s) (hl : Ladder C L (x + 1)) (hgot : ∀ p ∈ got, p.1 ≠ (L (x + 1)).kp.pub)
    {m : Signal} {pt p rd rd' : Bytes} (hm : OnRung C L (x + 1) rk lk m pt)
    (hfresh : ∀ kp rd', generateKeyPair C rd = (.ok kp, rd') → ∀ i, i ≤ x + 1 → (L i).kp.pub ≠ kp.pub)
    (hd : decryptMessageSession C s m rd = (.ok (p, s'), rd')) :
    p = pt ∧ s'.pendingPreKey = none ∧ s'.aliceBaseKey = s.aliceBaseKey ∧ ∃ r : Rung, generateKeyPair C rd = (.ok r.kp, rd') ∧ r.prev = lastNumber n ∧
      Ladder C (upd L (x + 2) r) (x + 2) ∧ View C (upd L (x + 2) r) (x + 2) lk rk (got ++ [(m.senderRatchetKey, m.counter)]) 0 s' := by
  have hw' := h.wf.decrypt hd
  obtain ⟨_, s1, i, c, c', ck, mk, rk', lk', h1, hw, hc, hck, ht, hrk, hlk, ho, rfl⟩ := decrypted_shape h.wf hd
  have hrk : rk' = rk := PubKey.bytes_inj (hrk.symm.trans h.rem)
  have hlk : lk' = lk := PubKey.bytes_inj (hlk.symm.trans h.loc)
  subst hrk hlk
  have hbase : s1.aliceBaseKey = s.aliceBaseKey := by
    rcases chainKeyFor_ok h1 with ⟨_, hs, _⟩ | ⟨_, _, _, _, _, _, _, _, _, _, _, _, _, _, hs⟩
    · rw [hs]
    · rw [hs]
      unfold SState.addReceiverChain SState.setSenderChain
      simp only
      split <;> rfl
  rw [hm.key] at h1
  obtain ⟨r, hg, hpv, hlr, hv⟩ := h.ratchet hl hgot h1
  have hl' := hlr (hfresh _ _ hg)
  obtain ⟨f, hf, hkf, hmk, hv'⟩ := hv.taken hl' (Nat.le_refl _) hw' hc hck ht
  have old : ∀ i, i < x + 2 → upd L (x + 2) r i = L i := fun i hi => upd_ne _ _ (by omega)
  have : f = x + 1 := by
    refine hl'.distinct f (x + 1) (by omega) (by omega) (hkf.symm.trans ?_)
    rw [old (x + 1) (by omega)]; exact hm.key
  subst this
  subst hmk
  rw [old (x + 1) (by omega)] at ho
  exact ⟨ho.unique hm.opens, rfl, hbase, r, hg, hpv, hl', hv'⟩

/-- When the messages of a chain were accepted in order, one that is more than 2000 behind does not decrypt. -/
theorem View.forgotten (h : View C L x lk rk got n s) (hl : Ladder C L t) (hx : x ≤ t) {m : Signal} {p rd rd' : Bytes} {e : Nat}
    (he : e < x) (hm : m.senderRatchetKey = (L e).kp.pub) (hk : m.senderRatchetKey ∈ lastN 5 ((peers L x).map fun r => r.kp.pub))
    (ho : InOrder got m.senderRatchetKey) (hb : m.counter.toNat + 2000 < newestUnder got m.senderRatchetKey) :
    decryptMessageSession C s m rd ≠ (.ok (p, s'), rd') := by
  intro hd
  obtain ⟨_, s1, i, c, c', ck, mk, rk', lk', h1, hw, hc, hck, ht, _⟩ := decrypted_shape h.wf hd
  obtain ⟨i0, c0, hc0⟩ := h.lookup_some hk
  have hs1 : s1 = s := by
    rcases chainKeyFor_ok h1 with ⟨_, hs, _⟩ | ⟨h2, _⟩
    · exact hs
    · have := h.wf.receiverChainKey_none h2
      rw [hc0] at this; simp at this
  subst hs1
  have hmem := SState.receiverChain_mem hc
  obtain ⟨hi, hkey⟩ := SState.receiverChain_some hc
  rw [hm] at hkey ho hb
  have hh := h.each c hmem e he hkey
  obtain ⟨hcl, hci⟩ := hl.chain e (by omega)
  have hnl := newestUnder_lt got (L e).kp.pub
  have hidx : ∀ j, j < 4294967296 → (chainIter C (L e).ck j).index.toNat = j := by
    intro j hj
    rw [chainIter_toNat C _ j (by rw [hci]; simpa using hj), hci]
    simp
  have hck1 : ck = chainIter C (L e).ck (newestUnder got (L e).kp.pub) := by
    have := hh.key
    rw [hck] at this
    simp only [Option.some.injEq] at this
    exact ChainKey.toPB_inj this
  subst hck1
  cases ht with
  | ahead hle =>
    rw [hidx _ hnl] at hle
    omega
  | stored hlt _ hn hmk =>
    rw [hh.full ho] at hmk
    unfold lastN skipped at hmk
    rw [List.length_map, List.length_range, ← List.map_drop, List.mem_map] at hmk
    obtain ⟨j, hj, hje⟩ := hmk
    have hlo : newestUnder got (L e).kp.pub - maxMessageKeys ≤ j ∧ j < newestUnder got (L e).kp.pub := by
      rw [List.range_eq_range', List.drop_range', List.mem_range'_1] at hj
      omega
    rw [maxMessageKeys_eq] at hlo
    have : mk.counter = (chainIter C (L e).ck j).index := by
      have := congrArg PBMessageKey.index hje
      rw [toPB_index] at this
      exact this.symm
    have h3 := congrArg UInt32.toNat this
    rw [hidx j (by omega), hn] at h3
    omega

/-! ## Messages inside the window are accepted -/

theorem View.opens_known (h : View C L x lk rk got n s) (hl : Ladder C L t) (hx : x ≤ t) {m : Signal} {pt : Bytes} (rd : Bytes) {e : Nat}
    (he : e < x) (hm : OnRung C L e rk lk m pt) (hk : m.senderRatchetKey ∈ lastN 5 ((peers L x).map fun r => r.kp.pub))
    (hun : (m.senderRatchetKey, m.counter) ∉ got) (ha : m.counter.toNat ≤ newestUnder got m.senderRatchetKey + 25000)
    (hb : newestUnder got m.senderRatchetKey ≤ m.counter.toNat + 2000) :
    ∃ s' rd', decryptMessageSession C s m rd = (.ok (pt, s'), rd') := by
  obtain ⟨i, c, hc⟩ := h.lookup_some hk
  have hmem := SState.receiverChain_mem hc
  obtain ⟨hi, hkey⟩ := SState.receiverChain_some hc
  rw [hm.key] at hkey hun ha hb
  have hh := h.each c hmem e he hkey
  obtain ⟨hcl, hci⟩ := hl.chain e (by omega)
  have hnl := newestUnder_lt got (L e).kp.pub
  have hidx : ∀ j, j < 4294967296 → (chainIter C (L e).ck j).index.toNat = j := by
    intro j hj
    rw [chainIter_toNat C _ j (by rw [hci]; simpa using hj), hci]
    simp
  by_cases hle : newestUnder got (L e).kp.pub ≤ m.counter.toNat
  · refine ⟨_, _, h.wf.decrypts_ahead rd hc hh.key h.loc h.rem ?_ (.inl ?_) ?_⟩
    · rw [hidx _ hnl]; exact hle
    · rw [hidx _ hnl]; exact ha
    · rw [hidx _ hnl, chainIter_add, Nat.add_sub_cancel' hle]
      exact hm.opens
  · obtain ⟨p, hp, hpn⟩ := hh.kept m.counter (by omega) hun hb
    have hpe := hh.stored p hp
    have hcnt : ((chainIter C (L e).ck m.counter.toNat).messageKeys C).counter = m.counter := by
      show (chainIter C (L e).ck m.counter.toNat).index = _
      exact UInt32.toNat_inj.mp (hidx _ m.counter.toNat_lt)
    refine ⟨_, _, h.wf.decrypts_stored rd hc hh.key h.loc h.rem ?_ (mk := (chainIter C (L e).ck m.counter.toNat).messageKeys C) ?_ hcnt hm.opens⟩
    · rw [hidx _ hnl]; omega
    · rw [hpn] at hpe
      rw [← hpe]; exact hp

theorem View.opens_new (h : View C L x lk rk got n s) (hl : Ladder C L (x + 1)) (hgot : ∀ p ∈ got, p.1 ≠ (L (x + 1)).kp.pub)
    {m : Signal} {pt rd : Bytes} (hm : OnRung C L (x + 1) rk lk m pt) (hrd : 32 ≤ rd.length) (ha : m.counter.toNat ≤ 25000) :
    ∃ s' rd', decryptMessageSession C s m rd = (.ok (pt, s'), rd') := by
  have hnone := h.lookup_none hl (Nat.le_refl _)
  rcases chainKeyFor_cases (C := C) h.wf (L (x + 1)).kp.pub rd with ⟨ck, s1, rd', h1, _⟩ | ⟨_, e, rd', h1, he⟩
  · obtain ⟨hw1, hck1⟩ := h.wf.chainKeyFor h1
    obtain ⟨r, _, _, _, hv⟩ := h.ratchet hl hgot h1
    have hold : upd L (x + 2) r (x + 1) = L (x + 1) := upd_ne _ _ (by omega)
    cases hc : s1.receiverChain (L (x + 1)).kp.pub with
    | none => simp [SState.receiverChainKey, hc] at hck1
    | some y =>
      obtain ⟨i, c⟩ := y
      have hmem := SState.receiverChain_mem hc
      obtain ⟨_, hkey⟩ := SState.receiverChain_some hc
      have hh := hv.each c hmem (x + 1) (by omega) (by rw [hold]; exact hkey)
      rw [hold] at hh
      obtain ⟨hcl, hci⟩ := hl.chain (x + 1) (by omega)
      have hz := newestUnder_none hgot
      have hk0 := hh.key
      rw [hz] at hk0
      have hck : ck = (L (x + 1)).ck := by
        rw [PBChain.WF.receiverChainKey hc hk0 hcl] at hck1
        simpa [chainIter] using hck1.symm
      subst hck
      have hcw := hw1.chainWF c hmem
      have h2 := messageKeysFor_new C s1 (L (x + 1)).kp.pub (L (x + 1)).ck m.counter i c hc hcw.count
        (by rw [hci, gt_iff_lt, UInt32.lt_iff_toNat_lt]; simp) (.inl (by rw [jump_iff (by rw [hci]; simp), hci]; simp; omega))
      rw [hci] at h2
      rw [← hm.key] at h1 h2
      exact ⟨_, _, decryptMessageSession_run h.wf h1 h2 (lk := lk) (rk := rk) hv.loc hv.rem (by simpa using hm.opens)⟩
  · exfalso
    obtain ⟨c, hc1, hc2, hc3, hc4⟩ := h.sender
    have e1 : s.getRootKey = .ok (L x).root := by
      simp [SState.getRootKey, newRootKey, h.root, hl.root x (by omega)]
    have e2 : s.senderRatchetPrivateKey = .ok (L x).kp.priv := by simp [SState.senderRatchetPrivateKey, hc1, hc3]
    have e3 : ∃ ck, s.senderChainKey = .ok ck := by
      obtain ⟨ck, hck, _⟩ := h.wf.senderChainKey
      exact ⟨ck, hck⟩
    obtain ⟨ck, e3⟩ := e3
    obtain ⟨kp, hg, _, hkm⟩ := generateKeyPair_run C rd hrd
    obtain ⟨o, ho, _⟩ := createChain_comm C (L (x + 1)).root hkm (hl.matched (x + 1) (by omega))
    unfold chainKeyFor at h1
    simp only [M.bind_run, M.lift_run, SState.receiverChainKey, hnone, e1, e2, e3, hl.step' (show x < x + 1 by omega), hg, ho] at h1
    simp at h1

end Verif
