import Verif.Proofs.Records
import Verif.Proofs.Encoding

/-!
The message cipher on well-formed states, forwards: what encryption builds, and when decryption accepts.
-/

namespace Verif

attribute [local irreducible] maxMessageKeys

/-- The message opens under these message keys and identities. -/
structure Opens (C : Crypto) (mk : MessageKeys) (snd rcv : PubKey) (m : Signal) (pt : Bytes) : Prop where
  version : m.version = 3
  mac : m.verifyMAC C mk.macKey snd rcv = .ok true
  text : cbcDecrypt C mk.cipherKey mk.iv m.ciphertext = .ok pt

theorem aesKeyOk_32 {k : Bytes} (h : k.length = 32) : aesKeyOk k = true := by simp [aesKeyOk, h]

theorem SState.WF.versionEq {s : SState} (h : s.WF) : s.version = 3 := by
  unfold SState.version; rw [h.version]; decide

theorem SState.remoteIdentityKey_bytes {s : SState} {k : PubKey} (h : s.remoteIdentityPublic = k.bytes) :
    s.remoteIdentityKey = .ok (some k) := by
  unfold SState.remoteIdentityKey
  rw [h, newIdentityKey_bytes]
  simp

theorem SState.localIdentityKey_bytes {s : SState} {k : PubKey} (h : s.localIdentityPublic = k.bytes) :
    s.localIdentityKey = .ok k := by
  unfold SState.localIdentityKey
  rw [h, newIdentityKey_bytes]

/-- Encryption with a well-formed state always succeeds; this is what it returns. -/
theorem SState.WF.encrypts (C : Crypto) {s : SState} (h : s.WF) (pt : Bytes) :
    ∃ (c : PBChain) (ck : ChainKey) (eph lk rk : PubKey) (msg : Signal), s.senderChain = some c ∧ c.chainKey = some ck.toPB ∧ ck.key.length = 32 ∧
      c.senderRatchetKey = eph.bytes ∧ s.localIdentityPublic = lk.bytes ∧ s.remoteIdentityPublic = rk.bytes ∧
      Opens C (ck.messageKeys C) lk rk msg pt ∧ msg.senderRatchetKey = eph ∧ msg.counter = ck.index ∧
      (pt.length + 16 < 2 ^ 64 → newSignalFromBytes msg.serialized = .ok msg ∧ msg.serialized.length ≤ pt.length + 138) ∧
      (∃ ct, cbcEncrypt C (ck.messageKeys C).cipherKey (ck.messageKeys C).iv pt = .ok ct ∧
        newSignal C 3 (ck.messageKeys C).macKey eph s.previousCounter ck.index ct lk rk = .ok msg) ∧
      ∃ out, encryptState C s pt = .ok (out, s.setSenderChainKey (ck.next C), rk) ∧
        ((s.pendingPreKey = none ∧ out = .signal msg) ∨
         ∃ p base, s.pendingPreKey = some p ∧ p.baseKey = base.bytes ∧
           out = .preKey (newPreKey 3 s.localRegistrationId (if p.preKeyId ≠ 0 then some p.preKeyId else none)
             p.signedPreKeyId.toUInt32 base lk msg)) := by
  obtain ⟨c, hc, ⟨eph, heph⟩, _, ⟨ck, hck, hl⟩, _⟩ := h.sender
  obtain ⟨lk, hlk⟩ := h.localId
  obtain ⟨rk, hrk⟩ := h.remoteId
  obtain ⟨ct, hct, hctl⟩ := cbcEncrypt_ok C (ck.messageKeys C).cipherKey (ck.messageKeys C).iv pt
    (aesKeyOk_32 (messageKeys_cipherKey_len C ck)) (messageKeys_iv_len C ck)
  obtain ⟨msg, mac, h1, h2, h3, h4⟩ := newSignal_ok C 3 (ck.messageKeys C).macKey (messageKeys_macKey_len C ck) eph
    s.previousCounter ck.index ct lk rk
  have hmac := verifyMAC_eq C (ck.messageKeys C).macKey (messageKeys_macKey_len C ck) lk rk msg _ mac (by rw [h4]) h2
  refine ⟨c, ck, eph, lk, rk, msg, hc, hck, hl, heph, hlk, hrk, ⟨?_, ?_, ?_⟩, ?_, ?_, ?_, ⟨ct, hct, h1⟩, ?_⟩
  · rw [h4]
  · rw [hmac, h3]; simp
  · rw [h4]; exact cbcDecrypt_cbcEncrypt C _ _ _ _ hct
  · rw [h4]
  · rw [h4]
  · intro hn
    obtain ⟨m', h1', h2', _⟩ := signal_round_trip C (ck.messageKeys C).macKey (messageKeys_macKey_len C ck) eph
      s.previousCounter ck.index ct (by omega) lk rk
    rw [h1] at h1'
    simp only [Res.ok.injEq] at h1'
    subst h1'
    refine ⟨h2', ?_⟩
    have := newSignal_length (messageKeys_macKey_len C ck) h1
    omega
  · have e1 : s.senderChainKey = .ok ck := by
      simp [SState.senderChainKey, hc, hck, ChainKey.toPB, newChainKey, hl]
    have e2 : s.senderRatchetKey = .ok eph := by simp [SState.senderRatchetKey, hc, heph]
    have e3 : s.version.toUInt8 = 3 := by rw [h.versionEq]; decide
    have e4 : ∀ items, s.unacknowledgedPreKeyMessages = .ok items → encryptState C s pt =
        .ok ((match items with | some u => Ciphertext.preKey (newPreKey 3 s.localRegistrationId u.preKeyID u.signedPreKeyID u.baseKey lk msg) | none => Ciphertext.signal msg),
          s.setSenderChainKey (ck.next C), rk) := by
      intro items hi
      unfold encryptState
      rw [e1, Res.bind_ok, e2, Res.bind_ok, s.localIdentityKey_bytes hlk, Res.bind_ok, s.remoteIdentityKey_bytes hrk, Res.bind_ok]
      simp only
      rw [hct, Res.bind_ok, e3, h1, Res.bind_ok, hi, Res.bind_ok]
      rfl
    cases hp : s.pendingPreKey with
    | none => exact ⟨_, e4 none (by simp [SState.unacknowledgedPreKeyMessages, hp]), .inl ⟨rfl, rfl⟩⟩
    | some p =>
      obtain ⟨base, hb⟩ := h.pending p hp
      refine ⟨_, e4 (some ⟨if p.preKeyId ≠ 0 then some p.preKeyId else none, p.signedPreKeyId.toUInt32, base⟩) (by simp only [SState.unacknowledgedPreKeyMessages, hp, hb, newPublicKey_bytes, Res.bind_ok, Res.pure_eq]), .inr ⟨p, base, rfl, hb, rfl⟩⟩

theorem receiverChain_set_keys {s : SState} {eph : PubKey} {i : Nat} {c c' : PBChain} (hc : s.receiverChain eph = some (i, c))
    (hk : c'.senderRatchetKey = c.senderRatchetKey) :
    c' ∈ ({ s with receiverChains := s.receiverChains.set i c' } : SState).receiverChains ∧ c'.senderRatchetKey = eph.bytes := by
  obtain ⟨h1, h2⟩ := SState.receiverChain_some hc
  obtain ⟨hi, _⟩ := List.getElem?_eq_some_iff.mp h1
  exact ⟨List.mem_iff_getElem?.mpr ⟨i, by simp [hi]⟩, by rw [hk, h2]⟩

/-- After a decryption the chain has reached the counter and the key is gone. -/
theorem messageKeysFor_received {C : Crypto} {s s' : SState} {eph : PubKey} {ck : ChainKey} {n : UInt32} {mk : MessageKeys}
    (h : s.WF) (hck : s.receiverChainKey eph = .ok (some ck)) (hm : messageKeysFor C s eph ck n = .ok (mk, s')) :
    s'.Received eph n := by
  cases hc : s.receiverChain eph with
  | none => simp [SState.receiverChainKey, hc] at hck
  | some x =>
    obtain ⟨i, c⟩ := x
    obtain ⟨hci, hce⟩ := SState.receiverChain_some hc
    have hcw := h.chainWF c (SState.receiverChain_mem hc)
    obtain ⟨ck', hck', hlen, hlt⟩ := hcw.chain
    have e : ck' = ck := by
      rw [PBChain.WF.receiverChainKey hc hck' hlen] at hck
      simpa using hck
    subst e
    by_cases hgt : ck'.index > n
    · rw [messageKeysFor_old C s eph ck' n i c hc hgt] at hm
      cases hg : (c.messageKeys.filter fun k => k.index = n).getLast? with
      | none => simp [hg] at hm
      | some k =>
        simp only [hg, Res.bind_eq_ok, Res.ok.injEq, Prod.mk.injEq] at hm
        obtain ⟨_, _, _, rfl⟩ := hm
        obtain ⟨h1, h2⟩ := receiverChain_set_keys (c' := c.withKeys (c.messageKeys.filter fun k => k.index ≠ n)) hc rfl
        refine ⟨_, h1, h2, ⟨_, hck', ?_⟩, ?_⟩
        · rw [UInt32.le_iff_toNat_le]
          rw [gt_iff_lt, UInt32.lt_iff_toNat_lt] at hgt
          simp only [ChainKey.toPB]; omega
        · intro k hk
          simpa using (List.mem_filter.mp hk).2
    · have hj : ¬ (n - ck'.index > maxJumps) ∨ s.sessionWithSelf = .ok true := by
        rcases Classical.em (n - ck'.index > maxJumps) with hj | hj
        · rcases Classical.em (s.sessionWithSelf = .ok true) with hs | hs
          · exact .inr hs
          · exact absurd hm (messageKeysFor_far C s eph ck' n hgt hj hs _)
        · exact .inl hj
      rw [messageKeysFor_new C s eph ck' n i c hc hcw.count hgt hj] at hm
      simp only [Res.ok.injEq, Prod.mk.injEq] at hm
      obtain ⟨_, rfl⟩ := hm
      have hle : ck'.index.toNat ≤ n.toNat := by
        rw [gt_iff_lt, UInt32.lt_iff_toNat_lt] at hgt; omega
      have hn : n.toNat < 4294967296 := n.toNat_lt
      have hix : ∀ j, j ≤ n.toNat - ck'.index.toNat → (chainIter C ck' j).index.toNat = ck'.index.toNat + j := by
        intro j hj; exact chainIter_toNat C ck' j (by omega)
      obtain ⟨h1, h2⟩ := receiverChain_set_keys (c' := { c with messageKeys := lastN maxMessageKeys (c.messageKeys ++ skipped C ck' (n.toNat - ck'.index.toNat)), chainKey := some (chainIter C ck' (n.toNat - ck'.index.toNat)).toPB }) hc rfl
      refine ⟨_, h1, h2, ⟨_, rfl, ?_⟩, ?_⟩
      · rw [UInt32.le_iff_toNat_le]
        have := hix _ (Nat.le_refl _)
        simp only [ChainKey.toPB]; omega
      · intro k hk
        simp only at hk
        have hk := lastN_mem hk
        intro hkn
        have hkn' : k.index.toNat = n.toNat := by rw [hkn]
        rcases List.mem_append.mp hk with hk | hk
        · have := hlt k hk
          rw [UInt32.lt_iff_toNat_lt] at this
          omega
        · obtain ⟨j, hj, rfl⟩ := skipped_mem hk
          rw [toPB_index] at hkn'
          have := hix j (by omega)
          omega

theorem sessionWithSelf_eq {s : SState} {lk rk : PubKey} (hlk : s.localIdentityPublic = lk.bytes) (hrk : s.remoteIdentityPublic = rk.bytes) :
    s.sessionWithSelf = .ok (rk.equal lk) := by
  unfold SState.sessionWithSelf
  rw [s.remoteIdentityKey_bytes hrk, Res.bind_ok]
  simp only
  rw [s.localIdentityKey_bytes hlk]
  rfl

theorem jump_iff {i n : UInt32} (h : i.toNat ≤ n.toNat) : n - i > maxJumps ↔ i.toNat + 25000 < n.toNat := by
  have h1 : (n - i).toNat = n.toNat - i.toNat := by
    rw [UInt32.toNat_sub_of_le]
    rwa [UInt32.le_iff_toNat_le]
  rw [gt_iff_lt, UInt32.lt_iff_toNat_lt, h1, show maxJumps.toNat = 25000 from rfl]
  omega

/-- A session decrypts once the chain key and the message keys have been found. -/
theorem decryptMessageSession_run {C : Crypto} {s s1 s2 : SState} {m : Signal} {rd rd' pt : Bytes} {ck : ChainKey} {mk : MessageKeys}
    {lk rk : PubKey} (h : s.WF) (hck : chainKeyFor C s m.senderRatchetKey rd = (.ok (ck, s1), rd'))
    (hmk : messageKeysFor C s1 m.senderRatchetKey ck m.counter = .ok (mk, s2))
    (hlk : s2.localIdentityPublic = lk.bytes) (hrk : s2.remoteIdentityPublic = rk.bytes) (ho : Opens C mk rk lk m pt) :
    decryptMessageSession C s m rd = (.ok (pt, s2.clearUnacknowledgedPreKeyMessage), rd') := by
  obtain ⟨c, hc, _⟩ := h.sender
  unfold decryptMessageSession
  rw [hc]
  simp only
  have hv : ¬ (m.version.toUInt32 ≠ s.version) := by
    rw [ho.version, h.versionEq]; decide
  rw [if_neg hv, M.bind_ok_run hck]
  simp only
  rw [M.lift_run, hmk, Res.bind_ok]
  simp only
  rw [s2.remoteIdentityKey_bytes hrk, Res.bind_ok]
  simp only
  rw [s2.localIdentityKey_bytes hlk, Res.bind_ok, ho.mac, Res.bind_ok, if_pos rfl, ho.text]
  rfl

theorem chainKeyFor_known {C : Crypto} {s : SState} {eph : PubKey} {ck : ChainKey} (rd : Bytes)
    (h : s.receiverChainKey eph = .ok (some ck)) : chainKeyFor C s eph rd = (.ok (ck, s), rd) := by
  unfold chainKeyFor
  rw [M.bind_run, M.lift_run, h]
  rfl

/-- A message at or ahead of the chain position, inside the limit, decrypts. -/
theorem SState.WF.decrypts_ahead {C : Crypto} {s : SState} (h : s.WF) {m : Signal} {i : Nat} {c : PBChain} {ck : ChainKey} {lk rk : PubKey} {pt : Bytes}
    (rd : Bytes) (hc : s.receiverChain m.senderRatchetKey = some (i, c)) (hck : c.chainKey = some ck.toPB)
    (hlk : s.localIdentityPublic = lk.bytes) (hrk : s.remoteIdentityPublic = rk.bytes) (hle : ck.index.toNat ≤ m.counter.toNat)
    (hj : m.counter.toNat ≤ ck.index.toNat + 25000 ∨ rk = lk)
    (ho : Opens C ((chainIter C ck (m.counter.toNat - ck.index.toNat)).messageKeys C) rk lk m pt) :
    decryptMessageSession C s m rd =
      (.ok (pt, (advanced C s i c ck (m.counter.toNat - ck.index.toNat)).clearUnacknowledgedPreKeyMessage), rd) := by
  have hcw := h.chainWF c (SState.receiverChain_mem hc)
  have hlen : ck.key.length = 32 := by
    obtain ⟨ck', hck', hl, _⟩ := hcw.chain
    rw [hck] at hck'
    simp only [ChainKey.toPB, Option.some.injEq, PBChainKey.mk.injEq] at hck'
    rw [hck'.2]; exact hl
  refine decryptMessageSession_run h (chainKeyFor_known rd (PBChain.WF.receiverChainKey hc hck hlen))
    (messageKeysFor_new C s m.senderRatchetKey ck m.counter i c hc hcw.count ?_ ?_) hlk hrk ho
  · rw [gt_iff_lt, UInt32.lt_iff_toNat_lt]; omega
  · rcases hj with hj | hj
    · refine .inl ?_
      rw [jump_iff hle]; omega
    · refine .inr ?_
      rw [sessionWithSelf_eq hlk hrk, hj]
      simp

/-- A message behind the chain position decrypts when its key is stored. -/
theorem SState.WF.decrypts_stored {C : Crypto} {s : SState} (h : s.WF) {m : Signal} {i : Nat} {c : PBChain} {ck : ChainKey} {lk rk : PubKey} {pt : Bytes}
    {mk : MessageKeys} (rd : Bytes) (hc : s.receiverChain m.senderRatchetKey = some (i, c)) (hck : c.chainKey = some ck.toPB)
    (hlk : s.localIdentityPublic = lk.bytes) (hrk : s.remoteIdentityPublic = rk.bytes) (hlt : m.counter.toNat < ck.index.toNat)
    (hmk : mk.toPB ∈ c.messageKeys) (hn : mk.counter = m.counter) (ho : Opens C mk rk lk m pt) :
    decryptMessageSession C s m rd =
      (.ok (pt, ({ s with receiverChains := s.receiverChains.set i (c.withKeys (c.messageKeys.filter fun k => k.index ≠ m.counter)) } : SState).clearUnacknowledgedPreKeyMessage), rd) := by
  have hcw := h.chainWF c (SState.receiverChain_mem hc)
  have hlen : ck.key.length = 32 := by
    obtain ⟨ck', hck', hl, _⟩ := hcw.chain
    rw [hck] at hck'
    simp only [ChainKey.toPB, Option.some.injEq, PBChainKey.mk.injEq] at hck'
    rw [hck'.2]; exact hl
  have hgt : ck.index > m.counter := by rw [gt_iff_lt, UInt32.lt_iff_toNat_lt]; omega
  have hsort := hcw.sorted
  have hfil : (c.messageKeys.filter fun k => k.index = m.counter) = [mk.toPB] := by
    have key : ∀ l : List PBMessageKey, l.Pairwise (fun a b => a.index < b.index) → mk.toPB ∈ l →
        (l.filter fun k => k.index = m.counter) = [mk.toPB] := by
      intro l hl hm
      induction l with
      | nil => simp at hm
      | cons x l ih =>
        rw [List.pairwise_cons] at hl
        have hidx : mk.toPB.index = m.counter := hn
        rcases List.mem_cons.mp hm with rfl | hm
        · rw [List.filter_cons_of_pos (by simp [hidx])]
          have : (l.filter fun k => k.index = m.counter) = [] := by
            rw [List.filter_eq_nil_iff]
            intro y hy
            have := hl.1 y hy
            simp only [decide_eq_true_eq]
            intro he
            rw [hidx, he, UInt32.lt_iff_toNat_lt] at this
            omega
          rw [this]
        · have hx : ¬ (decide (x.index = m.counter) = true) := by
            simp only [decide_eq_true_eq]
            intro he
            have := hl.1 _ hm
            rw [he, hidx, UInt32.lt_iff_toNat_lt] at this
            omega
          rw [List.filter_cons_of_neg (p := fun k : PBMessageKey => decide (k.index = m.counter)) hx]
          exact ih hl.2 hm
    exact key _ hsort hmk
  refine decryptMessageSession_run h (chainKeyFor_known rd (PBChain.WF.receiverChainKey hc hck hlen)) ?_ hlk hrk ho
  rw [messageKeysFor_old C s m.senderRatchetKey ck m.counter i c hc hgt, hfil]
  obtain ⟨h1, h2, h3⟩ := hcw.sizes _ hmk
  simp only [MessageKeys.toPB] at h1 h2 h3
  simp only [List.getLast?_singleton, MessageKeys.toPB, newMessageKeys, h1, h2, h3, ne_eq, not_true_eq_false, if_false, Res.bind_ok]
  rw [← hn]

theorem SState.WF.decrypted_received {C : Crypto} {s s' : SState} {m : Signal} {rd rd' p : Bytes} (h : s.WF)
    (hd : decryptMessageSession C s m rd = (.ok (p, s'), rd')) : s'.Received m.senderRatchetKey m.counter := by
  obtain ⟨_, _, ck, s1, mk, s2, rk, lk, h1, h2, _, _, _, _, rfl⟩ := decryptMessageSession_ok hd
  obtain ⟨hw, hck⟩ := h.chainKeyFor h1
  obtain ⟨c, hc, h⟩ := messageKeysFor_received hw hck h2
  exact ⟨c, hc, h⟩

theorem findChain_find? (k : Bytes) (l : List PBChain) (n : Nat) :
    (SState.findChain k l n).map Prod.snd = l.find? fun c => c.senderRatchetKey = k := by
  induction l generalizing n with
  | nil => rfl
  | cons c l ih =>
    simp only [SState.findChain]
    by_cases h : c.senderRatchetKey = k
    · simp [h]
    · rw [if_neg h, List.find?_cons_of_neg (by simpa using h)]
      exact ih (n + 1)

theorem SState.position_some {s : SState} {k : PubKey} {i : Nat} {c : PBChain} (h : s.receiverChain k = some (i, c)) {ck : ChainKey}
    (hck : c.chainKey = some ck.toPB) : s.position k = ck.index.toNat := by
  have hf := findChain_find? k.bytes s.receiverChains 0
  rw [show SState.findChain k.bytes s.receiverChains 0 = some (i, c) from h] at hf
  unfold SState.position
  rw [← hf]
  simp [hck, ChainKey.toPB]

theorem SState.position_none {s : SState} {k : PubKey} (h : s.receiverChain k = none) : s.position k = 0 := by
  have hf := findChain_find? k.bytes s.receiverChains 0
  rw [show SState.findChain k.bytes s.receiverChains 0 = none from h] at hf
  unfold SState.position
  rw [← hf]
  simp

theorem SState.WF.withSelf {s : SState} (h : s.WF) : (s.WithSelf ∧ s.sessionWithSelf = .ok true) ∨ (¬ s.WithSelf ∧ s.sessionWithSelf = .ok false) := by
  obtain ⟨lk, hlk⟩ := h.localId
  obtain ⟨rk, hrk⟩ := h.remoteId
  rw [sessionWithSelf_eq hlk hrk]
  unfold SState.WithSelf
  rw [hlk, hrk]
  by_cases he : lk = rk
  · subst he; exact .inl ⟨rfl, by simp⟩
  · refine .inr ⟨fun hb => he (PubKey.bytes_inj hb), ?_⟩
    have : rk.equal lk = false := by
      rw [Bool.eq_false_iff]
      intro hq
      exact he ((PubKey.equal_iff _ _).mp hq).symm
    rw [this]

/-- The three things that can happen when message keys are looked up on a known chain. -/
theorem messageKeysFor_cases {C : Crypto} {s : SState} (h : s.WF) {eph : PubKey} {ck : ChainKey} (n : UInt32)
    (hck : s.receiverChainKey eph = .ok (some ck)) :
    s.position eph = ck.index.toNat ∧
    ((s.position eph + 25000 < n.toNat ∧ ¬ s.WithSelf ∧ messageKeysFor C s eph ck n = .err .tooFarInFuture) ∨
     (n.toNat < s.position eph ∧ messageKeysFor C s eph ck n = .err .duplicateMessage) ∨
     (¬ (s.position eph + 25000 < n.toNat ∧ ¬ s.WithSelf) ∧ ∃ mk s', messageKeysFor C s eph ck n = .ok (mk, s') ∧ mk.macKey.length = 32 ∧
       s'.localIdentityPublic = s.localIdentityPublic ∧ s'.remoteIdentityPublic = s.remoteIdentityPublic)) := by
  cases hc : s.receiverChain eph with
  | none => simp [SState.receiverChainKey, hc] at hck
  | some x =>
    obtain ⟨i, c⟩ := x
    have hcw := h.chainWF c (SState.receiverChain_mem hc)
    obtain ⟨ck', hck', hlen, hlt⟩ := hcw.chain
    have e : ck' = ck := by
      rw [PBChain.WF.receiverChainKey hc hck' hlen] at hck
      simpa using hck
    subst e
    have hpos := SState.position_some hc hck'
    refine ⟨hpos, ?_⟩
    rw [hpos]
    by_cases hgt : ck'.index > n
    · have hgt' := hgt
      rw [gt_iff_lt, UInt32.lt_iff_toNat_lt] at hgt'
      rw [messageKeysFor_old C s eph ck' n i c hc hgt]
      cases hg : (c.messageKeys.filter fun k => k.index = n).getLast? with
      | none => exact .inr (.inl ⟨hgt', rfl⟩)
      | some k =>
        have hk : k ∈ c.messageKeys := (List.mem_filter.mp (List.mem_of_getLast? hg)).1
        obtain ⟨h1, h2, h3⟩ := hcw.sizes k hk
        refine .inr (.inr ⟨by omega, ⟨k.cipherKey, k.macKey, k.iv, n⟩, { s with receiverChains := s.receiverChains.set i (c.withKeys (c.messageKeys.filter fun k => k.index ≠ n)) }, ?_, h2, rfl, rfl⟩)
        simp only [newMessageKeys, h1, h2, h3, ne_eq, not_true_eq_false, if_false, Res.bind_ok]
    · have hle : ck'.index.toNat ≤ n.toNat := by
        rw [gt_iff_lt, UInt32.lt_iff_toNat_lt] at hgt; omega
      by_cases hj : n - ck'.index > maxJumps
      · have hj' := (jump_iff hle).mp hj
        rcases h.withSelf with ⟨hs, hs'⟩ | ⟨hs, hs'⟩
        · refine .inr (.inr ⟨fun hx => hx.2 hs, _, _, messageKeysFor_new C s eph ck' n i c hc hcw.count hgt (.inr hs'), messageKeys_macKey_len C _, rfl, rfl⟩)
        · refine .inl ⟨hj', hs, ?_⟩
          simp only [messageKeysFor, hgt, if_false, hj, if_true, hs', Res.bind_ok]
          rfl
      · have hj' : ¬ ck'.index.toNat + 25000 < n.toNat := fun hx => hj ((jump_iff hle).mpr hx)
        exact .inr (.inr ⟨fun hx => hj' hx.1, _, _, messageKeysFor_new C s eph ck' n i c hc hcw.count hgt (.inl hj), messageKeys_macKey_len C _, rfl, rfl⟩)

/-- Everything that can happen when a well-formed state is asked to decrypt a message. -/
inductive DecCase (C : Crypto) (s : SState) (m : Signal) (rd : Bytes) : Res (Bytes × SState) × Bytes → Prop
  | version (h : m.version ≠ 3) : DecCase C s m rd (.err .unsupportedVersion, rd)
  /-- ratcheting failed: low order key or no randomness -/
  | chain (e : Err) (rd' : Bytes) (hv : m.version = 3) (hn : s.receiverChain m.senderRatchetKey = none)
      (h1 : chainKeyFor C s m.senderRatchetKey rd = (.err e, rd')) (he : e = .lowOrderPoint ∨ e = .io) : DecCase C s m rd (.err e, rd')
  /-- no message keys: duplicate or too far -/
  | keys (e : Err) (rd' : Bytes) (hv : m.version = 3) (ck : ChainKey) (s1 : SState)
      (h1 : chainKeyFor C s m.senderRatchetKey rd = (.ok (ck, s1), rd'))
      (h2 : messageKeysFor C s1 m.senderRatchetKey ck m.counter = .err e) (he : e = .duplicateMessage ∨ e = .tooFarInFuture) :
      DecCase C s m rd (.err e, rd')
  /-- the message does not open -/
  | body (e : Err) (rd' : Bytes) (hv : m.version = 3) (ck : ChainKey) (s1 s2 : SState) (mk : MessageKeys)
      (h1 : chainKeyFor C s m.senderRatchetKey rd = (.ok (ck, s1), rd'))
      (h2 : messageKeysFor C s1 m.senderRatchetKey ck m.counter = .ok (mk, s2))
      (he : e = .badMAC ∨ e = .badAESKey ∨ e = .badIV ∨ e = .badCiphertextLength ∨ e = .badPadding) : DecCase C s m rd (.err e, rd')
  /-- only for message objects that no parser returns -/
  | short (rd' : Bytes) (hs : m.serialized.length < 8) : DecCase C s m rd (.panic, rd')
  | ok (p : Bytes) (s' : SState) (rd' : Bytes) (hd : decryptMessageSession C s m rd = (.ok (p, s'), rd')) :
      DecCase C s m rd (.ok (p, s'), rd')

theorem SState.WF.receiverChainKey_none {s : SState} (h : s.WF) {eph : PubKey} (hn : s.receiverChainKey eph = .ok none) :
    s.receiverChain eph = none := by
  cases hc : s.receiverChain eph with
  | none => rfl
  | some x =>
    obtain ⟨i, c⟩ := x
    obtain ⟨ck, hck, hl, _⟩ := (h.chainWF c (SState.receiverChain_mem hc)).chain
    rw [PBChain.WF.receiverChainKey hc hck hl] at hn
    simp at hn

theorem createChain_cases (C : Crypto) (r : RootKey) (a : PrivKey) (q : PubKey) :
    (∃ o, r.createChain C a q = .ok o) ∨ r.createChain C a q = .err .lowOrderPoint := by
  rw [createChain_eq]
  unfold PrivKey.agreement
  cases C.dh a.key q.keyBytes with
  | none => exact .inr rfl
  | some d => exact .inl ⟨_, rfl⟩

theorem generateKeyPair_cases (C : Crypto) (rd : Bytes) :
    (∃ kp rd', generateKeyPair C rd = (.ok kp, rd')) ∨ generateKeyPair C rd = (.err .io, []) := by
  unfold generateKeyPair generatePrivateKey
  by_cases h : 32 ≤ rd.length
  · have : (rd.take 32).length = 32 := by simp; omega
    left
    simp [M.bind_run, readFull_ok 32 rd h, M.lift_run, newPrivateKey, this]
  · right
    simp [M.bind_run, readFull_short 32 rd h]

theorem chainKeyFor_cases {C : Crypto} {s : SState} (h : s.WF) (eph : PubKey) (rd : Bytes) :
    (∃ ck s1 rd', chainKeyFor C s eph rd = (.ok (ck, s1), rd') ∧ s1.localIdentityPublic = s.localIdentityPublic ∧
      s1.remoteIdentityPublic = s.remoteIdentityPublic ∧ s1.position eph = s.position eph) ∨
    (s.receiverChain eph = none ∧ ∃ e rd', chainKeyFor C s eph rd = (.err e, rd') ∧ (e = .lowOrderPoint ∨ e = .io)) := by
  rcases hx : chainKeyFor C s eph rd with ⟨r, rd'⟩
  have hno : s.receiverChain eph ≠ none → ∃ ck, chainKeyFor C s eph rd = (.ok (ck, s), rd) := by
    intro hne
    cases hc : s.receiverChain eph with
    | none => exact absurd hc hne
    | some x =>
      obtain ⟨i, c⟩ := x
      obtain ⟨ck, hck, hl, _⟩ := (h.chainWF c (SState.receiverChain_mem hc)).chain
      exact ⟨ck, chainKeyFor_known rd (PBChain.WF.receiverChainKey hc hck hl)⟩
  by_cases hn : s.receiverChain eph = none
  rotate_left
  · obtain ⟨ck, hk⟩ := hno hn
    rw [hk] at hx
    simp only [Prod.mk.injEq] at hx
    obtain ⟨rfl, rfl⟩ := hx
    exact .inl ⟨ck, s, _, rfl, rfl, rfl, rfl⟩
  have hr0 : s.receiverChainKey eph = .ok none := by simp [SState.receiverChainKey, hn]
  obtain ⟨sc, hsc, _, ⟨pk, hpk⟩, ⟨sck, hsck, hscl⟩, _⟩ := h.sender
  have e1 : s.getRootKey = .ok ⟨s.rootKey⟩ := by simp [SState.getRootKey, newRootKey, h.root]
  have e2 : s.senderRatchetPrivateKey = .ok pk := by
    simp [SState.senderRatchetPrivateKey, hsc, hpk]
  have e3 : s.senderChainKey = .ok sck := by
    simp [SState.senderChainKey, hsc, hsck, ChainKey.toPB, newChainKey, hscl]
  cases r with
  | ok out =>
    obtain ⟨ck, s1⟩ := out
    refine .inl ⟨ck, s1, rd', rfl, ?_⟩
    rcases chainKeyFor_ok hx with ⟨hc, _⟩ | ⟨_, root, ours, rRoot, kp, sRoot, sCk, cur, _, _, hcc, _, _, _, hs1⟩
    · rw [hr0] at hc; simp at hc
    · obtain ⟨hl1, hl2, hix⟩ := RootKey.createChain_ok hcc
      have hadd : ∀ (t : SState) (k : PubKey) (ck : ChainKey), ∃ cs, t.addReceiverChain k ck = { t with receiverChains := cs } := by
        intro t k ck
        unfold SState.addReceiverChain
        simp only
        split
        · exact ⟨_, rfl⟩
        · exact ⟨_, rfl⟩
      obtain ⟨hw, hck⟩ := h.chainKeyFor hx
      have hpos := (messageKeysFor_cases (C := C) hw 0 hck).1
      rw [SState.position_none hn, hpos, hix]
      obtain ⟨cs, hcs⟩ := hadd { s with rootKey := sRoot.key } eph ck
      rw [hs1]
      simp only [hcs]
      exact ⟨rfl, rfl, rfl⟩
  | err e =>
    refine .inr ⟨hn, e, rd', rfl, ?_⟩
    unfold chainKeyFor at hx
    simp only [M.bind_run, M.lift_run, hr0, e1, e2, e3] at hx
    rcases createChain_cases C ⟨s.rootKey⟩ pk eph with ⟨o1, hd⟩ | hd
    · rcases generateKeyPair_cases C rd with ⟨kp, rd2, hg⟩ | hg
      · rcases createChain_cases C o1.1 kp.priv eph with ⟨o2, hd2⟩ | hd2
        · simp [hd, hg, hd2] at hx
        · simp [hd, hg, hd2] at hx
          exact .inl hx.1.symm
      · simp [hd, hg] at hx
        exact .inr hx.1.symm
    · simp [hd] at hx
      exact .inl hx.1.symm
  | panic =>
    exfalso
    unfold chainKeyFor at hx
    simp only [M.bind_run, M.lift_run, hr0, e1, e2, e3] at hx
    rcases createChain_cases C ⟨s.rootKey⟩ pk eph with ⟨o1, hd⟩ | hd
    · rcases generateKeyPair_cases C rd with ⟨kp, rd2, hg⟩ | hg
      · rcases createChain_cases C o1.1 kp.priv eph with ⟨o2, hd2⟩ | hd2
        · simp [hd, hg, hd2] at hx
        · simp [hd, hg, hd2] at hx
      · simp [hd, hg] at hx
    · simp [hd] at hx

theorem SState.WF.decryptCases {C : Crypto} {s : SState} (h : s.WF) (m : Signal) (rd : Bytes) :
    DecCase C s m rd (decryptMessageSession C s m rd) := by
  by_cases hv : m.version = 3
  rotate_left
  · obtain ⟨c, hc, _⟩ := h.sender
    have : decryptMessageSession C s m rd = (.err .unsupportedVersion, rd) := by
      unfold decryptMessageSession
      rw [hc]
      simp only
      rw [if_pos]
      · rfl
      · rw [h.versionEq]
        intro he
        apply hv
        have := congrArg UInt32.toNat he
        simp only [UInt8.toNat_toUInt32] at this
        exact UInt8.toNat_inj.mp this
    rw [this]
    exact .version hv
  have hvv : ¬ (m.version.toUInt32 ≠ s.version) := by rw [hv, h.versionEq]; decide
  obtain ⟨c, hc, _⟩ := h.sender
  rcases chainKeyFor_cases (C := C) h m.senderRatchetKey rd with ⟨ck, s1, rd', h1, hl, hr, _⟩ | ⟨hn, e, rd', h1, he⟩
  rotate_left
  · have : decryptMessageSession C s m rd = (.err e, rd') := by
      unfold decryptMessageSession
      rw [hc]
      simp only
      rw [if_neg hvv, M.bind_run, h1]
    rw [this]
    exact .chain e rd' hv hn h1 he
  obtain ⟨hw, hck⟩ := h.chainKeyFor h1
  obtain ⟨lk, hlk⟩ := hw.localId
  obtain ⟨rk, hrk⟩ := hw.remoteId
  rcases (messageKeysFor_cases (C := C) hw m.counter hck).2 with ⟨_, _, h2⟩ | ⟨_, h2⟩ | ⟨_, mk, s2, h2, hmac, hl2, hr2⟩
  · have : decryptMessageSession C s m rd = (.err .tooFarInFuture, rd') := by
      unfold decryptMessageSession
      rw [hc]
      simp only
      rw [if_neg hvv, M.bind_ok_run h1]
      simp only
      rw [M.lift_run, h2]
      rfl
    rw [this]
    exact .keys _ rd' hv ck s1 h1 h2 (.inr rfl)
  · have : decryptMessageSession C s m rd = (.err .duplicateMessage, rd') := by
      unfold decryptMessageSession
      rw [hc]
      simp only
      rw [if_neg hvv, M.bind_ok_run h1]
      simp only
      rw [M.lift_run, h2]
      rfl
    rw [this]
    exact .keys _ rd' hv ck s1 h1 h2 (.inl rfl)
  have hrun : decryptMessageSession C s m rd = ((m.verifyMAC C mk.macKey rk lk >>= fun valid =>
      if valid then (cbcDecrypt C mk.cipherKey mk.iv m.ciphertext >>= fun p => .ok (p, s2.clearUnacknowledgedPreKeyMessage)) else .err .badMAC), rd') := by
    unfold decryptMessageSession
    rw [hc]
    simp only
    rw [if_neg hvv, M.bind_ok_run h1]
    simp only
    rw [M.lift_run, h2, Res.bind_ok]
    simp only
    rw [s2.remoteIdentityKey_bytes (hr2.trans hrk), Res.bind_ok]
    simp only
    rw [s2.localIdentityKey_bytes (hl2.trans hlk), Res.bind_ok]
    rfl
  by_cases hs : m.serialized.length < 8
  · have : decryptMessageSession C s m rd = (.panic, rd') := by
      rw [hrun]; simp [Signal.verifyMAC, hs]
    rw [this]
    exact .short rd' hs
  · have hvm : ∃ b, m.verifyMAC C mk.macKey rk lk = .ok b := by
      simp [Signal.verifyMAC, hs, messageMac, hmac]
    obtain ⟨b, hb⟩ := hvm
    cases b with
    | false =>
      have : decryptMessageSession C s m rd = (.err .badMAC, rd') := by rw [hrun, hb]; rfl
      rw [this]
      exact .body _ rd' hv ck s1 s2 mk h1 h2 (.inl rfl)
    | true =>
      cases hcb : cbcDecrypt C mk.cipherKey mk.iv m.ciphertext with
      | ok p =>
        have : decryptMessageSession C s m rd = (.ok (p, s2.clearUnacknowledgedPreKeyMessage), rd') := by rw [hrun, hb, Res.bind_ok, if_pos rfl, hcb]; rfl
        rw [this]
        exact .ok p _ rd' this
      | err e =>
        have : decryptMessageSession C s m rd = (.err e, rd') := by rw [hrun, hb, Res.bind_ok, if_pos rfl, hcb]; rfl
        rw [this]
        refine .body _ rd' hv ck s1 s2 mk h1 h2 (.inr ?_)
        unfold cbcDecrypt at hcb
        split at hcb
        · simp at hcb; exact .inl hcb.symm
        · split at hcb
          · simp at hcb; exact .inr (.inr (.inl hcb.symm))
          · split at hcb
            · simp at hcb; exact .inr (.inl hcb.symm)
            · unfold pkcs7unpad at hcb
              split at hcb
              · simp at hcb
              · simp only at hcb
                split at hcb
                · simp at hcb; exact .inr (.inr (.inr hcb.symm))
                · split at hcb <;> simp at hcb
      | panic =>
        exact absurd hcb (cbcDecrypt_no_panic C _ _ _)

end Verif
