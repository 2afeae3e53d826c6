import Verif.Spec.Reading
import Verif.Proofs.View
import Verif.Proofs.Messages
import Verif.Proofs.Runs
import Mathlib.Data.Set.Finite.List
import Mathlib.Data.Fintype.Card

/-!
A session state decrypts exactly the messages of `Verif.Spec.Reading`.
-/

namespace Verif

open Doc

attribute [local irreducible] maxMessageKeys

/-! ## AES is a permutation of the blocks -/

theorem aes_enc_dec (C : Crypto) (key b : Bytes) (hk : aesKeyOk key = true) (hb : b.length = 16) : C.aesEnc key (C.aesDec key b) = b := by
  haveI : Finite UInt8 := Finite.of_injective (fun x : UInt8 => x.toFin) (fun a b h => UInt8.toFin_inj.mp h)
  haveI : Finite {l : Bytes // l.length = 16} := (List.finite_length_eq UInt8 16).to_subtype
  let f : {l : Bytes // l.length = 16} → {l : Bytes // l.length = 16} := fun l => ⟨C.aesEnc key l.1, C.aesEnc_len key _ l.2⟩
  have hf : Function.Injective f := by
    intro x y h
    have h1 := congrArg (fun z : {l : Bytes // l.length = 16} => C.aesDec key z.1) h
    simp only [f, C.aes_dec_enc key _ hk x.2, C.aes_dec_enc key _ hk y.2] at h1
    exact Subtype.ext h1
  obtain ⟨y, hy⟩ := (Finite.injective_iff_surjective.mp hf) ⟨b, hb⟩
  have h1 : C.aesEnc key y.1 = b := congrArg Subtype.val hy
  rw [← h1, C.aes_dec_enc key _ hk y.2]

theorem cbcEnc_dec (C : Crypto) (key : Bytes) (hk : aesKeyOk key = true) (n : Nat) (iv ct : Bytes) (hiv : iv.length = 16) (hct : ct.length = 16 * n) :
    cbcEncBlocks C key n iv (cbcDecBlocks C key n iv ct) = ct := by
  induction n generalizing iv ct with
  | zero => simp at hct; simp [cbcEncBlocks, hct]
  | succ n ih =>
    have h1 : (ct.take 16).length = 16 := by simp; omega
    have h2 := C.aesDec_len key _ h1
    have h3 : (xorBytes iv (C.aesDec key (ct.take 16))).length = 16 := by rw [xorBytes_length _ _ (by omega), h2]
    simp only [cbcEncBlocks, cbcDecBlocks]
    rw [List.take_left' h3, List.drop_left' h3, xorBytes_cancel _ _ (by omega), aes_enc_dec C key _ hk h1, ih _ _ h1 (by simp; omega),
      List.take_append_drop]

/-- What CBCDecrypt accepts. -/
theorem cbcDecrypt_iff (C : Crypto) {key iv : Bytes} (ct p : Bytes) (hk' : aesKeyOk key = true) (hi : iv.length = 16) :
    cbcDecrypt C key iv ct = .ok p ↔ ∃ padded, Padded p padded ∧ ct = chain C key iv (blocks padded) := by
  have hblocks : ∀ padded : Bytes, padded.length % 16 = 0 → chain C key iv (blocks padded) = cbcEncBlocks C key (padded.length / 16) iv padded := by
    intro padded _
    rw [chain_eq]; rfl
  constructor
  · intro h
    unfold cbcDecrypt at h
    rw [if_neg (by simp [hk'])] at h
    split at h
    · simp at h
    rename_i hl
    rw [if_neg (by simp [hi])] at h
    have hct : ct.length = 16 * (ct.length / 16) := by omega
    have hlen := cbcDecBlocks_length C key (ct.length / 16) iv ct hi hct
    have henc := cbcEnc_dec C key hk' (ct.length / 16) iv ct hi hct
    generalize hd : cbcDecBlocks C key (ct.length / 16) iv ct = pd at h hlen henc
    unfold pkcs7unpad at h
    cases hg : pd.getLast? with
    | none => simp [hg] at h
    | some b =>
      simp only [hg] at h
      split at h
      · simp at h
      rename_i hb
      split at h
      · simp at h
      rename_i hb2
      simp only [Res.ok.injEq] at h
      refine ⟨pd, ⟨pd.drop (pd.length - b.toNat), ?_, ?_, ⟨b, ?_, ?_⟩, by omega⟩, ?_⟩
      · rw [← h, List.take_append_drop]
      · simp; omega
      · rw [List.getLast?_drop, if_neg (by omega), hg]
      · simp; omega
      · rw [hblocks pd (by omega), show pd.length / 16 = ct.length / 16 by omega, henc]
  · rintro ⟨padded, ⟨junk, hp, hj, ⟨b, hb, hbl⟩, hm⟩, rfl⟩
    rw [hblocks padded hm]
    have hne : junk ≠ [] := by intro h; simp [h] at hb
    have hpos : 0 < junk.length := List.length_pos_iff.mpr hne
    have hpl : padded.length = p.length + junk.length := by rw [hp]; simp
    have hlp : padded.length = 16 * (padded.length / 16) := by omega
    have hlen := cbcEncBlocks_length C key (padded.length / 16) iv padded hi hlp
    have hdec := cbcDec_enc C key hk' (padded.length / 16) iv padded hi hlp
    unfold cbcDecrypt
    rw [if_neg (by simp [hk']), if_neg (by omega), if_neg (by simp [hi]), hlen, Nat.mul_div_cancel_left _ (by omega), hdec]
    have hg : padded.getLast? = some b := by rw [hp, List.getLast?_append, hb]; rfl
    simp only [pkcs7unpad, hg]
    rw [if_neg (by omega), if_neg (by omega)]
    rw [show padded.length - b.toNat = p.length by omega, hp]
    simp

/-! ## The MAC -/

theorem verifyMAC_iff (C : Crypto) {macKey : Bytes} (hk : macKey.length = 32) (snd rcv : PubKey) (m : Signal) :
    m.verifyMAC C macKey snd rcv = .ok true ↔
      ∃ body, m.serialized = body ++ (C.hmac macKey (wireKey snd ++ wireKey rcv ++ body)).take 8 := by
  have hmac : ∀ x, ((C.hmac macKey x).take 8).length = 8 := by intro x; simp [C.hmac_len]
  constructor
  · intro h
    by_cases hl : m.serialized.length < 8
    · simp [Signal.verifyMAC, hl] at h
    · have e := (List.take_append_drop (m.serialized.length - 8) m.serialized).symm
      rw [verifyMAC_eq C macKey hk snd rcv m _ _ e (by simp; omega)] at h
      simp only [Res.ok.injEq, beq_iff_eq] at h
      refine ⟨m.serialized.take (m.serialized.length - 8), ?_⟩
      refine e.trans ?_
      rw [← h]
      rfl
  · rintro ⟨body, hb⟩
    rw [verifyMAC_eq C macKey hk snd rcv m _ _ hb (hmac _)]
    simp only [Res.ok.injEq, beq_iff_eq]
    rfl

/-- The message opens under the message keys that the secret bytes hold. -/
theorem opens_iff (C : Crypto) {mk : MessageKeys} {secrets : Bytes} (h1 : mk.cipherKey = secrets.take 32) (h2 : mk.macKey = (secrets.drop 32).take 32)
    (h3 : mk.iv = secrets.drop 64) (l1 : mk.cipherKey.length = 32) (l2 : mk.macKey.length = 32) (l3 : mk.iv.length = 16) (snd rcv : PubKey)
    (m : Signal) (p : Bytes) : Opens C mk snd rcv m p ↔ m.Carries C secrets snd rcv p := by
  constructor
  · intro h
    refine ⟨h.version, ?_, ?_⟩
    · rw [← h2]; exact (verifyMAC_iff C l2 snd rcv m).mp h.mac
    · rw [← h1, ← h3]; exact (cbcDecrypt_iff C m.ciphertext p (aesKeyOk_32 l1) l3).mp h.text
  · intro h
    refine ⟨h.version, ?_, ?_⟩
    · rw [verifyMAC_iff C l2, h2]; exact h.mac
    · rw [cbcDecrypt_iff C m.ciphertext p (aesKeyOk_32 l1) l3, h1, h3]; exact h.text

/-! ## States -/

theorem messageKeys_lengths (C : Crypto) (ck : ChainKey) : (ck.messageKeys C).cipherKey.length = 32 ∧ (ck.messageKeys C).macKey.length = 32 ∧ (ck.messageKeys C).iv.length = 16 :=
  ⟨messageKeys_cipherKey_len C ck, messageKeys_macKey_len C ck, messageKeys_iv_len C ck⟩

theorem opens_chain (C : Crypto) (ck : ChainKey) (n : Nat) (snd rcv : PubKey) (m : Signal) (p : Bytes) :
    Opens C ((chainIter C ck n).messageKeys C) snd rcv m p ↔ m.Carries C (messageSecrets C ck.key n) snd rcv p := by
  obtain ⟨l1, l2, l3⟩ := messageKeys_lengths C (chainIter C ck n)
  have e := messageKeys_eq C ck n
  simp only at e
  exact opens_iff C (by rw [e]) (by rw [e]) (by rw [e]) l1 l2 l3 snd rcv m p

theorem opens_stored (C : Crypto) {mk : MessageKeys} (l1 : mk.cipherKey.length = 32) (l2 : mk.macKey.length = 32) (l3 : mk.iv.length = 16)
    (snd rcv : PubKey) (m : Signal) (p : Bytes) :
    Opens C mk snd rcv m p ↔ m.Carries C (mk.cipherKey ++ mk.macKey ++ mk.iv) snd rcv p := by
  refine opens_iff C ?_ ?_ ?_ l1 l2 l3 snd rcv m p
  · rw [List.append_assoc, List.take_left' l1]
  · rw [List.append_assoc, List.drop_left' l1, List.take_left' l2]
  · rw [List.drop_left' (by simp [l1, l2])]

/-- What a state decrypts it is entitled to read. -/
theorem SState.WF.canRead_of {C : Crypto} {s s' : SState} {m : Signal} {rd rd' p : Bytes} (h : s.WF)
    (hd : decryptMessageSession C s m rd = (.ok (p, s'), rd')) : s.CanRead C m p := by
  obtain ⟨_, _, ck0, s10, mk0, s20, _, _, h10, h20, _⟩ := decryptMessageSession_ok hd
  obtain ⟨_, s1, i, c, c', ck, mk, rk, lk, h1, hw1, hc, hck, htk, hrk, hlk, ho, _⟩ := decrypted_shape h hd
  rw [h10] at h1
  simp only [Prod.mk.injEq, Res.ok.injEq] at h1
  obtain ⟨⟨rfl, rfl⟩, _⟩ := h1
  refine ⟨rk, lk, ?_⟩
  obtain ⟨hmem, hkey⟩ : c ∈ s10.receiverChains ∧ c.senderRatchetKey = m.senderRatchetKey.bytes := ⟨SState.receiverChain_mem hc, (SState.receiverChain_some hc).2⟩
  have hcw := hw1.chainWF c hmem
  obtain ⟨ckx, hckx, hcl, _⟩ := hcw.chain
  have e : ckx = ck0 := by
    rw [hck] at hckx
    cases ckx; cases ck0
    simpa [ChainKey.toPB, and_comm, eq_comm] using hckx
  subst e
  have hrck := PBChain.WF.receiverChainKey hc hck hcl
  obtain ⟨hl, hr, _⟩ := h.chainKeyFor_ids h10
  obtain ⟨hpos, hcase⟩ := messageKeysFor_cases (C := C) hw1 m.counter hrck
  have hjump : ¬ (ckx.index.toNat + 25000 < m.counter.toNat ∧ ¬ s.WithSelf) := by
    have hself : s10.WithSelf ↔ s.WithSelf := by unfold SState.WithSelf; rw [hl, hr]
    rw [hpos, hself] at hcase
    rcases hcase with ⟨_, _, hx⟩ | ⟨_, hx⟩ | ⟨hx, _⟩
    · rw [h20] at hx; simp at hx
    · rw [h20] at hx; simp at hx
    · exact hx
  rcases chainKeyFor_ok h10 with ⟨_, rfl, _⟩ | ⟨hnone, root, ours, rRoot, kp, sRoot, sCk, cur, hroot, hours, hcr, _, _, _, rfl⟩
  · cases htk with
    | stored hlt _ hn hmk =>
      obtain ⟨l1, l2, l3⟩ := hcw.sizes _ hmk
      exact ⟨_, hrk, hlk, .stored c _ hmem hkey hmk hn, (opens_stored C l1 l2 l3 rk lk m p).mp ho⟩
    | ahead hle =>
      refine ⟨_, hrk, hlk, .ahead c _ hmem hkey hck hle ?_, (opens_chain C ckx _ rk lk m p).mp ho⟩
      simp only [ChainKey.toPB]
      rcases Classical.em (s10.WithSelf) with hs | hs
      · exact .inr hs
      · exact .inl (Nat.le_of_not_lt fun hx => hjump ⟨hx, hs⟩)
  · have hno := h.receiverChainKey_none hnone
    have hnew : c = { senderRatchetKey := m.senderRatchetKey.bytes, chainKey := some { index := ckx.index, key := ckx.key } } := by
      obtain ⟨j, hj⟩ := SState.receiverChain_add { s with rootKey := sRoot.key } m.senderRatchetKey ckx hno
      have hc' : (({ s with rootKey := sRoot.key } : SState).addReceiverChain m.senderRatchetKey ckx).receiverChain m.senderRatchetKey = some (i, c) := hc
      rw [hj] at hc'
      simp only [Option.some.injEq, Prod.mk.injEq] at hc'
      exact hc'.2.symm
    obtain ⟨_, _, hzero⟩ := RootKey.createChain_ok hcr
    have hz : ckx.index.toNat = 0 := by rw [hzero]; rfl
    cases htk with
    | stored hlt => omega
    | ahead hle =>
      obtain ⟨sc, hsc, hsw⟩ := h.sender
      obtain ⟨o', ho'⟩ := hsw.priv
      have hoo : ours = o' := by
        simp only [SState.senderRatchetPrivateKey, hsc, ho', newPrivateKey_bytes, Res.ok.injEq] at hours
        exact hours.symm
      subst hoo
      have hroot' : root.key = s.rootKey := by
        simp only [SState.getRootKey, newRootKey, h.root, ne_eq, not_true_eq_false, if_false, Res.ok.injEq] at hroot
        rw [← hroot]
      rw [createChain_eq] at hcr
      cases hdh : C.dh ours.key m.senderRatchetKey.keyBytes with
      | none => simp [PrivKey.agreement, hdh, Res.ofOption] at hcr
      | some d =>
        simp only [PrivKey.agreement, hdh, Res.ofOption, Res.bind_ok, Res.ok.injEq, Prod.mk.injEq] at hcr
        have hchain : ckx.key = (derive C d s.rootKey (ascii "WhisperRatchet")).chain := by
          rw [← hcr.2, ← ascii_root, hroot']
          rfl
        have hopen := (opens_chain C ckx _ rk lk m p).mp ho
        rw [hz, Nat.sub_zero, hchain] at hopen
        refine ⟨_, hrk, hlk, .ratchet (fun x hx => SState.findChain_none.mp hno x hx) sc hsc ours ho' d hdh ?_, hopen⟩
        rcases Classical.em (s.WithSelf) with hs | hs
        · exact .inr hs
        · exact .inl (Nat.le_of_not_lt fun hx => hjump ⟨by omega, hs⟩)

/-- A state decrypts what it is entitled to read, if it can make a new ratchet key for a new chain. -/
theorem SState.WF.reads {C : Crypto} {s : SState} {m : Signal} {p : Bytes} (h : s.WF) (hr : s.CanRead C m p) (rd : Bytes)
    (hrd : 32 ≤ rd.length) (hlow : ∀ a : PrivKey, (C.dh a.key m.senderRatchetKey.key).isSome) :
    ∃ s', (∃ rd', decryptMessageSession C s m rd = (.ok (p, s'), rd')) := by
  obtain ⟨rk, lk, secrets, hrk, hlk, hsec, hcar⟩ := hr
  have find : ∀ c ∈ s.receiverChains, c.senderRatchetKey = wireKey m.senderRatchetKey → ∃ i, s.receiverChain m.senderRatchetKey = some (i, c) := by
    intro c hc hk
    obtain ⟨j, d, hj⟩ := SState.findChain_exists 0 hc hk
    have hd := SState.receiverChain_some (s := s) (k := m.senderRatchetKey) hj
    have hdm := SState.receiverChain_mem (s := s) (k := m.senderRatchetKey) hj
    have : d = c := same_chain h.distinct hdm hc (hd.2.trans hk.symm)
    exact ⟨j, this ▸ hj⟩
  cases hsec with
  | stored c x hc hk hx hn =>
    obtain ⟨i, hi⟩ := find c hc hk
    obtain ⟨ck, hck, _, hlt⟩ := (h.chainWF c hc).chain
    obtain ⟨l1, l2, l3⟩ := (h.chainWF c hc).sizes x hx
    have hx' := hlt x hx
    rw [hn, UInt32.lt_iff_toNat_lt] at hx'
    have ho := (opens_stored (mk := ⟨x.cipherKey, x.macKey, x.iv, x.index⟩) C l1 l2 l3 rk lk m p).mpr hcar
    exact ⟨_, _, h.decrypts_stored (mk := ⟨x.cipherKey, x.macKey, x.iv, x.index⟩) rd hi hck hlk hrk hx' hx hn ho⟩
  | ahead c ck hc hk hck hn hj =>
    obtain ⟨i, hi⟩ := find c hc hk
    have hck' : c.chainKey = some (ChainKey.toPB ⟨ck.key, ck.index⟩) := hck
    refine ⟨_, _, h.decrypts_ahead rd hi hck' hlk hrk hn ?_ ((opens_chain C ⟨ck.key, ck.index⟩ _ rk lk m p).mpr hcar)⟩
    rcases hj with hj | hj
    · exact .inl hj
    · refine .inr (PubKey.bytes_inj ?_)
      exact hrk.symm.trans (hj.symm.trans hlk)
  | ratchet hk sc hs ours ho d hd hj =>
    have hno : s.receiverChain m.senderRatchetKey = none := SState.findChain_none.mpr hk
    have hnone : s.receiverChainKey m.senderRatchetKey = .ok none := by simp only [SState.receiverChainKey, hno]
    have hroot : s.getRootKey = .ok ⟨s.rootKey⟩ := by simp only [SState.getRootKey, newRootKey, h.root, ne_eq, not_true_eq_false, if_false]
    have hours : s.senderRatchetPrivateKey = .ok ours := by simp only [SState.senderRatchetPrivateKey, hs, ho, newPrivateKey_bytes]
    obtain ⟨sc', hs', hsw⟩ := h.sender
    rw [hs] at hs'
    simp only [Option.some.injEq] at hs'
    subst hs'
    obtain ⟨cur, hcur, hcl⟩ := hsw.chain
    have hcur' : s.senderChainKey = .ok cur := by
      simp only [SState.senderChainKey, hs, hcur, ChainKey.toPB, newChainKey, hcl, ne_eq, not_true_eq_false, if_false]
    have hcr : ∀ (r : RootKey) (a : PrivKey) (d : Bytes), C.dh a.key m.senderRatchetKey.key = some d →
        r.createChain C a m.senderRatchetKey = .ok (⟨(derive C d r.key (ascii "WhisperRatchet")).root⟩, ⟨(derive C d r.key (ascii "WhisperRatchet")).chain, 0⟩) := by
      intro r a d hd
      rw [createChain_eq, ← ascii_root]
      simp only [PrivKey.agreement, PubKey.keyBytes, hd, Res.ofOption, Res.bind_ok]
      rfl
    obtain ⟨kp, hkp, _⟩ := generateKeyPair_run C rd hrd
    obtain ⟨d2, hd2⟩ := Option.isSome_iff_exists.mp (hlow kp.priv)
    have h1 := hcr ⟨s.rootKey⟩ ours d hd
    have h2 := hcr ⟨(derive C d s.rootKey (ascii "WhisperRatchet")).root⟩ kp.priv d2 hd2
    have hck : ∃ s1 rd', Verif.chainKeyFor C s m.senderRatchetKey rd = (.ok (⟨(derive C d s.rootKey (ascii "WhisperRatchet")).chain, 0⟩, s1), rd') := by
      unfold Verif.chainKeyFor
      rw [M.bind_ok_run (show M.lift _ rd = (.ok none, rd) by rw [M.lift_run, hnone])]
      simp only
      rw [M.bind_ok_run (show M.lift _ rd = (.ok _, rd) by rw [M.lift_run, hroot]),
        M.bind_ok_run (show M.lift _ rd = (.ok _, rd) by rw [M.lift_run, hours]),
        M.bind_ok_run (show M.lift _ rd = (.ok _, rd) by rw [M.lift_run, h1])]
      simp only
      rw [M.bind_ok_run hkp]
      rw [M.bind_ok_run (show M.lift _ _ = (.ok _, _) by rw [M.lift_run, h2])]
      simp only
      rw [M.bind_ok_run (show M.lift _ _ = (.ok _, _) by rw [M.lift_run, hcur'])]
      exact ⟨_, _, rfl⟩
    obtain ⟨s1, rd', hck⟩ := hck
    obtain ⟨hw1, hrck⟩ := h.chainKeyFor hck
    obtain ⟨hl, hr, _⟩ := h.chainKeyFor_ids hck
    cases hc : s1.receiverChain m.senderRatchetKey with
    | none => simp [SState.receiverChainKey, hc] at hrck
    | some y =>
      obtain ⟨i, c⟩ := y
      have hcw := hw1.chainWF c (SState.receiverChain_mem hc)
      have hm := messageKeysFor_new C s1 m.senderRatchetKey ⟨(derive C d s.rootKey (ascii "WhisperRatchet")).chain, 0⟩ m.counter i c hc hcw.count
        (by rw [gt_iff_lt, UInt32.lt_iff_toNat_lt]; simp) ?_
      · refine ⟨_, _, decryptMessageSession_run h hck hm (hl.trans hlk) (hr.trans hrk) ?_⟩
        rw [opens_chain]
        simpa using hcar
      · rcases hj with hj | hj
        · refine .inl ?_
          rw [jump_iff (by simp)]; simp; omega
        · refine .inr ?_
          rw [sessionWithSelf_eq (hl.trans hlk) (hr.trans hrk)]
          have : rk = lk := PubKey.bytes_inj (hrk.symm.trans (hj.symm.trans hlk))
          rw [this]; simp

/-! ## Records and calls -/

theorem Record.WF.promoted_state {r : Record} (h : r.WF) {t s : SState} (hs : (r.promoteState t).HasState s) : s = t ∨ r.HasState s := by
  rcases hs with hc | ⟨b, hb, hu⟩
  · simp only [Record.promoteState, Option.some.injEq] at hc
    exact .inl hc.symm
  · right
    cases hcur : r.current with
    | none =>
      simp only [Record.promoteState, Record.archiveCurrentState, hcur] at hb
      exact .inr ⟨b, hb, hu⟩
    | some cur =>
      simp only [Record.promoteState, Record.archiveCurrentState, hcur, List.mem_append, List.mem_singleton] at hb
      rcases hb with hb | rfl
      · refine .inr ⟨b, ?_, hu⟩
        split at hb
        · exact List.mem_of_mem_drop hb
        · exact hb
      · rw [(h.current cur hcur).round_trip] at hu
        simp only [Res.ok.injEq] at hu
        exact .inl (by rw [hcur, hu])

/-- The state set up for a pre-key message is the one of X3DH. -/
theorem fresh_answers {C : Crypto} {w : World} {m : PreKeyMsg} {signed oneTime : Option KeyPair} {s s' : SState}
    (hs : LoadsPair w.signedPreKeys m.signedPreKeyID signed)
    (ho : match m.preKeyID with | none => oneTime = none | some id => LoadsPair w.preKeys id oneTime)
    (hi : initializeBobSession C ⟨w.identity, signed, oneTime, signed, m.identityKey, m.baseKey⟩ = .ok s)
    (hs' : s' = { s with localRegistrationId := w.regId, remoteRegistrationId := m.registrationID, aliceBaseKey := m.baseKey.bytes }) :
    s'.Answers C w m := by
  obtain ⟨sg, rt, dh1, dh2, dh3, dh4, e1, e2, a1, a2, a3, a4, rk, ck, hdk, rfl⟩ := initializeBob_ok hi
  simp only at e1 e2 a1 a2 a3 a4
  subst e1
  simp only [Option.some.injEq] at e2
  subst e2
  subst hs'
  have some_of : ∀ {a : PrivKey} {q : PubKey} {d : Bytes}, a.agreement C q = .ok d → C.dh a.key q.key = some d := by
    intro a q d h
    unfold PrivKey.agreement at h
    cases hd : C.dh a.key q.keyBytes with
    | none => simp [hd, Res.ofOption] at h
    | some x =>
      simp only [hd, Res.ofOption, Res.ok.injEq] at h
      rw [← h]; exact hd
  rcases hs with ⟨_, h0⟩ | ⟨rec, k, hrec, hk, h0⟩
  · simp at h0
  simp only [Option.some.injEq] at h0
  subst h0
  have hroot : rk.key = (derive C (List.replicate 32 0xFF ++ dh1 ++ dh2 ++ dh3 ++ dh4) [] (ascii "WhisperText")).root := by
    rw [deriveKeys_ok] at hdk
    simp only [Res.ok.injEq, Prod.mk.injEq] at hdk
    rw [← hdk.1]
    show _ = List.take 32 _
    rw [← ascii_text]
    rfl
  refine ⟨rfl, rfl, rfl, rec, sg, oneTime, dh1, dh2, dh3, dh4, hrec, hk, ?_, some_of a1, some_of a2, some_of a3, ?_, hroot, _, rfl, rfl⟩
  · cases hid : m.preKeyID with
    | none =>
      simp only [hid] at ho
      exact .inl ⟨ho, rfl⟩
    | some id =>
      simp only [hid] at ho
      rcases ho with ⟨h1, h2⟩ | ⟨q, k, h1, h2, h3⟩
      · exact .inl ⟨h2, h1⟩
      · exact .inr ⟨q, k, h1, h2, h3⟩
  · cases oneTime with
    | none => simp only [Res.ok.injEq] at a4; exact a4.symm
    | some k => exact some_of a4

/-- Where the plaintext of a plain message comes from. -/
theorem signal_plaintext {E : Env} {a : Address} {m : Signal} {w : World} {p : Bytes}
    (hp : (decryptMessage E a (.signal m) w).1 = .ok (some p)) :
    ∃ rec rec' rd, w.sessions a = some rec ∧ decryptRecord E.C rec m w.rand = (.ok (p, rec'), rd) := by
  simp only [decryptMessage] at hp
  have ho := signal_outcome E a m w
  generalize decryptSignal E a m w = x at ho hp
  obtain ⟨r, w'⟩ := x
  simp only at ho hp
  subst hp
  cases ho with
  | early _ fs rd hr => exact absurd rfl (hr _)
  | stopped _ fs hr => exact absurd rfl (hr _)
  | done fs rec rec' pt rd st k h1 h2 =>
    cases h2 with
    | ok _ _ rd' hd => exact ⟨rec, rec', rd, h1, hd⟩

/-! ## Messages that are read -/

/-- Uses no randomness. -/
def Still {α} (x : M Bytes α) : Prop := ∀ rd, (x rd).2 = rd

/-- Uses at most 32 random bytes, if there are that many. -/
def Once {α} (x : M Bytes α) : Prop := ∀ rd, 32 ≤ rd.length → (x rd).2 = rd ∨ (x rd).2 = rd.drop 32

theorem Still.once {α} {x : M Bytes α} (h : Still x) : Once x := fun rd _ => .inl (h rd)

theorem Still.bind_still {α β} {x : M Bytes α} {f : α → M Bytes β} (h : Still x) (hf : ∀ a, Still (f a)) : Still (x >>= f) := by
  intro rd
  have h1 := h rd
  rw [M.bind_run]
  rcases hx : x rd with ⟨r, rd'⟩
  rw [hx] at h1
  simp only at h1
  subst h1
  cases r with
  | ok a => exact hf a _
  | err e => rfl
  | panic => rfl

theorem Still.bind_once {α β} {x : M Bytes α} {f : α → M Bytes β} (h : Still x) (hf : ∀ a, Once (f a)) : Once (x >>= f) := by
  intro rd hl
  have h1 := h rd
  rw [M.bind_run]
  rcases hx : x rd with ⟨r, rd'⟩
  rw [hx] at h1
  simp only at h1
  subst h1
  cases r with
  | ok a => exact hf a _ hl
  | err e => exact .inl rfl
  | panic => exact .inl rfl

theorem Once.bind_still {α β} {x : M Bytes α} {f : α → M Bytes β} (h : Once x) (hf : ∀ a, Still (f a)) : Once (x >>= f) := by
  intro rd hl
  have h1 := h rd hl
  rw [M.bind_run]
  rcases hx : x rd with ⟨r, rd'⟩
  rw [hx] at h1
  simp only at h1
  cases r with
  | ok a =>
    show (f a rd').2 = rd ∨ (f a rd').2 = rd.drop 32
    rw [hf a rd']
    exact h1
  | err e => exact h1
  | panic => exact h1

theorem still_lift {α} (x : Res α) : Still (M.lift x) := fun rd => by rw [M.lift_run]
theorem still_pure {α} (x : α) : Still (pure x : M Bytes α) := fun _ => rfl
theorem still_throw {α} (e : Err) : Still (M.throw e : M Bytes α) := fun _ => rfl

theorem once_generate (C : Crypto) : Once (generateKeyPair C) := by
  intro rd h
  obtain ⟨k, hk, _⟩ := generateKeyPair_run C rd h
  exact .inr (by rw [hk])

theorem once_chainKeyFor (C : Crypto) (s : SState) (k : PubKey) : Once (chainKeyFor C s k) := by
  unfold chainKeyFor
  refine (still_lift _).bind_once fun o => ?_
  cases o with
  | some c => exact (still_pure _).once
  | none =>
    refine (still_lift _).bind_once fun _ => (still_lift _).bind_once fun _ => (still_lift _).bind_once fun x => ?_
    obtain ⟨_, _⟩ := x
    refine (once_generate C).bind_still fun _ => (still_lift _).bind_still fun x => ?_
    obtain ⟨_, _⟩ := x
    exact (still_lift _).bind_still fun _ => still_pure _

theorem once_decrypt (C : Crypto) (s : SState) (m : Signal) : Once (decryptMessageSession C s m) := by
  unfold decryptMessageSession
  split
  · exact (still_throw _).once
  · split
    · exact (still_throw _).once
    · refine (once_chainKeyFor C s _).bind_still fun x => ?_
      obtain ⟨_, _⟩ := x
      exact still_lift _

/-- A message is reported as a duplicate only if its counter is spent. -/
theorem SState.WF.duplicate_spent {C : Crypto} {s : SState} {m : Signal} {rd rd' : Bytes} (h : s.WF)
    (hd : decryptMessageSession C s m rd = (.err .duplicateMessage, rd')) : s.Spent m.senderRatchetKey m.counter := by
  have hc := h.decryptCases (C := C) m rd
  rw [hd] at hc
  cases hc with
  | chain _ _ hv hn h1 he => rcases he with he | he <;> simp at he
  | body _ _ hv ck s1 s2 mk h1 h2 he => rcases he with he | he | he | he | he <;> simp at he
  | keys _ _ hv ck s1 h1 h2 he =>
    rcases chainKeyFor_ok h1 with ⟨hck, rfl, _⟩ | ⟨hnone, root, ours, rRoot, kp, sRoot, sCk, cur, _, _, hcr, _, _, _, _⟩
    · cases hc : s1.receiverChain m.senderRatchetKey with
      | none => simp [SState.receiverChainKey, hc] at hck
      | some y =>
        obtain ⟨i, c⟩ := y
        have hmem := SState.receiverChain_mem hc
        have hcw := h.chainWF c hmem
        obtain ⟨ck', hck', hl, hlt⟩ := hcw.chain
        rw [PBChain.WF.receiverChainKey hc hck' hl] at hck
        simp only [Res.ok.injEq, Option.some.injEq] at hck
        subst hck
        by_cases hgt : ck'.index > m.counter
        · rw [messageKeysFor_old C s1 m.senderRatchetKey ck' m.counter i c hc hgt] at h2
          refine ⟨c, hmem, (SState.receiverChain_some hc).2, ⟨_, hck', hgt⟩, ?_⟩
          intro k hk hkn
          cases hg : (c.messageKeys.filter fun k => k.index = m.counter).getLast? with
          | none =>
            rw [List.getLast?_eq_none_iff, List.filter_eq_nil_iff] at hg
            exact hg k hk (by simpa using hkn)
          | some x =>
            have hx : x ∈ c.messageKeys := (List.mem_filter.mp (List.mem_of_getLast? hg)).1
            obtain ⟨l1, l2, l3⟩ := hcw.sizes x hx
            simp [hg, newMessageKeys, l1, l2, l3] at h2
        · exfalso
          rcases Classical.em (m.counter - ck'.index > maxJumps ∧ s1.sessionWithSelf ≠ .ok true) with hj | hj
          · rcases (messageKeysFor_cases (C := C) h m.counter (PBChain.WF.receiverChainKey hc hck' hl)) with ⟨hpos, ⟨_, _, hx⟩ | ⟨hx, _⟩ | ⟨_, _, _, hx, _⟩⟩
            · rw [h2] at hx; simp at hx
            · rw [hpos] at hx
              rw [gt_iff_lt, UInt32.lt_iff_toNat_lt] at hgt
              omega
            · rw [h2] at hx; simp at hx
          · rw [messageKeysFor_new C s1 m.senderRatchetKey ck' m.counter i c hc hcw.count hgt (by
              rcases Classical.em (m.counter - ck'.index > maxJumps) with h0 | h0
              · exact .inr (Classical.not_not.mp fun hx => hj ⟨h0, hx⟩)
              · exact .inl h0)] at h2
            simp at h2
    · exfalso
      obtain ⟨hw1, hrck⟩ := h.chainKeyFor h1
      obtain ⟨_, _, hz⟩ := RootKey.createChain_ok hcr
      rcases messageKeysFor_cases (C := C) hw1 m.counter hrck with ⟨hpos, ⟨_, _, hx⟩ | ⟨hx, _⟩ | ⟨_, _, _, hx, _⟩⟩
      · rw [h2] at hx; simp at hx
      · rw [hpos, hz] at hx; simp at hx
      · rw [h2] at hx; simp at hx

theorem SState.CanRead.long {C : Crypto} {s : SState} {m : Signal} {p : Bytes} (h : s.CanRead C m p) : 8 ≤ m.serialized.length := by
  obtain ⟨_, _, secrets, _, _, _, hcar⟩ := h
  obtain ⟨body, hb⟩ := hcar.mac
  rw [hb, List.length_append, List.length_take, C.hmac_len]
  omega

/-- What happens to a message in one state. -/
theorem SState.WF.tried {C : Crypto} {s : SState} {m : Signal} (h : s.WF) (hm : 8 ≤ m.serialized.length)
    (hsp : ¬ s.Spent m.senderRatchetKey m.counter) (hlow : ∀ a : PrivKey, (C.dh a.key m.senderRatchetKey.key).isSome) (rd : Bytes) (hrd : 32 ≤ rd.length) :
    (∃ q s' rd', decryptMessageSession C s m rd = (.ok (q, s'), rd') ∧ s.CanRead C m q ∧ (rd' = rd ∨ rd' = rd.drop 32)) ∨
      ∃ e rd', decryptMessageSession C s m rd = (.err e, rd') ∧ e ≠ .duplicateMessage ∧ (∀ q, ¬ s.CanRead C m q) ∧ (rd' = rd ∨ rd' = rd.drop 32) := by
  have h1 := once_decrypt C s m rd hrd
  have h2 := h.no_panic (C := C) hm rd
  have h3 := fun q => fun hq => h.reads (C := C) (m := m) (p := q) hq rd hrd hlow
  rcases hx : decryptMessageSession C s m rd with ⟨r, rd'⟩
  rw [hx] at h1 h2
  cases r with
  | ok x =>
    obtain ⟨q, s'⟩ := x
    exact .inl ⟨q, s', rd', rfl, h.canRead_of hx, h1⟩
  | err e =>
    refine .inr ⟨e, rd', rfl, ?_, ?_, h1⟩
    · rintro rfl
      exact hsp (h.duplicate_spent hx)
    · intro q hq
      obtain ⟨s', rd2, h4⟩ := h3 q hq
      rw [hx] at h4
      simp at h4
  | panic => exact absurd rfl h2

theorem tryPrevious_reads {C : Crypto} {m : Signal} (hm : 8 ≤ m.serialized.length)
    (hlow : ∀ a : PrivKey, (C.dh a.key m.senderRatchetKey.key).isSome) (l : List SState) (hl : ∀ s ∈ l, s.WF)
    (hsp : ∀ s ∈ l, ¬ s.Spent m.senderRatchetKey m.counter) (i : Nat) (found : Option (Nat × SState × Bytes)) (rd : Bytes)
    (hrd : 32 * l.length ≤ rd.length) (hf : found.isSome ∨ ∃ s ∈ l, ∃ p, s.CanRead C m p) :
    ∃ x rd', tryPrevious C m l i found rd = (.ok (some x), rd') := by
  induction l generalizing i found rd with
  | nil =>
    rcases hf with hf | ⟨s, hs, _⟩
    · obtain ⟨x, rfl⟩ := Option.isSome_iff_exists.mp hf
      exact ⟨x, rd, rfl⟩
    · simp at hs
  | cons x l ih =>
    simp only [List.length_cons] at hrd
    have hrest : ∀ rd' : Bytes, (rd' = rd ∨ rd' = rd.drop 32) → 32 * l.length ≤ rd'.length := by
      rintro rd' (rfl | rfl)
      · omega
      · rw [List.length_drop]; omega
    simp only [tryPrevious]
    rw [M.bind_run]
    unfold M.attempt
    rcases (hl x (by simp)).tried hm (hsp x (by simp)) hlow rd (by omega) with ⟨q, s', rd', h1, h2, h3⟩ | ⟨e, rd', h1, h2, h3, h4⟩
    · rw [h1]
      exact ih (fun s hs => hl s (by simp [hs])) (fun s hs => hsp s (by simp [hs])) _ _ _ (hrest _ h3) (.inl rfl)
    · rw [h1]
      have := ih (fun s hs => hl s (by simp [hs])) (fun s hs => hsp s (by simp [hs])) (i + 1) found rd' (hrest _ h4) (by
        rcases hf with hf | ⟨s, hs, p, hp⟩
        · exact .inl hf
        · rcases List.mem_cons.mp hs with rfl | hs
          · exact absurd hp (h3 p)
          · exact .inr ⟨s, hs, p, hp⟩)
      cases e <;> first | exact absurd rfl h2 | exact this

/-- A record decrypts what one of its states is entitled to read. -/
theorem Record.WF.reads {C : Crypto} {r : Record} (h : r.WF) {m : Signal} {s : SState} {p : Bytes} (hs : r.HasState s) (hr : s.CanRead C m p)
    (hsp : ∀ s, r.HasState s → ¬ s.Spent m.senderRatchetKey m.counter)
    (hlow : ∀ a : PrivKey, (C.dh a.key m.senderRatchetKey.key).isSome) (rd : Bytes) (hrd : 32 * r.size ≤ rd.length) :
    ∃ q r' rd', decryptRecord C r m rd = (.ok (q, r'), rd') := by
  have hm := hr.long
  obtain ⟨l, hl, he, hp⟩ := h.states
  have hlen : r.previous.length = l.length := by rw [he, List.length_map]
  have hmem : ∀ t, r.HasState t ↔ t ∈ l ∨ r.current = some t := fun t => (h.hasState hp t).trans or_comm
  have hprev : ∀ rd', 32 * l.length ≤ rd'.length → (∃ t ∈ l, ∃ p, t.CanRead C m p) → ∃ q r' rd'', decryptPrevious C r m rd' = (.ok (q, r'), rd'') := by
    intro rd' h1 h2
    unfold decryptPrevious
    rw [M.bind_run, M.lift_run, hp]
    simp only
    obtain ⟨⟨idx, s', q⟩, rd'', hx⟩ := tryPrevious_reads hm hlow l hl (fun t ht => hsp t ((hmem t).mpr (.inl ht))) 0 none rd' h1 (.inr h2)
    rw [M.bind_run, hx]
    exact ⟨q, _, _, rfl⟩
  unfold decryptRecord
  cases hc : r.current with
  | none =>
    simp only
    refine hprev rd ?_ ?_
    · simp [Record.size, hc] at hrd; omega
    · rcases (hmem s).mp hs with h1 | h1
      · exact ⟨s, h1, p, hr⟩
      · rw [hc] at h1; simp at h1
  | some c =>
    simp only
    have hsz : 32 * l.length + 32 ≤ rd.length := by simp [Record.size, hc] at hrd; omega
    rw [M.bind_run]
    unfold M.attempt
    rcases (h.current c hc).tried hm (hsp c (.inl hc)) hlow rd (by omega) with ⟨q, s', rd', h1, h2, h3⟩ | ⟨e, rd', h1, h2, h3, h4⟩
    · rw [h1]
      exact ⟨q, _, _, rfl⟩
    · rw [h1]
      have := hprev rd' (by rcases h4 with rfl | rfl <;> (try rw [List.length_drop]) <;> omega) (by
        rcases (hmem s).mp hs with h5 | h5
        · exact ⟨s, h5, p, hr⟩
        · rw [hc] at h5
          simp only [Option.some.injEq] at h5
          exact absurd (h5 ▸ hr) (h3 p))
      cases e <;> first | exact absurd rfl h2 | exact this

/-! ## Calls -/

theorem agreement_of {C : Crypto} {a : PrivKey} {q : PubKey} {d : Bytes} (h : C.dh a.key q.key = some d) : a.agreement C q = .ok d := by
  unfold PrivKey.agreement
  have : C.dh a.key q.keyBytes = some d := h
  rw [this]; rfl

/-- Two states that answer the same message read the same. -/
theorem SState.Answers.canRead {C : Crypto} {w : World} {pm : PreKeyMsg} {s t : SState} (hs : s.Answers C w pm) (ht : t.Answers C w pm)
    {m : Signal} {p : Bytes} (h : s.CanRead C m p) : t.CanRead C m p := by
  obtain ⟨sk, rk, secrets, h1, h2, h3, h4⟩ := h
  refine ⟨sk, rk, secrets, ?_, ?_, ?_, h4⟩
  · rw [ht.theirs, ← hs.theirs, h1]
  · rw [ht.ours, ← hs.ours, h2]
  obtain ⟨rec, sg, ot, d1, d2, d3, d4, a1, a2, a3, a4, a5, a6, a7, a8, sc, a9, a10⟩ := hs.keys
  obtain ⟨rec', sg', ot', e1, e2, e3, e4, b1, b2, b3, b4, b5, b6, b7, b8, sc', b9, b10⟩ := ht.keys
  obtain rfl : rec = rec' := by simpa using a1.symm.trans b1
  obtain rfl : sg = sg' := by simpa using a2.symm.trans b2
  obtain rfl : ot = ot' := by
    rcases a3 with ⟨x1, x2⟩ | ⟨r1, k1, x1, x2, x3⟩ <;> rcases b3 with ⟨y1, y2⟩ | ⟨r2, k2, y1, y2, y3⟩
    · rw [x1, y1]
    · rw [x2] at y1; simp at y1
    · rw [y2] at x1; simp at x1
    · rw [x1] at y1
      simp only [Option.some.injEq] at y1
      subst y1
      rw [x2] at y2
      simp only [Res.ok.injEq] at y2
      rw [x3, y3, y2]
  obtain rfl : d1 = e1 := by simpa using a4.symm.trans b4
  obtain rfl : d2 = e2 := by simpa using a5.symm.trans b5
  obtain rfl : d3 = e3 := by simpa using a6.symm.trans b6
  obtain rfl : d4 = e4 := by
    cases ot with
    | none => simp only at a7 b7; rw [a7, b7]
    | some k => simpa using a7.symm.trans b7
  have hself : s.WithSelf ↔ t.WithSelf := by
    unfold SState.WithSelf
    rw [hs.ours, hs.theirs, ht.ours, ht.theirs]
  cases h3 with
  | stored c x hc => rw [hs.fresh] at hc; simp at hc
  | ahead c ck hc => rw [hs.fresh] at hc; simp at hc
  | ratchet hk sc0 hs0 ours ho d hd hj =>
    have hroot : s.rootKey = t.rootKey := a8.trans b8.symm
    rw [hroot]
    refine .ratchet ?_ sc' b9 ours ?_ d hd (hj.imp id hself.mp)
    · rw [ht.fresh]; simp
    · rw [b10, ← a10, ← ho]
      rw [a9] at hs0
      simp only [Option.some.injEq] at hs0
      rw [hs0]

/-- A pre-key message that X3DH answers leads to a session. -/
theorem SState.Answers.processed {E : Env} {w : World} {pm : PreKeyMsg} {s : SState} (h : s.Answers E.C w pm) {r : Record}
    (hr : r.hasSessionState pm.version.toUInt32 pm.baseKey.bytes = .ok false) :
    ∃ t, t.Answers E.C w pm ∧ Processed E w r pm pm.preKeyID (r.promoteState t) := by
  obtain ⟨rec, sg, ot, d1, d2, d3, d4, a1, a2, a3, a4, a5, a6, a7, a8, sc, a9, a10⟩ := h.keys
  have hsg : LoadsPair w.signedPreKeys pm.signedPreKeyID (some sg) := .inr ⟨rec, sg, a1, a2, rfl⟩
  have hot : match pm.preKeyID with | none => ot = none | some id => LoadsPair w.preKeys id ot := by
    cases hid : pm.preKeyID with
    | none =>
      rcases a3 with ⟨x1, _⟩ | ⟨r1, k1, x1, _⟩
      · exact x1
      · rw [hid] at x1; simp at x1
    | some id =>
      rw [hid] at a3
      rcases a3 with ⟨x1, x2⟩ | ⟨r1, k1, x1, x2, x3⟩
      · exact .inl ⟨x2, x1⟩
      · exact .inr ⟨r1, k1, x1, x2, x3⟩
  have hinit : ∃ s0, initializeBobSession E.C ⟨w.identity, some sg, ot, some sg, pm.identityKey, pm.baseKey⟩ = .ok s0 := by
    unfold initializeBobSession
    simp only [deref, Res.bind_ok, agreement_of a4, agreement_of a5, agreement_of a6]
    cases ot with
    | none => simp only [Res.bind_ok, deriveKeys_ok]; exact ⟨_, rfl⟩
    | some k =>
      simp only at a7
      simp only [Res.bind_ok, agreement_of a7, deriveKeys_ok]; exact ⟨_, rfl⟩
  obtain ⟨s0, hi⟩ := hinit
  exact ⟨_, fresh_answers hsg hot hi rfl, .fresh hr _ _ _ hsg hot hi _ rfl⟩

theorem Record.WF.state_of {r : Record} (h : r.WF) {s : SState} (hs : r.HasState s) : s.WF := by
  obtain ⟨l, hl, _, hp⟩ := h.states
  rcases (h.hasState hp s).mp hs with h1 | h1
  · exact h.current s h1
  · exact hl s h1

/-- Whatever is delivered, one of the states that may read it can read. -/
theorem delivered_reader {E : Env} {w : World} (hw : w.WF) {a : Address} {c : Ciphertext} {p : Bytes}
    (hp : (decryptMessage E a c w).1 = .ok (some p)) :
    ∃ m s, c.inner = some m ∧ w.Reader E.C a c s ∧ s.CanRead E.C m p := by
  cases c with
  | senderKey m => simp [decryptMessage] at hp
  | plaintext m => simp [decryptMessage] at hp
  | signal m =>
    obtain ⟨rec, rec', rd, h1, h2⟩ := signal_plaintext hp
    obtain ⟨s, s', rd1, rd2, h3, h4⟩ := decryptRecord_state h2
    exact ⟨m, s, rfl, .stored _ rec s h1 h3, ((hw a rec h1).state_of h3).canRead_of h4⟩
  | preKey m =>
    obtain ⟨id, rec, rec', rd, h1, h2⟩ := preKey_plaintext hp
    obtain ⟨s, s', rd1, rd2, h3, h4⟩ := decryptRecord_state h2
    have hr0 : ((w.sessions a).getD {}).WF := by
      cases h : w.sessions a with
      | none => exact Record.WF.empty
      | some r => exact hw a r h
    have hcan := ((h1.WF hr0).state_of h3).canRead_of h4
    have back : ((w.sessions a).getD {}).HasState s → ∃ m_1 s, (Ciphertext.preKey m).inner = some m_1 ∧ w.Reader E.C a (.preKey m) s ∧ s.CanRead E.C m_1 p := by
      intro hs
      cases h : w.sessions a with
      | none =>
        rw [h] at hs
        rcases hs with hs | ⟨b, hb, _⟩
        · simp at hs
        · simp at hb
      | some r =>
        rw [h] at hs
        exact ⟨m.message, s, rfl, .stored _ r s h hs, hcan⟩
    cases h1 with
    | found _ => exact back h3
    | fresh hf signed oneTime s0 hs ho hi s1 hs1 =>
      rcases hr0.promoted_state h3 with rfl | h5
      · refine ⟨m.message, s, rfl, .fresh m s ?_ (fresh_answers hs ho hi hs1), hcan⟩
        intro r hr hk
        rw [hr] at hf
        simp only [Option.getD_some] at hf
        rcases (hw a r hr).hasSessionState m.version.toUInt32 m.baseKey with ⟨_, h6⟩ | ⟨h6, _⟩
        · rw [h6] at hf; simp at hf
        · exact h6 hk
      · exact back h5

end Verif
