import Verif.Proofs.Protocol
import Verif.Proofs.GroupHistory
import Verif.Spec.Conformity
import Verif.Proofs.XEdDSA

/-!
The group messages and distribution messages of a sender have the bytes of `Verif.Spec.Protocol`.
-/

namespace Verif

open Wire (Field Val encFields encField encVarintN encVarint)

namespace Doc

theorem hex_eq (b : UInt8) : hex b = [hexDigit (b >>> 4), hexDigit (b &&& 15)] :=
  forall_u8 (p := fun b => hex b = [hexDigit (b >>> 4), hexDigit (b &&& 15)]) (by decide +kernel) b

theorem uuid_eq (d : DistId) : d.string = uuid d.id := by
  obtain ⟨id, h⟩ := d
  match id, h with
  | [b0, b1, b2, b3, b4, b5, b6, b7, b8, b9, b10, b11, b12, b13, b14, b15], _ =>
    have e : ascii "-" = [45] := by decide +kernel
    simp only [DistId.string, uuid, hex_eq, e, List.range, List.range.loop, List.flatMap_cons, List.flatMap_nil]
    rfl

theorem uuid_length (d : DistId) : (uuid d.id).length = 36 := by
  rw [← uuid_eq]
  obtain ⟨id, h⟩ := d
  match id, h with
  | [b0, b1, b2, b3, b4, b5, b6, b7, b8, b9, b10, b11, b12, b13, b14, b15], _ => rfl

theorem marshal_senderKey (d : DistId) (cid n : UInt32) {ct : Bytes} (h : ct.length < 2 ^ 64) :
    PBSenderKey.marshal { distributionUuid := some d.string, chainId := some cid, iteration := some n, ciphertext := some ct } =
      bytes 1 (uuid d.id) ++ number 2 cid ++ number 3 n ++ bytes 4 ct := by
  simp only [PBSenderKey.marshal, optLen, optVarint, encFields_eq, List.cons_append, List.nil_append, List.map_cons, List.map_nil,
    List.flatten_cons, List.flatten_nil, List.append_nil]
  rw [uuid_eq, encField_bytes (by omega) (by rw [uuid_length]; omega), encField_number (by omega), encField_number (by omega), encField_bytes (by omega) h]
  simp only [List.append_assoc]

theorem marshal_distribution (d : DistId) (cid n : UInt32) {ck : Bytes} (h : ck.length < 2 ^ 64) (k : PubKey) :
    PBDistribution.marshal { distributionUuid := some d.string, chainId := some cid, iteration := some n, chainKey := some ck, signingKey := some k.bytes } =
      bytes 1 (uuid d.id) ++ number 2 cid ++ number 3 n ++ bytes 4 ck ++ bytes 5 (wireKey k) := by
  simp only [PBDistribution.marshal, optLen, optVarint, encFields_eq, List.cons_append, List.nil_append, List.map_cons, List.map_nil,
    List.flatten_cons, List.flatten_nil, List.append_nil]
  rw [uuid_eq, encField_bytes (by omega) (by rw [uuid_length]; omega), encField_number (by omega), encField_number (by omega), encField_bytes (by omega) h,
    encField_bytes (by omega) (by rw [PubKey.bytes_length]; omega)]
  simp only [List.append_assoc]
  rfl

theorem skIter_seed (C : Crypto) (first : Bytes) (i : UInt32) (n : Nat) : (skIter C ⟨first, i⟩ n).seed = chainKey C first n := by
  induction n with
  | zero => rfl
  | succ n ih => rw [skIter, chainKey, ← ih]; rfl

theorem chainKey_length (C : Crypto) {first : Bytes} (h : first.length = 32) (n : Nat) : (chainKey C first n).length = 32 := by
  cases n with
  | zero => exact h
  | succ n => exact C.hmac_len _ _

/-- The message of a sender whose chain is at position `n`. -/
theorem newSenderKey_bytes {C : Crypto} {dist : DistId} {cid : UInt32} {first pt ct rand rd : Bytes} {n : Nat} {signing : KeyPair} {m : SenderKeyMsg}
    (hn : n < 2 ^ 32) (hpt : pt.length < 2 ^ 63)
    (hct : cbcEncrypt C ((skIter C ⟨first, 0⟩ n).messageKey C).cipherKey ((skIter C ⟨first, 0⟩ n).messageKey C).iv pt = .ok ct)
    (hm : newSenderKey C 3 dist cid (UInt32.ofNat n) ct signing.priv rand = (.ok m, rd)) :
    m.iteration = UInt32.ofNat n ∧ m.serialized = groupMessage C dist cid first signing (UInt32.ofNat n) pt (rand.take 64) := by
  have hnn : (UInt32.ofNat n).toNat = n := by simp only [UInt32.toNat_ofNat']; omega
  have e1 : ((skIter C ⟨first, 0⟩ n).messageKey C).cipherKey = (groupSecrets C first n).drop 16 := by
    simp only [SKChainKey.messageKey, deriveSKMessageKey, groupSecrets, chainHash, skIter_seed, ascii_group]
  have e2 : ((skIter C ⟨first, 0⟩ n).messageKey C).iv = (groupSecrets C first n).take 16 := by
    simp only [SKChainKey.messageKey, deriveSKMessageKey, groupSecrets, chainHash, skIter_seed, ascii_group]
  have l1 : ((groupSecrets C first n).drop 16).length = 32 := by simp [groupSecrets, C.hkdf_len]
  have l2 : ((groupSecrets C first n).take 16).length = 16 := by simp [groupSecrets, C.hkdf_len]
  rw [e1, e2, cbc_eq C pt l1 l2] at hct
  simp only [Res.ok.injEq] at hct
  subst hct
  have hl : (aesCbc C ((groupSecrets C first n).drop 16) ((groupSecrets C first n).take 16) pt).length < 2 ^ 64 := by
    rw [aesCbc_length C pt l1 l2]; omega
  refine ⟨newSenderKey_iteration hm, ?_⟩
  unfold newSenderKey PrivKey.sign at hm
  rw [marshal_senderKey dist cid _ hl, bind_assoc_run] at hm
  by_cases hr : 64 ≤ rand.length
  · rw [M.bind_ok_run (readFull_ok _ _ hr), M.bind_ok_run (M.pure_run _ _)] at hm
    simp only [M.pure_run, Prod.mk.injEq, Res.ok.injEq] at hm
    rw [← hm.1]
    simp only [groupMessage, groupBody, hnn, List.flatten_cons, List.flatten_nil, List.append_nil]
    rfl
  · rw [M.bind_err_run (readFull_short _ _ hr)] at hm
    simp at hm

theorem newDistribution_bytes {C : Crypto} {dist : DistId} {cid : UInt32} {first : Bytes} {n : Nat} (k : PubKey) (hn : n < 2 ^ 32) (hf : first.length = 32) :
    (newDistribution 3 dist cid (UInt32.ofNat n) (skIter C ⟨first, 0⟩ n).seed k).serialized = distributionMessage C dist cid first k (UInt32.ofNat n) := by
  have hnn : (UInt32.ofNat n).toNat = n := by simp only [UInt32.toNat_ofNat']; omega
  simp only [newDistribution, skIter_seed, distributionMessage, hnn]
  rw [marshal_distribution _ _ _ (by rw [chainKey_length C hf]; omega)]
  rfl

end Doc

/-! ## Histories -/

/-- The sender's record for a group: one chain, at position `n`. -/
structure GMine (C : Crypto) (cid : UInt32) (first : Bytes) (signing : KeyPair) (n : Nat) (o : Option GRecord) : Prop where
  shape : ∃ s : GState, o = some [s] ∧ s.messageVersion = 3 ∧ s.chainId = cid ∧ s.signingPublic = signing.pub.bytes ∧
    s.signingPrivate = signing.priv.bytes ∧ s.chainKey = skIter C ⟨first, 0⟩ n ∧ s.WF
  len : first.length = 32

/-- What the calls of a sender return, at position `n`. -/
def GOut.Conforms (C : Crypto) (k : Address × DistId) (cid : UInt32) (first : Bytes) (signing : KeyPair) (n : Nat) (c : GCall) (o : GOut) : Prop :=
  (∀ m, o = .ciphertext k.1 k.2 m → ∃ pt, c.op = .encrypt k.1 k.2 pt ∧ m.iteration = UInt32.ofNat n ∧
    m.serialized = Doc.groupMessage C k.2 cid first signing (UInt32.ofNat n) pt (c.rand.take 64)) ∧
  (∀ d, o = .distribution k.1 k.2 d → d.iteration = UInt32.ofNat n ∧
    d.serialized = Doc.distributionMessage C k.2 cid first signing.pub (UInt32.ofNat n))

/-- Has a message been returned? -/
def GOut.count (k : Address × DistId) (o : GOut) : Nat := if (o.sentIteration k).isSome then 1 else 0

theorem skIter_zero_iteration (C : Crypto) (first : Bytes) (n : Nat) : (skIter C ⟨first, 0⟩ n).iteration = UInt32.ofNat n := by
  rw [skIter_iteration, UInt32.zero_add]

/-- A call returns messages and distribution messages only for the group it names. -/
theorem GCall.out_key {E : GEnv} {c : GCall} {w : GWorld} {k : Address × DistId} (hk : c.op.key ≠ k) :
    (∀ m, (c.run E w).1 ≠ .ciphertext k.1 k.2 m) ∧ (∀ d, (c.run E w).1 ≠ .distribution k.1 k.2 d) := by
  obtain ⟨op, rd, srd, fs⟩ := c
  cases op with
  | encrypt a d pt =>
    simp only [GCall.run]
    generalize groupEncrypt E.C E.aliased a d pt _ = x
    obtain ⟨r, w'⟩ := x
    cases r <;> simp [GOut.of]
    rintro rfl rfl
    exact absurd rfl hk
  | decrypt a m =>
    simp only [GCall.run]
    generalize groupDecrypt E.C E.aliased a m _ = x
    obtain ⟨r, w'⟩ := x
    cases r <;> simp [GOut.of]
  | process a m =>
    simp only [GCall.run]
    generalize processDistribution E.aliased a m _ = x
    obtain ⟨r, w'⟩ := x
    cases r <;> simp [GOut.of]
  | distribute a m =>
    simp only [GCall.run]
    generalize newSenderKeyDistribution E.C a m _ = x
    obtain ⟨r, w'⟩ := x
    cases r <;> simp [GOut.of]
    rintro rfl rfl
    exact absurd rfl hk

theorem GOut.count_zero {k : Address × DistId} {o : GOut} (h : ∀ m, o ≠ .ciphertext k.1 k.2 m) : o.count k = 0 := by
  cases o with
  | ciphertext a d m =>
    have : (a, d) ≠ k := by rintro rfl; exact h m rfl
    simp [GOut.count, GOut.sentIteration, this]
  | _ => simp [GOut.count, GOut.sentIteration]

theorem GOut.none_of_count {k : Address × DistId} {o : GOut} (h : ∀ m, o ≠ .ciphertext k.1 k.2 m) : o.sentIteration k = none := by
  have hc := GOut.count_zero h
  unfold GOut.count at hc
  cases ho : o.sentIteration k with
  | none => rfl
  | some n => rw [ho] at hc; simp at hc

theorem GState.WF.next {s : GState} (h : s.WF) (C : Crypto) : (s.setSenderChainKey (s.chainKey.next C)).WF := by
  obtain ⟨h1, h2⟩ := h
  exact ⟨h1, h2⟩

theorem GMine.call {E : GEnv} {w : GWorld} {k : Address × DistId} {cid : UInt32} {first : Bytes} {signing : KeyPair} {n : Nat}
    (h : GMine E.C cid first signing n (w.records k)) (c : GCall) (hp : ∀ a d, c.op = .process a d → c.op.key ≠ k)
    (hpt : ∀ a d pt, c.op = .encrypt a d pt → pt.length < 2 ^ 63) (hn : n + c.reach k < 2 ^ 32) :
    ∃ n', n' ≤ n + c.reach k ∧ GMine E.C cid first signing n' ((c.run E w).2.records k) ∧ (c.run E w).1.Conforms E.C k cid first signing n c ∧
      (c.faults = [] → (∀ a m, c.op = .decrypt a m → c.op.key ≠ k) → n' = n + (c.run E w).1.count k) := by
  by_cases hk : c.op.key = k
  rotate_left
  · obtain ⟨o1, o2⟩ := GCall.out_key (E := E) (w := w) hk
    have hrec : (c.run E w).2.records k = w.records k := by
      rcases gcall_changed E c w k with hu | ⟨_, hk', _⟩
      · exact hu
      · exact absurd hk' hk
    refine ⟨n, by omega, by rw [hrec]; exact h, ⟨fun m e => absurd e (o1 m), fun d e => absurd e (o2 d)⟩, fun _ _ => by rw [GOut.count_zero o1]; rfl⟩
  subst hk
  obtain ⟨⟨s, hs, hv, hc, hpub, hpriv, hck, hwf⟩, hlen⟩ := h
  have hver : s.version = 3 := by simp [GState.version, hv]
  have hself : GMine E.C cid first signing n (w.records c.op.key) := ⟨⟨s, hs, hv, hc, hpub, hpriv, hck, hwf⟩, hlen⟩
  obtain ⟨op, rd, srd, fs⟩ := c
  cases op with
  | encrypt a d pt =>
    have hpt := hpt a d pt rfl
    have hr : GCall.reach (a, d) ⟨.encrypt a d pt, rd, srd, fs⟩ = 1 := (GCall.reach_of (c := ⟨.encrypt a d pt, rd, srd, fs⟩) rfl).1 a d pt rfl
    simp only [GOp.key] at hs hself hn ⊢
    rw [hr] at hn ⊢
    have hnext : GMine E.C cid first signing (n + 1) (some [s.setSenderChainKey (s.chainKey.next E.C)]) :=
      ⟨⟨_, rfl, hv, hc, hpub, hpriv, by rw [hck]; rfl, hwf.next E.C⟩, hlen⟩
    simp only [GCall.run]
    have hout := groupEncrypt_outcome E.C E.aliased a d pt { w with rand := rd, sysRand := srd, faults := fs }
    generalize groupEncrypt E.C E.aliased a d pt _ = x at hout ⊢
    obtain ⟨r, w'⟩ := x
    simp only at hout ⊢
    cases hout with
    | early r fs' rd' hr' =>
      have hne : ∀ m, GOut.of (GOut.ciphertext a d) r ≠ .ciphertext a d m := by intro m; cases r <;> simp_all [GOut.of, Res.Bad]
      refine ⟨n, by omega, hself, ⟨fun m e => absurd e (hne m), fun m e => ?_⟩, fun _ _ => by rw [GOut.count_zero hne]; rfl⟩
      exfalso
      cases r <;> simp [GOut.of] at e
    | stopped r fs' hr' s1 rest sk m rd' hb rs hrs =>
      have hne : ∀ m, GOut.of (GOut.ciphertext a d) r ≠ .ciphertext a d m := by intro m; cases r <;> simp_all [GOut.of, Res.Bad]
      have hcon : (GOut.of (GOut.ciphertext a d) r).Conforms E.C (a, d) cid first signing n ⟨.encrypt a d pt, rd, srd, fs⟩ := by
        refine ⟨fun m e => absurd e (hne m), fun m e => ?_⟩
        exfalso
        cases r <;> simp [GOut.of] at e
      have hrec := hb.record
      simp only [hs, Option.some.injEq, List.cons.injEq] at hrec
      obtain ⟨rfl, rfl⟩ := hrec
      rcases hrs with ⟨rfl, hf⟩ | ⟨rfl, hf⟩
      · simp only at hf ⊢
        unfold gmid
        split
        · refine ⟨n + 1, by omega, by rw [upd_same]; exact hnext, hcon, fun e => by rw [e] at hf; simp at hf⟩
        · exact ⟨n, by omega, hself, hcon, fun e => by rw [e] at hf; simp at hf⟩
      · simp only at hf ⊢
        exact ⟨n + 1, by omega, by rw [upd_same]; exact hnext, hcon, fun e => by rw [e] at hf; simp at hf⟩
    | done fs' s1 rest sk m rd' hb =>
      have hrec := hb.record
      simp only [hs, Option.some.injEq, List.cons.injEq] at hrec
      obtain ⟨rfl, rfl⟩ := hrec
      have hsk : sk = signing.priv := by
        have := hb.key
        rw [GState.privateSigningKey, hpriv, newPrivateKey_bytes] at this
        simpa using this.symm
      obtain ⟨ct, hct, hm⟩ := hb.built
      rw [hck] at hct
      rw [hver, hc, hck, skIter_zero_iteration, hsk] at hm
      obtain ⟨m1, m2⟩ := Doc.newSenderKey_bytes (by omega) hpt hct hm
      refine ⟨n + 1, by omega, by simp only; rw [upd_same]; exact hnext, ⟨fun m' e => ?_, fun d' e => by simp [GOut.of] at e⟩, fun _ _ => ?_⟩
      · simp only [GOut.of, GOut.ciphertext.injEq] at e
        obtain ⟨_, _, rfl⟩ := e
        exact ⟨pt, rfl, m1, m2⟩
      · simp [GOut.of, GOut.count, GOut.sentIteration]
  | decrypt a m =>
    have hr : GCall.reach (a, m.distID) ⟨.decrypt a m, rd, srd, fs⟩ = 25001 := (GCall.reach_of (c := ⟨.decrypt a m, rd, srd, fs⟩) rfl).2 a m rfl
    simp only [GOp.key] at hs hself hn ⊢
    rw [hr] at hn ⊢
    have hcon : ((GCall.mk (.decrypt a m) rd srd fs).run E w).1.Conforms E.C (a, m.distID) cid first signing n ⟨.decrypt a m, rd, srd, fs⟩ := by
      simp only [GCall.run]
      generalize groupDecrypt E.C E.aliased a m _ = x
      obtain ⟨r, w'⟩ := x
      cases r <;> refine ⟨fun _ e => ?_, fun _ e => ?_⟩ <;> simp [GOut.of] at e
    rcases gcall_changed E ⟨.decrypt a m, rd, srd, fs⟩ w (a, m.distID) with hu | ⟨g', _, hg', hst⟩
    · exact ⟨n, by omega, by rw [hu]; exact hself, hcon, fun _ h => absurd rfl (h a m rfl)⟩
    · rw [hg']
      simp only at hst
      generalize ho : w.records (a, m.distID) = o at hst
      rw [hs] at ho
      subst ho
      cases hst with
      | dec hacc =>
        have hmem := GRecord.stateForChainID_some hacc.state
        obtain ⟨hm1, hm2⟩ := hmem
        rw [List.mem_singleton] at hm1
        rename_i t _ _ _
        subst hm1
        have ht := hacc.gtaken hwf
        have hrec' : ∀ s', GRecord.setStateForChainID [t] m.chainID s' = [s'] := by
          intro s'
          simp [GRecord.setStateForChainID, hm2]
        rw [hrec']
        have hw' := ht.WF hwf
        cases ht with
        | stored hlt kk hkk => exact ⟨n, by omega, ⟨⟨_, rfl, hv, hc, hpub, hpriv, hck, hw'⟩, hlen⟩, hcon, fun _ h => absurd rfl (h a m rfl)⟩
        | ahead d hd hj =>
          refine ⟨n + (d + 1), by omega, ⟨⟨_, rfl, hv, hc, hpub, hpriv, ?_, hw'⟩, hlen⟩, hcon, fun _ h => absurd rfl (h a m rfl)⟩
          simp only
          rw [hck, skIter_add]
  | process a d => exact absurd rfl (hp a d rfl)
  | distribute a d =>
    simp only [GOp.key] at hs hself hn ⊢
    simp only [GCall.run]
    have hout := newSenderKeyDistribution_outcome E.C a d { w with rand := rd, sysRand := srd, faults := fs }
    generalize newSenderKeyDistribution E.C a d _ = x at hout ⊢
    obtain ⟨r, w'⟩ := x
    simp only at hout ⊢
    have hcnt : ∀ r, (GOut.of (GOut.distribution a d) r).count (a, d) = 0 := by
      intro r
      apply GOut.count_zero
      intro m
      cases r <;> simp [GOut.of]
    cases hout with
    | early r fs' rd' srd' hr' =>
      refine ⟨n, by omega, hself, ⟨fun m e => ?_, fun m e => ?_⟩, fun _ _ => by rw [hcnt]; rfl⟩
      · exfalso; cases r <;> simp [GOut.of] at e
      · exfalso; cases r <;> simp_all [GOut.of, Res.Bad]
    | stopped fs' rd' srd' g h hno hf => rw [hs] at hno; simp at hno
    | created fs' rd' srd' s1 k h hno hk => rw [hs] at hno; simp at hno
    | existing fs' s1 rest k h hk =>
      simp only [hs, Option.some.injEq, List.cons.injEq] at h
      obtain ⟨rfl, rfl⟩ := h
      have hkk : k = signing.pub := by
        rw [GState.publicSigningKey, hpub, newPublicKey_bytes] at hk
        simpa using hk.symm
      subst hkk
      refine ⟨n, by omega, hself, ⟨fun m e => by simp [GOut.of] at e, fun d' e => ?_⟩, fun _ _ => by rw [hcnt]; rfl⟩
      simp only [GOut.of, GOut.distribution.injEq] at e
      obtain ⟨_, _, rfl⟩ := e
      simp only [GState.distribution, hver, hc, hck, skIter_zero_iteration]
      exact ⟨rfl, Doc.newDistribution_bytes signing.pub (by omega) hlen⟩

theorem GMine.start {E : GEnv} {w : GWorld} {k : Address × DistId} (h : w.records k = none) (c : GCall) (hp : ∀ a d, c.op = .process a d → c.op.key ≠ k) :
    ((c.run E w).2.records k = none ∧ (∀ m, (c.run E w).1 ≠ .ciphertext k.1 k.2 m) ∧ (∀ d, (c.run E w).1 ≠ .distribution k.1 k.2 d)) ∨
    ∃ cid first signing, c.Creates E.C k cid first signing ∧ GMine E.C cid first signing 0 ((c.run E w).2.records k) ∧
      (c.run E w).1.Conforms E.C k cid first signing 0 c ∧ (∀ m, (c.run E w).1 ≠ .ciphertext k.1 k.2 m) := by
  by_cases hk : c.op.key = k
  rotate_left
  · obtain ⟨o1, o2⟩ := GCall.out_key (E := E) (w := w) hk
    rcases gcall_changed E c w k with hu | ⟨_, hk', _⟩
    · exact .inl ⟨by rw [hu]; exact h, o1, o2⟩
    · exact absurd hk' hk
  subst hk
  obtain ⟨op, rd, srd, fs⟩ := c
  cases op with
  | encrypt a d pt =>
    simp only [GOp.key] at h ⊢
    simp only [GCall.run]
    have hout := groupEncrypt_outcome E.C E.aliased a d pt { w with rand := rd, sysRand := srd, faults := fs }
    generalize groupEncrypt E.C E.aliased a d pt _ = x at hout ⊢
    obtain ⟨r, w'⟩ := x
    simp only at hout ⊢
    cases hout with
    | early r fs' rd' hr' =>
      refine .inl ⟨h, fun m => ?_, fun m => ?_⟩
      · cases r <;> simp_all [GOut.of, Res.Bad]
      · cases r <;> simp [GOut.of]
    | stopped r fs' hr' s1 rest sk m rd' hb rs hrs => have := hb.record; rw [h] at this; simp at this
    | done fs' s1 rest sk m rd' hb => have := hb.record; rw [h] at this; simp at this
  | decrypt a m =>
    simp only [GOp.key] at h ⊢
    left
    refine ⟨?_, ?_⟩
    · rcases gcall_changed E ⟨.decrypt a m, rd, srd, fs⟩ w (a, m.distID) with hu | ⟨g', _, hg', hst⟩
      · rw [hu]; exact h
      · simp only at hst
        rw [h] at hst
        cases hst
    · simp only [GCall.run]
      generalize groupDecrypt E.C E.aliased a m _ = x
      obtain ⟨r, w'⟩ := x
      cases r <;> simp [GOut.of]
  | process a d => exact absurd rfl (hp a d rfl)
  | distribute a d =>
    simp only [GOp.key] at h ⊢
    simp only [GCall.run]
    have hout := newSenderKeyDistribution_outcome E.C a d { w with rand := rd, sysRand := srd, faults := fs }
    generalize newSenderKeyDistribution E.C a d _ = x at hout ⊢
    obtain ⟨r, w'⟩ := x
    simp only at hout ⊢
    have mine : ∀ (cid : UInt32) (seed : Bytes) (kp : KeyPair), seed.length = 32 →
        GMine E.C cid seed kp 0 (some [newGroupState 3 cid 0 seed kp.pub (some kp.priv)]) := fun cid seed kp hl =>
      ⟨⟨_, rfl, rfl, rfl, rfl, rfl, rfl, newGroupState_WF ..⟩, hl⟩
    cases hout with
    | early r fs' rd' srd' hr' =>
      refine .inl ⟨h, fun m => ?_, fun m => ?_⟩
      · cases r <;> simp [GOut.of]
      · cases r <;> simp_all [GOut.of, Res.Bad]
    | stopped fs' rd' srd' g hcr hno hf =>
      obtain ⟨cid, seed, kp, _, hl, _, ⟨c1, c2, c3, c4⟩, rfl⟩ := hcr.shape
      refine .inr ⟨cid, seed, kp, ⟨rfl, ⟨c1, c2⟩, c3, c4⟩, ?_, ⟨fun m e => by simp [GOut.of] at e, fun m e => by simp [GOut.of] at e⟩, fun m e => by simp [GOut.of] at e⟩
      simp only
      rw [upd_same]
      exact mine cid seed kp hl
    | existing fs' s1 rest k hs hk => rw [h] at hs; simp at hs
    | created fs' rd' srd' s1 k hcr hno hk =>
      obtain ⟨cid, seed, kp, _, hl, _, ⟨c1, c2, c3, c4⟩, he⟩ := hcr.shape
      simp only [List.cons.injEq, and_true] at he
      subst he
      rw [newGroupState_publicKey] at hk
      simp only [Res.ok.injEq] at hk
      subst hk
      refine .inr ⟨cid, seed, kp, ⟨rfl, ⟨c1, c2⟩, c3, c4⟩, ?_, ⟨fun m e => by simp [GOut.of] at e, fun d' e => ?_⟩, fun m e => by simp [GOut.of] at e⟩
      · simp only
        rw [upd_same]
        exact mine cid seed kp hl
      · simp only [GOut.of, GOut.distribution.injEq] at e
        obtain ⟨_, _, rfl⟩ := e
        exact ⟨rfl, Doc.newDistribution_bytes (C := E.C) (n := 0) kp.pub (by omega) hl⟩

theorem runGCalls_length (E : GEnv) (cs : List GCall) (w : GWorld) : (runGCalls E cs w).1.length = cs.length := by
  induction cs generalizing w with
  | nil => rfl
  | cons c cs ih => simp [runGCalls, ih]

theorem GMine.run {E : GEnv} {k : Address × DistId} {cid : UInt32} {first : Bytes} {signing : KeyPair} (cs : List GCall) {w : GWorld} {n : Nat}
    (h : GMine E.C cid first signing n (w.records k)) (hc : ∀ c ∈ cs, c.Sends k) (hn : n + (cs.map (GCall.reach k)).sum < 2 ^ 32) (i : Nat) (c : GCall) (o : GOut)
    (hci : cs[i]? = some c) (ho : (runGCalls E cs w).1[i]? = some o) :
    ∃ n', n' < 2 ^ 32 ∧ o.Conforms E.C k cid first signing n' c ∧
      ((∀ c ∈ cs, c.faults = [] ∧ ∀ a m, c.op = .decrypt a m → c.op.key ≠ k) → n' = n + (sentIterations k ((runGCalls E cs w).1.take i)).length) := by
  induction cs generalizing w n i with
  | nil => simp at hci
  | cons c0 cs ih =>
    simp only [List.map_cons, List.sum_cons] at hn
    obtain ⟨n1, h1, h2, h3, h4⟩ := h.call (E := E) c0 (hc c0 (by simp)).foreign (hc c0 (by simp)).sizes (by omega)
    simp only [runGCalls] at ho ⊢
    cases i with
    | zero =>
      simp only [List.getElem?_cons_zero, Option.some.injEq] at hci ho
      subst hci; subst ho
      exact ⟨n, by omega, h3, fun _ => by simp [sentIterations]⟩
    | succ i =>
      simp only [List.getElem?_cons_succ] at hci ho
      obtain ⟨n', i1, i2, i3⟩ := ih h2 (fun c hcs => hc c (by simp [hcs])) (by omega) i hci ho
      refine ⟨n', i1, i2, fun hq => ?_⟩
      rw [i3 (fun c hcs => hq c (by simp [hcs])), h4 (hq c0 (by simp)).1 (hq c0 (by simp)).2]
      simp only [List.take_succ_cons, sentIterations, List.filterMap_cons, GOut.count]
      cases hs : (c0.run E w).1.sentIteration k <;> simp
      omega

theorem GMine.history {E : GEnv} {k : Address × DistId} (cs : List GCall) {w : GWorld} (h : w.records k = none) (hc : ∀ c ∈ cs, c.Sends k)
    (hn : (cs.map (GCall.reach k)).sum < 2 ^ 32) :
    (∀ o ∈ (runGCalls E cs w).1, (∀ m, o ≠ .ciphertext k.1 k.2 m) ∧ (∀ d, o ≠ .distribution k.1 k.2 d)) ∨
    ∃ cid first signing, (∃ c ∈ cs, c.Creates E.C k cid first signing) ∧
      ∀ i c o, cs[i]? = some c → (runGCalls E cs w).1[i]? = some o →
        ∃ n, n < 2 ^ 32 ∧ o.Conforms E.C k cid first signing n c ∧
          ((∀ c ∈ cs, c.faults = [] ∧ ∀ a m, c.op = .decrypt a m → c.op.key ≠ k) → n = (sentIterations k ((runGCalls E cs w).1.take i)).length) := by
  induction cs generalizing w with
  | nil => left; simp [runGCalls]
  | cons c0 cs ih =>
    simp only [List.map_cons, List.sum_cons] at hn
    simp only [runGCalls]
    rcases GMine.start (E := E) h c0 (hc c0 (by simp)).foreign with ⟨h1, h2, h3⟩ | ⟨cid, first, signing, hcr, h1, h2, h3⟩
    · have hs0 : (c0.run E w).1.sentIteration k = none := by
        exact GOut.none_of_count h2
      rcases ih h1 (fun c hcs => hc c (by simp [hcs])) (by omega) with hq | ⟨cid, first, signing, ⟨c', hc', hcr⟩, hq⟩
      · left
        intro o ho
        rcases List.mem_cons.mp ho with rfl | ho
        · exact ⟨h2, h3⟩
        · exact hq o ho
      · refine .inr ⟨cid, first, signing, ⟨c', by simp [hc'], hcr⟩, fun i c o hci ho => ?_⟩
        cases i with
        | zero =>
          simp only [List.getElem?_cons_zero, Option.some.injEq] at hci ho
          subst hci; subst ho
          exact ⟨0, by omega, ⟨fun m e => absurd e (h2 m), fun d e => absurd e (h3 d)⟩, fun _ => by simp [sentIterations]⟩
        | succ i =>
          simp only [List.getElem?_cons_succ] at hci ho
          obtain ⟨n, i1, i2, i3⟩ := hq i c o hci ho
          refine ⟨n, i1, i2, fun hq => ?_⟩
          rw [i3 (fun c hcs => hq c (by simp [hcs]))]
          simp only [List.take_succ_cons, sentIterations, List.filterMap_cons, hs0]
    · refine .inr ⟨cid, first, signing, ⟨c0, by simp, hcr⟩, fun i c o hci ho => ?_⟩
      cases i with
      | zero =>
        simp only [List.getElem?_cons_zero, Option.some.injEq] at hci ho
        subst hci; subst ho
        exact ⟨0, by omega, h2, fun _ => by simp [sentIterations]⟩
      | succ i =>
        simp only [List.getElem?_cons_succ] at hci ho
        obtain ⟨n, i1, i2, i3⟩ := GMine.run (E := E) cs h1 (fun c hcs => hc c (by simp [hcs])) (by omega) i c o hci ho
        refine ⟨n, i1, i2, fun hq => ?_⟩
        rw [i3 (fun c hcs => hq c (by simp [hcs]))]
        have hs0 : (c0.run E w).1.sentIteration k = none := by
          exact GOut.none_of_count h3
        simp only [List.take_succ_cons, sentIterations, List.filterMap_cons, hs0]
        omega

end Verif
