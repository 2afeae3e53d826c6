import Verif.Spec.GroupTranscript
import Verif.Proofs.Transcript
import Verif.Proofs.Alike
import Verif.Proofs.GroupReading

/-!
# Helper lemmas for C121
-/

namespace Verif

open Doc

section
variable {C : Crypto} {f g : Bytes → Bytes → Bytes} {h1 : ∀ k b, b.length = 16 → (f k b).length = 16}
  {h2 : ∀ k b, b.length = 16 → (g k b).length = 16} {h3 : ∀ k b, aesKeyOk k = true → b.length = 16 → g k (f k b) = b}

theorem otherAes_groupSkipLoop (n : UInt32) (fuel : Nat) : ∀ (ck : SKChainKey) (s : GState),
    groupSkipLoop (C.otherAes f g h1 h2 h3) n fuel ck s = groupSkipLoop C n fuel ck s := by
  induction fuel with
  | zero => exact fun _ _ => rfl
  | succ fuel ih =>
    intro ck s
    simp only [groupSkipLoop, ih]
    rfl

theorem otherAes_groupMessageKey (s : GState) (n : UInt32) :
    groupMessageKey (C.otherAes f g h1 h2 h3) s n = groupMessageKey C s n := by
  simp only [groupMessageKey, otherAes_groupSkipLoop]
  rfl

end

theorem gLoad_cases (k : Address × DistId) (w : GWorld) :
    (∃ fs, gLoad k w = (.ok (w.records k), { w with faults := fs })) ∨ ∀ x, (gLoad k w).1 ≠ .ok x := by
  unfold gLoad
  obtain ⟨fs, _, h | ⟨h, _⟩ | ⟨h, _⟩⟩ := gStoreCall_cases (fun w : GWorld => (w.records k, w)) w
  · exact .inl ⟨fs, h⟩
  · exact .inr fun x hx => by rw [h] at hx; cases hx
  · exact .inr fun x hx => by rw [h] at hx; cases hx

section
variable {E : GEnv} {C' : Crypto} {L : List Sent} (hC : E.C.SameButAesOn C' (KeyOf L)) (hL : Sendings E.C L)
  (hN : ∀ e ∈ L, cbcEncrypt C' e.key e.iv e.new = .ok e.body)
include hC hL hN

theorem twin_groupDecrypt {a : Address} {m : SenderKeyMsg} {w : GWorld} (hw : w.WF) (hg : w.Genuine E.C L a m) :
    (groupDecrypt C' E.aliased a m w).2 = (groupDecrypt E.C E.aliased a m w).2 ∧
      ((groupDecrypt C' E.aliased a m w).1 = (groupDecrypt E.C E.aliased a m w).1 ∨ ∃ e ∈ L, m.ciphertext = e.body ∧
        (groupDecrypt E.C E.aliased a m w).1 = .ok e.old ∧ (groupDecrypt C' E.aliased a m w).1 = .ok e.new) := by
  have key : ∀ k iv, (¬ KeyOf L k) → cbcDecrypt C' k iv m.ciphertext = cbcDecrypt E.C k iv m.ciphertext := by
    intro k iv hk
    unfold cbcDecrypt
    simp only [cbcDecBlocks_same (hC.dec k · hk)]
  obtain ⟨f, g, l1, l2, l3, hE⟩ := hC.eq
  have hsig : ∀ k, m.verifySignature C' k = m.verifySignature E.C k := by intro k; rw [hE]; rfl
  have hmk : ∀ s n, groupMessageKey C' s n = groupMessageKey E.C s n := by intro s n; rw [hE]; exact otherAes_groupMessageKey s n
  unfold groupDecrypt
  rcases gLoad_cases (a, m.distID) w with ⟨fs, hl⟩ | hl
  rotate_left
  · simp only [M.bind_run (gLoad _)]
    generalize gLoad (a, m.distID) w = x at hl ⊢
    obtain ⟨r, w1⟩ := x
    cases r with
    | ok x => exact absurd rfl (hl x)
    | err e => exact ⟨rfl, .inl rfl⟩
    | panic => exact ⟨rfl, .inl rfl⟩
  rw [M.bind_ok_run hl, M.bind_ok_run hl]
  cases hr : w.records (a, m.distID) with
  | none => exact ⟨rfl, .inl rfl⟩
  | some g =>
  simp only
  cases hst : GRecord.stateForChainID g m.chainID with
  | none => exact ⟨rfl, .inl rfl⟩
  | some s =>
  simp only
  by_cases hv : m.version.toUInt32 = s.version
  rotate_left
  · rw [if_pos hv, if_pos hv]; exact ⟨rfl, .inl rfl⟩
  rw [if_neg (by simpa using hv), if_neg (by simpa using hv)]
  simp only [M.bind_run (M.lift _), M.lift_run, hsig, hmk]
  cases hk : s.publicSigningKey with
  | err e => exact ⟨rfl, .inl rfl⟩
  | panic => exact ⟨rfl, .inl rfl⟩
  | ok k =>
  simp only
  cases hva : m.verifySignature E.C k with
  | err e => exact ⟨rfl, .inl rfl⟩
  | panic => exact ⟨rfl, .inl rfl⟩
  | ok valid =>
  cases valid with
  | false => exact ⟨rfl, .inl rfl⟩
  | true =>
  simp only [if_true, M.bind_run (M.lift _), M.lift_run, hmk]
  cases hmk' : groupMessageKey E.C s m.iteration with
  | err e => exact ⟨rfl, .inl rfl⟩
  | panic => exact ⟨rfl, .inl rfl⟩
  | ok y =>
  obtain ⟨mk, s'⟩ := y
  simp only
  rw [M.bind_ok_run (gTouch_run ..), M.bind_ok_run (gTouch_run ..)]
  simp only [M.bind_run (M.lift _), M.lift_run]
  by_cases hkey : KeyOf L mk.cipherKey
  rotate_left
  · rw [key _ _ hkey]
    exact ⟨rfl, .inl rfl⟩
  obtain ⟨e, he, hek⟩ := hkey
  obtain ⟨hmem, hcid⟩ := GRecord.stateForChainID_some hst
  have hsw := (hw _ g hr).states s hmem
  have hac : GAccepted E.C w a m g s k mk s' := ⟨hr, hst, hv, hk, hva, hmk'⟩
  obtain ⟨sec, e1, e2, e3, _⟩ := (hac.gtaken hsw).secrets
  obtain ⟨k', hk', hpk⟩ := hsw.publicKey
  have hkk : k' = k := by
    rw [hpk] at hk
    simpa using hk
  subst hkk
  obtain ⟨x1, x2⟩ := hg g s k' sec hr hmem hcid hk' ((verifySignature_iff E.C m k').mp hva) e1 e he (by rw [hek, e2])
  rw [← hek, e3, ← x1, ← x2, cbcDecrypt_cbcEncrypt _ _ _ _ _ (hL.made e he), cbcDecrypt_cbcEncrypt _ _ _ _ _ (hN e he)]
  simp only [M.bind_run]
  generalize gStore (a, m.distID) (g.setStateForChainID m.chainID s') _ = z
  obtain ⟨r, w1⟩ := z
  cases r with
  | err e => exact ⟨rfl, .inl rfl⟩
  | panic => exact ⟨rfl, .inl rfl⟩
  | ok u => exact ⟨rfl, .inr ⟨e, he, rfl, rfl, rfl⟩⟩

omit hL in
theorem twin_groupEncrypt {a : Address} {d : DistId} {p q : Bytes} {w : GWorld}
    (hs : ∀ m s g, (groupEncrypt E.C E.aliased a d p w).1 = .ok m → w.records (a, d) = some (s :: g) →
      ⟨(groupSecrets E.C s.chainKey.seed 0).drop 16, (groupSecrets E.C s.chainKey.seed 0).take 16, m.ciphertext, p, q⟩ ∈ L) :
    groupEncrypt C' E.aliased a d q w = groupEncrypt E.C E.aliased a d p w := by
  obtain ⟨f, g, l1, l2, l3, hE⟩ := hC.eq
  have tail : ∀ (st : GState) (record : GRecord), MLike (fun m m' : SenderKeyMsg =>
      ⟨(groupSecrets E.C st.chainKey.seed 0).drop 16, (groupSecrets E.C st.chainKey.seed 0).take 16, m.ciphertext, p, q⟩ ∈ L → m' = m)
      (do
        let messageKey := st.chainKey.messageKey E.C
        let ciphertext ← M.lift (cbcEncrypt E.C messageKey.cipherKey messageKey.iv p)
        let signingKey ← M.lift st.privateSigningKey
        let msg ← gWithRand (newSenderKey E.C st.version.toUInt8 d st.chainId messageKey.iteration ciphertext signingKey)
        let record' := st.setSenderChainKey (st.chainKey.next E.C) :: record.drop 1
        gTouch E.aliased (a, d) true record'
        gStore (a, d) record'
        return msg)
      (do
        let messageKey := st.chainKey.messageKey C'
        let ciphertext ← M.lift (cbcEncrypt C' messageKey.cipherKey messageKey.iv q)
        let signingKey ← M.lift st.privateSigningKey
        let msg ← gWithRand (newSenderKey C' st.version.toUInt8 d st.chainId messageKey.iteration ciphertext signingKey)
        let record' := st.setSenderChainKey (st.chainKey.next C') :: record.drop 1
        gTouch E.aliased (a, d) true record'
        gStore (a, d) record'
        return msg) := by
    intro st record
    have e1 : st.chainKey.messageKey C' = st.chainKey.messageKey E.C := by rw [hE]; rfl
    have e2 : st.chainKey.next C' = st.chainKey.next E.C := by rw [hE]; rfl
    have e3 : newSenderKey C' = newSenderKey E.C := by rw [hE]; rfl
    simp only [e1, e2, e3]
    obtain ⟨k1, k2⟩ := sk_secrets E.C st.chainKey 0
    obtain ⟨n1, n2⟩ := skmk_len E.C st.chainKey
    have hct : Res.Like (fun ct ct' => ⟨(groupSecrets E.C st.chainKey.seed 0).drop 16, (groupSecrets E.C st.chainKey.seed 0).take 16, ct, p, q⟩ ∈ L → ct' = ct)
        (cbcEncrypt E.C (st.chainKey.messageKey E.C).cipherKey (st.chainKey.messageKey E.C).iv p)
        (cbcEncrypt C' (st.chainKey.messageKey E.C).cipherKey (st.chainKey.messageKey E.C).iv q) := by
      obtain ⟨ct, h1, _⟩ := cbcEncrypt_ok E.C _ _ p (aesKeyOk_32 n1) n2
      obtain ⟨ct', h2, _⟩ := cbcEncrypt_ok C' _ _ q (aesKeyOk_32 n1) n2
      rw [h1, h2]
      intro hin
      have := hN _ hin
      simp only [skIter] at k1 k2
      rw [← k1, ← k2] at this
      rw [this] at h2
      simp only [Res.ok.injEq] at h2
      exact h2.symm
    refine (MLike.lift hct).bind ?_
    intro ct ct' hcc
    refine (MLike.eq _).bind ?_
    rintro k _ rfl
    have h : MLike (σ := GWorld) (fun m m' : SenderKeyMsg => m.ciphertext = ct ∧ (ct' = ct → m' = m))
        (gWithRand (newSenderKey E.C st.version.toUInt8 d st.chainId (st.chainKey.messageKey E.C).iteration ct k))
        (gWithRand (newSenderKey E.C st.version.toUInt8 d st.chainId (st.chainKey.messageKey E.C).iteration ct' k)) := by
      intro w
      simp only [gWithRand, newSenderKey, PrivKey.sign, M.bind_run]
      generalize readFull 64 w.rand = x
      obtain ⟨r, rd⟩ := x
      cases r with
      | err e => exact ⟨rfl, rfl⟩
      | panic => exact ⟨rfl, trivial⟩
      | ok z => exact ⟨rfl, rfl, fun h => by subst h; rfl⟩
    refine h.bind ?_
    rintro m m' ⟨h1, h2⟩
    refine (MLike.eq _).bind ?_
    rintro _ _ rfl
    refine (MLike.eq _).bind ?_
    rintro _ _ rfl
    exact MLike.pure fun hin => h2 (hcc (by rw [← h1]; exact hin))
  unfold groupEncrypt at hs ⊢
  rcases gLoad_cases (a, d) w with ⟨fs, hl⟩ | hl
  rotate_left
  · simp only [M.bind_run (gLoad _)]
    generalize gLoad (a, d) w = x at hl ⊢
    obtain ⟨r, w1⟩ := x
    cases r with
    | ok x => exact absurd rfl (hl x)
    | err e => rfl
    | panic => rfl
  rw [M.bind_ok_run hl] at hs
  rw [M.bind_ok_run hl, M.bind_ok_run hl]
  cases hr : w.records (a, d) with
  | none => rfl
  | some g =>
    cases g with
    | nil => rfl
    | cons s rest =>
      simp only [hr, GRecord.state] at hs ⊢
      have hst : (M.lift (.ok s) : M GWorld GState) { w with faults := fs } = (.ok s, { w with faults := fs }) := rfl
      rw [M.bind_ok_run hst] at hs
      rw [M.bind_ok_run hst, M.bind_ok_run hst]
      obtain ⟨t1, t2⟩ := tail s (s :: rest) { w with faults := fs }
      revert hs t1 t2
      generalize ((do
        let messageKey := s.chainKey.messageKey E.C
        let ciphertext ← M.lift (cbcEncrypt E.C messageKey.cipherKey messageKey.iv p)
        let signingKey ← M.lift s.privateSigningKey
        let msg ← gWithRand (newSenderKey E.C s.version.toUInt8 d s.chainId messageKey.iteration ciphertext signingKey)
        let record' := s.setSenderChainKey (s.chainKey.next E.C) :: (s :: rest).drop 1
        gTouch E.aliased (a, d) true record'
        gStore (a, d) record'
        return msg) : M GWorld SenderKeyMsg) { w with faults := fs } = x
      generalize ((do
        let messageKey := s.chainKey.messageKey C'
        let ciphertext ← M.lift (cbcEncrypt C' messageKey.cipherKey messageKey.iv q)
        let signingKey ← M.lift s.privateSigningKey
        let msg ← gWithRand (newSenderKey C' s.version.toUInt8 d s.chainId messageKey.iteration ciphertext signingKey)
        let record' := s.setSenderChainKey (s.chainKey.next C') :: (s :: rest).drop 1
        gTouch E.aliased (a, d) true record'
        gStore (a, d) record'
        return msg) : M GWorld SenderKeyMsg) { w with faults := fs } = y
      obtain ⟨x1, x2⟩ := x
      obtain ⟨y1, y2⟩ := y
      simp only
      intro hs t1 t2
      subst t1
      cases x1 with
      | ok m =>
        obtain ⟨m', rfl, hmm⟩ := t2.ok rfl
        rw [hmm (hs m s rest rfl rfl)]
      | err e => cases y1 <;> simp_all [Res.Like]
      | panic => cases y1 <;> simp_all [Res.Like]

theorem twin_gcall {w : GWorld} (hw : w.WF) {c c' : GCall} (h : c.Swapped E L w c') :
    (c'.run { E with C := C' } w).2 = (c.run E w).2 ∧ GOut.Alike L c (c.run E w).1 (c'.run { E with C := C' } w).1 := by
  cases h with
  | send a d p q rand sysRand faults h =>
    have := twin_groupEncrypt hC hN (a := a) (d := d) (p := p) (q := q) (w := { w with rand := rand, sysRand := sysRand, faults := faults })
      fun m s g h1 h2 => h m s g (by simp only [GCall.run, h1, GOut.of]) h2
    simp only [GCall.run, this]
    exact ⟨trivial, .inl rfl⟩
  | read a m rand sysRand faults h =>
    have hw' : GWorld.WF { w with rand := rand, sysRand := sysRand, faults := faults } := hw
    obtain ⟨k1, k2⟩ := twin_groupDecrypt hC hL hN (w := { w with rand := rand, sysRand := sysRand, faults := faults }) hw' h
    refine ⟨k1, ?_⟩
    rcases k2 with k2 | ⟨e, he, h1, h2, h3⟩
    · exact .inl (by simp only [GCall.run, k2])
    · exact .inr ⟨a, m, e, he, rfl, h1, by simp only [GCall.run, h2, GOut.of], by simp only [GCall.run, h3, GOut.of]⟩
  | other _ h1 h2 =>
    obtain ⟨f, g, l1, l2, l3, rfl⟩ := hC.eq
    have : c.run { E with C := E.C.otherAes f g l1 l2 l3 } w = c.run E w := by
      unfold GCall.run
      generalize c.op = op at h1 h2 ⊢
      cases op with
      | encrypt a d p => exact absurd rfl (h1 a d p)
      | decrypt a x => exact absurd rfl (h2 a x)
      | process a x => rfl
      | distribute a d => rfl
    rw [this]
    exact ⟨rfl, .inl rfl⟩

theorem twin_gcalls {w : GWorld} {cs cs' : List GCall} (h : GRewritten E L w cs cs') : w.WF →
    (runGCalls { E with C := C' } cs' w).2 = (runGCalls E cs w).2 ∧ GAllAlike L cs (runGCalls E cs w).1 (runGCalls { E with C := C' } cs' w).1 := by
  induction h with
  | nil w => exact fun _ => ⟨rfl, .nil⟩
  | cons w c c' cs cs' h hs ih =>
    intro hw
    obtain ⟨k1, k2⟩ := twin_gcall hC hL hN hw h
    obtain ⟨k3, k4⟩ := ih (hw.call c)
    simp only [runGCalls, k1]
    exact ⟨k3, .cons _ _ _ _ _ _ k2 k4⟩

end

end Verif
