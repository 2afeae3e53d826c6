import Verif.Proofs.Openness
import Verif.Proofs.Runs

/-!
# Helper lemmas for C97 and C98
-/

namespace Verif

/-! ## HKDF changed for the set-up only -/

section
variable (C : Crypto) (ikm out : Bytes)

theorem initHkdf_other (i s t : Bytes) (n : Nat) (h : t ≠ initRootInfo) :
    (C.withHkdf ikm [] initRootInfo out).hkdf i s t n = C.hkdf i s t n :=
  withHkdf_miss _ _ _ _ _ _ _ _ _ (fun hh => h hh.2.2)

theorem initHkdf_messageKeys (c : ChainKey) : c.messageKeys (C.withHkdf ikm [] initRootInfo out) = c.messageKeys C := by
  unfold ChainKey.messageKeys deriveMessageKeys
  rw [initHkdf_other _ _ _ _ _ _ _ (by decide)]
  rfl

theorem initHkdf_skipLoop (eph : PubKey) (n : UInt32) (f : Nat) (ck : ChainKey) (s : SState) :
    skipLoop (C.withHkdf ikm [] initRootInfo out) eph n f ck s = skipLoop C eph n f ck s := by
  induction f generalizing ck s with
  | zero => rfl
  | succ f ih =>
    unfold skipLoop
    rw [initHkdf_messageKeys]
    split
    · cases s.setMessageKeys eph (ck.messageKeys C) with
      | ok s' => simp only [Res.bind_ok]; exact ih _ _
      | err e => rfl
      | panic => rfl
    · rfl

theorem initHkdf_messageKeysFor (s : SState) (eph : PubKey) (ck : ChainKey) (n : UInt32) :
    messageKeysFor (C.withHkdf ikm [] initRootInfo out) s eph ck n = messageKeysFor C s eph ck n := by
  unfold messageKeysFor
  simp only [initHkdf_skipLoop, initHkdf_messageKeys]

theorem initHkdf_createChain (r : RootKey) (k : PrivKey) (q : PubKey) :
    r.createChain (C.withHkdf ikm [] initRootInfo out) k q = r.createChain C k q := by
  unfold RootKey.createChain
  simp only [initHkdf_other _ _ _ _ _ rootInfo _ (by decide)]
  rfl

theorem initHkdf_chainKeyFor (s : SState) (eph : PubKey) :
    chainKeyFor (C.withHkdf ikm [] initRootInfo out) s eph = chainKeyFor C s eph := by
  unfold chainKeyFor
  simp only [initHkdf_createChain]
  rfl

theorem initHkdf_decryptMessageSession (s : SState) (m : Signal) :
    decryptMessageSession (C.withHkdf ikm [] initRootInfo out) s m = decryptMessageSession C s m := by
  unfold decryptMessageSession
  have h : ∀ k iv ct, cbcDecrypt (C.withHkdf ikm [] initRootInfo out) k iv ct = cbcDecrypt C k iv ct := by
    intro k iv ct
    unfold cbcDecrypt
    rw [withHkdf_cbcDec]
  simp only [initHkdf_chainKeyFor, initHkdf_messageKeysFor, h]
  rfl

theorem initHkdf_tryPrevious (m : Signal) (ss : List SState) (i : Nat) (o : Option (Nat × SState × Bytes)) :
    tryPrevious (C.withHkdf ikm [] initRootInfo out) m ss i o = tryPrevious C m ss i o := by
  induction ss generalizing i o with
  | nil => rfl
  | cons s ss ih =>
    unfold tryPrevious
    simp only [initHkdf_decryptMessageSession, ih]

theorem initHkdf_decryptRecord (r : Record) (m : Signal) :
    decryptRecord (C.withHkdf ikm [] initRootInfo out) r m = decryptRecord C r m := by
  unfold decryptRecord decryptPrevious
  simp only [initHkdf_decryptMessageSession, initHkdf_tryPrevious]

theorem initHkdf_deriveKeys (h : out.length = 64) :
    deriveKeys (C.withHkdf ikm [] initRootInfo out) ikm = .ok (⟨out.take 32⟩, ⟨out.drop 32, 0⟩) := by
  unfold deriveKeys
  simp only [withHkdf_hit _ _ _ _ _ 64 h]
  simp [newRootKey, newChainKey, h]

end

theorem deriveKeys_hkdf (C : Crypto) (ikm : Bytes) :
    deriveKeys C ikm = .ok (⟨(C.hkdf ikm [] initRootInfo 64).take 32⟩, ⟨(C.hkdf ikm [] initRootInfo 64).drop 32, 0⟩) := by
  unfold deriveKeys
  simp [newRootKey, newChainKey, C.hkdf_len]

/-- The session that Bob sets up with a one-time pre-key does not change when HKDF gives the same output for another one. -/
theorem bobInit_swap (C : Crypto) (id : KeyPair) (signed k k' : KeyPair) (theirs base : PubKey) (d1 d2 d3 d4 d4' : Bytes)
    (h1 : signed.priv.agreement C theirs = .ok d1) (h2 : id.priv.agreement C base = .ok d2) (h3 : signed.priv.agreement C base = .ok d3)
    (h4 : k.priv.agreement C base = .ok d4) (h4' : k'.priv.agreement C base = .ok d4') :
    initializeBobSession (C.withHkdf (setUpInput d1 d2 d3 d4') [] initRootInfo (C.hkdf (setUpInput d1 d2 d3 d4) [] initRootInfo 64))
      ⟨id, some signed, some k', some signed, theirs, base⟩ = initializeBobSession C ⟨id, some signed, some k, some signed, theirs, base⟩ := by
  have e : ∀ (x : PrivKey) (q : PubKey) (i s t o : Bytes), x.agreement (C.withHkdf i s t o) q = x.agreement C q := fun _ _ _ _ _ _ => rfl
  unfold initializeBobSession
  simp only [deref, Res.bind_ok, e, h1, h2, h3, h4, h4']
  have := initHkdf_deriveKeys C (setUpInput d1 d2 d3 d4') (C.hkdf (setUpInput d1 d2 d3 d4) [] initRootInfo 64) (C.hkdf_len _ _ _ _)
  unfold setUpInput at this ⊢
  unfold discontinuityBytes
  rw [this, deriveKeys_hkdf]

/-- With other outputs of HKDF, Alice sets up the same session with other secrets. -/
theorem aliceInit_other {C : Crypto} {p : AliceParameters} {rd rd' : Bytes} {s : SState} {kp : KeyPair} {d1 d2 d3 d4 d5 : Bytes}
    (h : initializeAliceSession C p rd = (.ok s, rd')) (hk : generateKeyPair C rd = (.ok kp, rd'))
    (h1 : p.ourIdentityKeyPair.priv.agreement C p.theirSignedPreKey = .ok d1)
    (h2 : p.ourBaseKeyPair.priv.agreement C p.theirIdentityKey = .ok d2)
    (h3 : p.ourBaseKeyPair.priv.agreement C p.theirSignedPreKey = .ok d3)
    (h4 : (match p.theirOneTimePreKey with | some k => p.ourBaseKeyPair.priv.agreement C k | none => .ok []) = .ok d4)
    (h5 : kp.priv.agreement C p.theirRatchetKey = .ok d5)
    (mid root send recv : Bytes) (hm : mid.length = 32) (hr : root.length = 32) (hs : send.length = 32) (hv : recv.length = 32) :
    initializeAliceSession ((C.withHkdf (setUpInput d1 d2 d3 d4) [] initRootInfo (mid ++ recv)).withHkdf d5 mid rootInfo (root ++ send)) p rd =
      (.ok (s.withSetUpSecrets root send recv), rd') := by
  obtain ⟨kp', e1, e2, e3, e4, g0, g1, g2, g3, g4, rk, ck, g5, sr, sc, g6, rfl⟩ := initializeAlice_ok h
  rw [hk] at g0; cases g0
  have e : ∀ (x : PrivKey) (q : PubKey) (i s t o i' s' t' o' : Bytes),
    x.agreement ((C.withHkdf i s t o).withHkdf i' s' t' o') q = x.agreement C q := fun _ _ _ _ _ _ _ _ _ _ => rfl
  unfold initializeAliceSession
  have hk' : generateKeyPair ((C.withHkdf (setUpInput d1 d2 d3 d4) [] initRootInfo (mid ++ recv)).withHkdf d5 mid rootInfo (root ++ send)) rd =
      (.ok kp, rd') := hk
  rw [M.bind_ok_run hk', M.lift_run]
  simp only [e, h1, h2, h3, Res.bind_ok]
  have hd : deriveKeys ((C.withHkdf (setUpInput d1 d2 d3 d4) [] initRootInfo (mid ++ recv)).withHkdf d5 mid rootInfo (root ++ send))
      (setUpInput d1 d2 d3 d4) = .ok (⟨mid⟩, ⟨recv, 0⟩) := by
    rw [deriveKeys_hkdf, withHkdf_miss _ _ _ _ _ _ _ _ _ (fun hh => absurd hh.2.2 (by decide)), withHkdf_hit _ _ _ _ _ 64 (by simp [hm, hv]),
      List.take_left' hm, List.drop_left' hm]
  have hc : RootKey.createChain ((C.withHkdf (setUpInput d1 d2 d3 d4) [] initRootInfo (mid ++ recv)).withHkdf d5 mid rootInfo (root ++ send))
      ⟨mid⟩ kp.priv p.theirRatchetKey = .ok (⟨root⟩, ⟨send, 0⟩) := by
    rw [createChain_ok_iff]
    refine ⟨d5, agreement_eq_ok.mp h5, ?_, ?_⟩ <;> rw [withHkdf_hit _ _ _ _ _ 64 (by simp [hr, hs])]
    · rw [List.take_left' hr]
    · rw [List.drop_left' hr]
  have hin : ∀ x, discontinuityBytes ++ d1 ++ d2 ++ d3 ++ x = setUpInput d1 d2 d3 x := fun _ => rfl
  have fin : ∀ x : PubKey, (({ sessionVersion := ciphertextVersion, localIdentityPublic := p.ourIdentityKeyPair.pub.bytes, remoteIdentityPublic := p.theirIdentityKey.bytes, rootKey := root } : SState).addReceiverChain p.theirRatchetKey ⟨recv, 0⟩).setSenderChain kp ⟨send, 0⟩ =
      ((({ sessionVersion := ciphertextVersion, localIdentityPublic := p.ourIdentityKeyPair.pub.bytes, remoteIdentityPublic := p.theirIdentityKey.bytes, rootKey := sr.key } : SState).addReceiverChain p.theirRatchetKey ck).setSenderChain kp sc).withSetUpSecrets root send recv := by
    intro _
    have i0 : ck.index = 0 := by rw [deriveKeys_hkdf] at g5; simp only [Res.ok.injEq, Prod.mk.injEq] at g5; rw [← g5.2]
    have i1 : sc.index = 0 := by obtain ⟨_, _, _, rfl⟩ := createChain_ok_iff.mp g6; rfl
    simp [SState.withSetUpSecrets, SState.withNextSecrets, SState.withSenderKey, SState.setSenderChain, SState.addReceiverChain, maxReceiverChains, i0, i1]
  cases ho : p.theirOneTimePreKey with
  | none =>
    rw [ho] at h4; simp only [Res.ok.injEq] at h4; subst h4
    simp only [Res.bind_ok, hin, hd, hc]
    rw [← fin p.theirRatchetKey]; rfl
  | some k =>
    rw [ho] at h4; simp only at h4
    simp only [h4, Res.bind_ok, hin, hd, hc]
    rw [← fin p.theirRatchetKey]; rfl

theorem generateKeyPair_bytes {C : Crypto} {rd rd' : Bytes} {k : KeyPair} (h : generateKeyPair C rd = (.ok k, rd')) :
    k.priv.key = clamp (rd.take 32) ∧ rd' = rd.drop 32 := by
  unfold generateKeyPair generatePrivateKey at h
  by_cases hl : 32 ≤ rd.length
  · have hl2 : (rd.take 32).length = 32 := by simp; omega
    simp [M.bind_run, readFull_ok 32 rd hl, M.lift_run, newPrivateKey, hl2] at h
    rw [← h.1, ← h.2]
    exact ⟨rfl, rfl⟩
  · simp [M.bind_run, readFull_short 32 rd hl] at h

end Verif
