import Verif.Proofs.SetUpOpen
import Verif.Spec.Example

/-!
# What setting up a session forgets and what it hides: C97, C98
-/

namespace Verif

open Ex

/-! ## C97 -/

/-- **C97**. With stores that do not fail, a call has read a message that set up a new session with `a` and used a one-time pre-key. Take any
other pair of keys in the place of this pre-key, with any shared secret it gives with the sender's base key. It fits: with HKDF changed for
the one single input that it is used for, the same call on stores that hold this pre-key instead returns the same plaintext and leaves
exactly the same stores. So nothing that is stored after the call tells the used pre-key from any other. -/
theorem C97_used_pre_key_forgotten (E : Env) (w w1 : World) (a : Address) (m : PreKeyMsg) (p : Bytes) (hf : w.faults = [])
    (h : decryptMessage E a (.preKey m) w = (.ok (some p), w1))
    (hnew : ((w.sessions a).getD {}).hasSessionState m.version.toUInt32 m.baseKey.bytes = .ok false)
    (id : UInt32) (hid : m.preKeyID = some id) (one signed : PreKeyRec) (k ks k' : KeyPair)
    (hone : w.preKeys id = some one) (hk : one.keyPair = .ok k)
    (hsigned : w.signedPreKeys m.signedPreKeyID = some signed) (hks : signed.keyPair = .ok ks)
    (other : PreKeyRec) (hk' : other.keyPair = .ok k') (dh1 dh2 dh3 dh4 dh4' : Bytes)
    (h1 : E.C.dh ks.priv.key m.identityKey.keyBytes = some dh1) (h2 : E.C.dh w.identity.priv.key m.baseKey.keyBytes = some dh2)
    (h3 : E.C.dh ks.priv.key m.baseKey.keyBytes = some dh3) (h4 : E.C.dh k.priv.key m.baseKey.keyBytes = some dh4)
    (h4' : E.C.dh k'.priv.key m.baseKey.keyBytes = some dh4') :
    decryptMessage { E with C := E.C.withHkdf (setUpInput dh1 dh2 dh3 dh4') [] initRootInfo (E.C.hkdf (setUpInput dh1 dh2 dh3 dh4) [] initRootInfo 64) }
      a (.preKey m)
      { w with preKeys := upd w.preKeys id (some other) } = (.ok (some p), w1) := by
  have h0 : decryptPreKey E a m w = (.ok p, w1) := by
    unfold decryptMessage at h
    simp only at h
    rw [M.bind_eq_ok] at h
    obtain ⟨q, w2, e1, e2⟩ := h
    simp only [M.pure_run, Prod.mk.injEq, Res.ok.injEq, Option.some.injEq] at e2
    rw [e1, e2.1, e2.2]
  have ho := preKey_outcome E a m w
  rw [h0] at ho
  generalize hres : (Res.ok p : Res Bytes) = r at ho
  simp only at ho
  cases ho with
  | early _ _ hr => subst hres; simp [Res.Bad] at hr
  | processed _ _ hr => subst hres; simp [Res.Bad] at hr
  | decrypted _ _ hr => subst hres; simp [Res.Bad] at hr
  | done fs id' rec rec' p' rd ht hp hd =>
    cases hres
    have hrun := preKey_run hf ht hp hd
    rw [h0] at hrun
    cases hp with
    | found hh => rw [hnew] at hh; simp at hh
    | fresh _ sg ot s hs hot hi s' hs' =>
      rw [hid] at hot
      simp only at hot
      have hsg : sg = some ks := by
        rcases hs with ⟨e, _⟩ | ⟨p, k, e1, e2, e3⟩
        · rw [hsigned] at e; simp at e
        · rw [hsigned] at e1; cases e1; rw [hks] at e2; cases e2; exact e3
      have hotk : ot = some k := by
        rcases hot with ⟨e, _⟩ | ⟨p, k, e1, e2, e3⟩
        · rw [hone] at e; simp at e
        · rw [hone] at e1; cases e1; rw [hk] at e2; cases e2; exact e3
      subst hsg hotk
      have hsw := bobInit_swap E.C w.identity ks k k' m.identityKey m.baseKey dh1 dh2 dh3 dh4 dh4' (agreement_eq_ok.mpr h1)
        (agreement_eq_ok.mpr h2) (agreement_eq_ok.mpr h3) (agreement_eq_ok.mpr h4) (agreement_eq_ok.mpr h4')
      rw [hi] at hsw
      have hd' := (congrFun (initHkdf_decryptRecord E.C (setUpInput dh1 dh2 dh3 dh4') (E.C.hkdf (setUpInput dh1 dh2 dh3 dh4) [] initRootInfo 64)
        (((w.sessions a).getD {}).promoteState s') m.message) w.rand).trans hd
      generalize E.C.withHkdf (setUpInput dh1 dh2 dh3 dh4') [] initRootInfo (E.C.hkdf (setUpInput dh1 dh2 dh3 dh4) [] initRootInfo 64) = C' at hsw hd' ⊢
      have hl : LoadsPair (upd w.preKeys id (some other)) id (some k') := .inr ⟨other, k', upd_same .., hk', rfl⟩
      have hp' : Processed { E with C := C' } { w with preKeys := upd w.preKeys id (some other) } ((w.sessions a).getD {}) m m.preKeyID
          (((w.sessions a).getD {}).promoteState s') :=
        Processed.fresh (w := { w with preKeys := upd w.preKeys id (some other) }) hnew (some ks) (some k') s hs (by rw [hid]; exact hl) hsw s' hs'
      have hrun' := preKey_run (E := { E with C := C' }) (w := { w with preKeys := upd w.preKeys id (some other) }) hf ht hp' hd'
      unfold decryptMessage
      simp only
      rw [M.bind_ok_run hrun']
      simp only [Prod.mk.injEq, true_and] at hrun
      rw [hrun, hid]
      simp only [M.pure_run, dropPreKey, upd_upd]

/-- the hypotheses of C97 are met when Bob reads the first message of Alice; the other pre-key is made from other random bytes -/
example : ∃ (w1 : World) (m : PreKeyMsg) (dh1 dh2 dh3 dh4 dh4' : Bytes), m1 = .preKey m ∧ bob0.faults = [] ∧
    decryptMessage copying alice (.preKey m) bob0 = (.ok (some [1, 2, 3]), w1) ∧
    ((bob0.sessions alice).getD {}).hasSessionState m.version.toUInt32 m.baseKey.bytes = .ok false ∧
    m.preKeyID = some 5 ∧ bob0.preKeys 5 = some (PreKeyRec.new (pair 3)) ∧ (PreKeyRec.new (pair 3)).keyPair = .ok (pair 3) ∧
    bob0.signedPreKeys m.signedPreKeyID = some (PreKeyRec.new (pair 4)) ∧ (PreKeyRec.new (pair 4)).keyPair = .ok (pair 4) ∧
    (PreKeyRec.new (pair 77)).keyPair = .ok (pair 77) ∧
    toy.dh (pair 4).priv.key m.identityKey.keyBytes = some dh1 ∧ toy.dh bob0.identity.priv.key m.baseKey.keyBytes = some dh2 ∧
    toy.dh (pair 4).priv.key m.baseKey.keyBytes = some dh3 ∧ toy.dh (pair 3).priv.key m.baseKey.keyBytes = some dh4 ∧
    toy.dh (pair 77).priv.key m.baseKey.keyBytes = some dh4' ∧ dh4' ≠ dh4 := by
  have h : (match m1 with
    | .preKey m => (match toy.dh (pair 4).priv.key m.identityKey.keyBytes, toy.dh bob0.identity.priv.key m.baseKey.keyBytes,
          toy.dh (pair 4).priv.key m.baseKey.keyBytes, toy.dh (pair 3).priv.key m.baseKey.keyBytes, toy.dh (pair 77).priv.key m.baseKey.keyBytes with
        | some _, some _, some _, some d, some d' => (decide (((bob0.sessions alice).getD {}).hasSessionState m.version.toUInt32 m.baseKey.bytes = .ok false)) &&
            decide (m.preKeyID = some 5) && decide (m.signedPreKeyID = 6) && (d' != d)
        | _, _, _, _, _ => false)
    | _ => false) = true := by decide +kernel
  have hd := m1_delivered
  split at h
  · rename_i m hm
    split at h
    · rename_i d1 d2 d3 d4 d5 e1 e2 e3 e4 e5
      simp only [Bool.and_eq_true, bne_iff_ne, decide_eq_true_eq] at h
      obtain ⟨⟨⟨h1, h2⟩, h3⟩, h4⟩ := h
      refine ⟨(decryptMessage copying alice (.preKey m) bob0).2, m, d1, d2, d3, d4, d5, hm, rfl, ?_, h1, h2, by decide +kernel, by decide +kernel,
        by rw [h3]; decide +kernel, by decide +kernel, by decide +kernel, e1, e2, e3, e4, e5, h4⟩
      rw [hm] at hd
      rw [← hd]
    · simp at h
  · simp at h

/-! ## C98 -/

/-- **C98**. With stores that do not fail, a call has set up a session with `a` from a bundle. Its secrets come from HKDF on the shared
secrets of the base key (or the identity key) with the bundle's keys, and of the new ratchet key with the signed pre-key. Somebody who lacks
one of these shared secrets does not know what HKDF gave. Then every root key and every key of the two chains is possible: with HKDF
changed for these two inputs, the same call leaves the same stores with these keys in place of the others. -/
theorem C98_set_up_hides (E : Env) (w w1 : World) (a : Address) (b : Bundle) (hf : w.faults = [])
    (h : processPreKeyBundle E a b w = (.ok (), w1)) (dh1 dh2 dh3 dh4 dh5 : Bytes)
    (h1 : E.C.dh w.identity.priv.key b.signedPreKeyPublic.keyBytes = some dh1)
    (h2 : E.C.dh (clamp (w.rand.take 32)) b.identityKey.keyBytes = some dh2)
    (h3 : E.C.dh (clamp (w.rand.take 32)) b.signedPreKeyPublic.keyBytes = some dh3)
    (h4 : match b.preKeyPublic with
      | some one => E.C.dh (clamp (w.rand.take 32)) one.keyBytes = some dh4
      | none => dh4 = [])
    (h5 : E.C.dh (clamp ((w.rand.drop 32).take 32)) b.signedPreKeyPublic.keyBytes = some dh5)
    (mid root send recv : Bytes) (hmid : mid.length = 32) (hroot : root.length = 32) (hsend : send.length = 32) (hrecv : recv.length = 32) :
    processPreKeyBundle { E with C := (E.C.withHkdf (setUpInput dh1 dh2 dh3 dh4) [] initRootInfo (mid ++ recv)).withHkdf dh5 mid rootInfo (root ++ send) }
      a b w = (.ok (), w1.withSetUpSecrets a root send recv) := by
  have ho := bundle_outcome E a b w
  rw [h] at ho
  generalize hres : (Res.ok () : Res Unit) = r at ho
  simp only at ho
  cases ho with
  | early _ _ _ hr => subst hres; simp [Res.Bad] at hr
  | stopped _ _ hr => subst hres; simp [Res.Bad] at hr
  | done fs s rd ht hv hfb =>
    have hrun := bundle_run hf ht hv hfb
    rw [h] at hrun
    simp only [Prod.mk.injEq, true_and] at hrun
    cases hfb with
    | mk base rd1 _ s0 hb hi _ hs' =>
      obtain ⟨kp, _, _, _, _, g0, _⟩ := initializeAlice_ok hi
      have hbk : base.priv.key = clamp (w.rand.take 32) ∧ rd1 = w.rand.drop 32 := generateKeyPair_bytes hb
      have hkk : kp.priv.key = clamp (rd1.take 32) := (generateKeyPair_bytes g0).1
      have hi' := aliceInit_other (d1 := dh1) (d2 := dh2) (d3 := dh3) (d4 := dh4) (d5 := dh5) hi g0 (agreement_eq_ok.mpr h1)
        (agreement_eq_ok.mpr (by rw [hbk.1]; exact h2)) (agreement_eq_ok.mpr (by rw [hbk.1]; exact h3))
        (by
          simp only
          cases hop : b.preKeyPublic with
          | none => rw [hop] at h4; simp only at h4; rw [h4]
          | some o => rw [hop] at h4; exact agreement_eq_ok.mpr (by rw [hbk.1]; exact h4))
        (agreement_eq_ok.mpr (by rw [hkk, hbk.2]; exact h5)) mid root send recv hmid hroot hsend hrecv
      have hb' : generateKeyPair ((E.C.withHkdf (setUpInput dh1 dh2 dh3 dh4) [] initRootInfo (mid ++ recv)).withHkdf dh5 mid rootInfo (root ++ send)) w.rand =
        (.ok base, rd1) := hb
      have hv' : b.identityKey.verifySignature ((E.C.withHkdf (setUpInput dh1 dh2 dh3 dh4) [] initRootInfo (mid ++ recv)).withHkdf dh5 mid rootInfo (root ++ send))
        b.signedPreKeySignature [b.signedPreKeyPublic.bytes] = .ok true := hv
      generalize (E.C.withHkdf (setUpInput dh1 dh2 dh3 dh4) [] initRootInfo (mid ++ recv)).withHkdf dh5 mid rootInfo (root ++ send) = C' at hb' hv' hi' ⊢
      have hfb' : FromBundle { E with C := C' } w b (s.withSetUpSecrets root send recv) rd := by
        refine .mk base rd1 rd _ hb' hi' _ ?_
        rw [hs']
        rfl
      rw [bundle_run (E := { E with C := C' }) hf ht hv' hfb', hrun]
      unfold World.withSetUpSecrets
      simp only [upd_same, upd_upd, Option.map_some]
      rfl

/-- the hypotheses of C98 are met when Alice sets up the session from Bob's bundle -/
example : ∃ (w1 : World) (dh1 dh2 dh3 dh4 dh5 : Bytes), alice0.faults = [] ∧ processPreKeyBundle copying bob bundle alice0 = (.ok (), w1) ∧
    toy.dh alice0.identity.priv.key bundle.signedPreKeyPublic.keyBytes = some dh1 ∧
    toy.dh (clamp (alice0.rand.take 32)) bundle.identityKey.keyBytes = some dh2 ∧
    toy.dh (clamp (alice0.rand.take 32)) bundle.signedPreKeyPublic.keyBytes = some dh3 ∧
    (match bundle.preKeyPublic with
      | some one => toy.dh (clamp (alice0.rand.take 32)) one.keyBytes = some dh4
      | none => dh4 = []) ∧
    toy.dh (clamp ((alice0.rand.drop 32).take 32)) bundle.signedPreKeyPublic.keyBytes = some dh5 := by
  have h : (match toy.dh alice0.identity.priv.key bundle.signedPreKeyPublic.keyBytes, toy.dh (clamp (alice0.rand.take 32)) bundle.identityKey.keyBytes,
      toy.dh (clamp (alice0.rand.take 32)) bundle.signedPreKeyPublic.keyBytes, toy.dh (clamp (alice0.rand.take 32)) (pair 3).pub.keyBytes,
      toy.dh (clamp ((alice0.rand.drop 32).take 32)) bundle.signedPreKeyPublic.keyBytes with
    | some _, some _, some _, some _, some _ => (match (processPreKeyBundle copying bob bundle alice0).1 with | .ok () => true | _ => false)
    | _, _, _, _, _ => false) = true := by decide +kernel
  split at h
  · rename_i d1 d2 d3 d4 d5 e1 e2 e3 e4 e5
    refine ⟨(processPreKeyBundle copying bob bundle alice0).2, d1, d2, d3, d4, d5, rfl, ?_, e1, e2, e3, e4, e5⟩
    split at h
    · rename_i hr; rw [← hr]
    · simp at h
  · simp at h

end Verif
