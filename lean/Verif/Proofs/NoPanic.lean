import Verif.Proofs.Messages
import Verif.Proofs.Inspect
import Verif.Proofs.Group
import Verif.Props.Messages
import Verif.Props.Aes

/-!
Which calls cannot panic.
-/

namespace Verif

theorem Res.bind_no_panic {α β} {x : Res α} {f : α → Res β} (h : x ≠ .panic) (hf : ∀ a, x = .ok a → f a ≠ .panic) : (x >>= f) ≠ .panic := by
  cases x with
  | ok a => exact hf a rfl
  | err e => simp
  | panic => exact absurd rfl h

theorem agreement_no_panic (C : Crypto) (p : PrivKey) (q : PubKey) : p.agreement C q ≠ .panic := by
  unfold PrivKey.agreement
  cases C.dh p.key q.keyBytes <;> simp [Res.ofOption]

theorem createChain_no_panic (C : Crypto) (r : RootKey) (p : PrivKey) (q : PubKey) : r.createChain C p q ≠ .panic := by
  rw [createChain_eq]
  exact Res.bind_no_panic (agreement_no_panic C p q) fun _ _ => by simp

theorem verifySignature_no_panic (C : Crypto) (k : PubKey) (sig : Bytes) (ms : List Bytes) : k.verifySignature C sig ms ≠ .panic := by
  unfold PubKey.verifySignature
  split
  · simp
  · cases C.verify k.key ms.flatten sig <;> simp

theorem readFull_no_panic (n : Nat) (r : Bytes) : (readFull n r).1 ≠ .panic := by
  by_cases h : n ≤ r.length
  · rw [readFull_ok n r h]; simp
  · rw [readFull_short n r h]; simp

theorem generateKeyPair_no_panic (C : Crypto) (r : Bytes) : (generateKeyPair C r).1 ≠ .panic := by
  by_cases h : 32 ≤ r.length
  · obtain ⟨k, hk, _⟩ := generateKeyPair_run C r h
    rw [hk]; simp
  · rw [generateKeyPair_short C r h]; simp

theorem withRand_no_panic {α} {x : M Bytes α} {w : World} (h : (x w.rand).1 ≠ .panic) : (withRand x w).1 ≠ .panic := by
  rw [withRand_run]; exact h

theorem initializeAlice_no_panic (C : Crypto) (p : AliceParameters) (r : Bytes) : (initializeAliceSession C p r).1 ≠ .panic := by
  unfold initializeAliceSession
  refine bind_no_panic (generateKeyPair_no_panic C r) fun k r' _ => ?_
  rw [M.lift_run]
  refine Res.bind_no_panic (agreement_no_panic _ _ _) fun _ _ => ?_
  refine Res.bind_no_panic (agreement_no_panic _ _ _) fun _ _ => ?_
  refine Res.bind_no_panic (agreement_no_panic _ _ _) fun _ _ => ?_
  simp only
  have rest : ∀ d1 d2 d3 d4 : Bytes, (do
      let (rootKey, chainKey) ← deriveKeys C (discontinuityBytes ++ d1 ++ d2 ++ d3 ++ d4)
      let (sendingRoot, sendingChain) ← rootKey.createChain C k.priv p.theirRatchetKey
      let s : SState :=
        { sessionVersion := ciphertextVersion, localIdentityPublic := p.ourIdentityKeyPair.pub.bytes,
          remoteIdentityPublic := p.theirIdentityKey.bytes, rootKey := sendingRoot.key }
      (pure ((s.addReceiverChain p.theirRatchetKey chainKey).setSenderChain k sendingChain) : Res SState)) ≠ .panic := by
    intro d1 d2 d3 d4
    rw [deriveKeys_ok]
    simp only [Res.bind_ok]
    exact Res.bind_no_panic (createChain_no_panic _ _ _ _) fun ⟨_, _⟩ _ => by simp
  cases p.theirOneTimePreKey with
  | none => exact rest _ _ _ []
  | some q => exact Res.bind_no_panic (agreement_no_panic _ _ _) fun _ _ => rest _ _ _ _

theorem bundle_no_panic (E : Env) (a : Address) (b : Bundle) (w : World) : (processPreKeyBundle E a b w).1 ≠ .panic := by
  unfold processPreKeyBundle
  refine bind_no_panic (storeCall_no_panic _ _) fun t w1 _ => ?_
  split
  rotate_left
  · simp
  refine bind_no_panic (by rw [M.lift_run]; exact verifySignature_no_panic _ _ _ _) fun ok w2 _ => ?_
  split
  rotate_left
  · simp
  refine bind_no_panic (storeCall_no_panic _ _) fun st w3 _ => ?_
  refine bind_no_panic (withRand_no_panic (generateKeyPair_no_panic _ _)) fun k w4 _ => ?_
  refine bind_no_panic (by rw [M.get_run]; simp) fun v w5 _ => ?_
  refine bind_no_panic (withRand_no_panic (initializeAlice_no_panic _ _ _)) fun s w6 _ => ?_
  refine bind_no_panic (storeCall_no_panic _ _) fun _ w7 _ => ?_
  refine bind_no_panic (by rw [touch_run]; simp) fun _ w8 _ => ?_
  exact storeCall_no_panic _ _

theorem encrypt_no_panic {E : Env} {w : World} (hw : w.WF) (a : Address) (pt : Bytes) : (encryptMessage E a pt w).1 ≠ .panic := by
  unfold encryptMessage
  refine storeCall_bind (fun r _ => r ≠ .panic) (fun fs _ => ?_) (fun _ _ => by simp) (fun _ _ => by simp)
  cases hr : w.sessions a with
  | none => simp
  | some r =>
    simp only [hr]
    cases hs : r.current with
    | none => simp
    | some s =>
      obtain ⟨_, _, _, _, _, _, _, _, _, _, _, _, _, _, _, _, _, _, he, _⟩ := ((hw a r hr).current s hs).encrypts E.C pt
      refine bind_no_panic (by rw [M.lift_run, he]; simp) fun x w1 _ => ?_
      obtain ⟨msg, s', k⟩ := x
      refine bind_no_panic (by rw [touch_run]; simp) fun _ w2 _ => ?_
      refine bind_no_panic (storeCall_no_panic _ _) fun t w3 _ => ?_
      split
      rotate_left
      · simp
      refine bind_no_panic (storeCall_no_panic _ _) fun _ w4 _ => ?_
      refine bind_no_panic (storeCall_no_panic _ _) fun _ w5 _ => ?_
      simp

theorem gStoreCall_no_panic {α} (act : GWorld → α × GWorld) (w : GWorld) : (gStoreCall act w).1 ≠ .panic := by
  unfold gStoreCall
  split <;> simp

theorem gWithRand_no_panic {α} {x : M Bytes α} {w : GWorld} (h : (x w.rand).1 ≠ .panic) : (gWithRand x w).1 ≠ .panic := h

theorem gWithSysRand_no_panic {α} {x : M Bytes α} {w : GWorld} (h : (x w.sysRand).1 ≠ .panic) : (gWithSysRand x w).1 ≠ .panic := h

theorem gTouch_no_panic (al : Bool) (k : Address × DistId) (b : Bool) (r : GRecord) (w : GWorld) : (gTouch al k b r w).1 ≠ .panic := by
  unfold gTouch; split <;> simp

theorem newPublicKey_no_panic (b : Bytes) : newPublicKey b ≠ .panic := by
  unfold newPublicKey newDJBPublicKey
  split
  · simp
  · split
    · split <;> simp
    · simp

theorem newPrivateKey_no_panic (a : Bytes) : newPrivateKey a ≠ .panic := by unfold newPrivateKey; split <;> simp

theorem cbcEncrypt_no_panic (C : Crypto) (k iv p : Bytes) : cbcEncrypt C k iv p ≠ .panic := by
  unfold cbcEncrypt; repeat' split <;> simp

theorem sign_no_panic (C : Crypto) (k : PrivKey) (ms : List Bytes) (r : Bytes) : (k.sign C ms r).1 ≠ .panic := by
  unfold PrivKey.sign
  exact bind_no_panic (readFull_no_panic _ _) fun z _ _ => by simp

theorem addState_no_panic (g : GRecord) (s : GState) : GRecord.addState g s ≠ .panic := by
  unfold GRecord.addState
  exact Res.bind_no_panic (newPublicKey_no_panic _) fun _ _ => by simp

theorem GRecord.state_no_panic (g : GRecord) : GRecord.state g ≠ .panic := by cases g <;> simp [GRecord.state]

theorem groupEncrypt_no_panic (C : Crypto) (al : Bool) (a : Address) (d : DistId) (pt : Bytes) (w : GWorld) :
    (groupEncrypt C al a d pt w).1 ≠ .panic := by
  unfold groupEncrypt
  refine bind_no_panic (gStoreCall_no_panic _ _) fun o w1 _ => ?_
  cases o with
  | none => simp
  | some g =>
    refine bind_no_panic (by rw [M.lift_run]; exact g.state_no_panic) fun s w2 _ => ?_
    refine bind_no_panic (by rw [M.lift_run]; exact cbcEncrypt_no_panic _ _ _ _) fun ct w3 _ => ?_
    refine bind_no_panic (by rw [M.lift_run]; exact newPrivateKey_no_panic _) fun k w4 _ => ?_
    refine bind_no_panic (gWithRand_no_panic ?_) fun m w5 _ => ?_
    · unfold newSenderKey
      exact bind_no_panic (sign_no_panic _ _ _ _) fun _ _ _ => by simp
    refine bind_no_panic (gTouch_no_panic _ _ _ _ _) fun _ w6 _ => ?_
    exact bind_no_panic (gStoreCall_no_panic _ _) fun _ w7 _ => by simp

theorem groupMessageKey_no_panic (C : Crypto) (s : GState) (n : UInt32) : groupMessageKey C s n ≠ .panic := by
  unfold groupMessageKey
  simp only
  split
  · cases s.removeMessageKeys C n <;> simp
  · split <;> simp

theorem cbcDecrypt_no_panic' (C : Crypto) (k iv p : Bytes) : cbcDecrypt C k iv p ≠ .panic := C35_cbcDecrypt_never_panics C k iv p

theorem groupDecrypt_no_panic (C : Crypto) (al : Bool) (a : Address) (m : SenderKeyMsg) (hm : 64 ≤ m.serialized.length) (w : GWorld) :
    (groupDecrypt C al a m w).1 ≠ .panic := by
  unfold groupDecrypt
  refine bind_no_panic (gStoreCall_no_panic _ _) fun o w1 _ => ?_
  cases o with
  | none => simp
  | some g =>
    cases hs : GRecord.stateForChainID g m.chainID with
    | none => simp [hs]
    | some s =>
      simp only [hs]
      split
      · simp
      refine bind_no_panic (by rw [M.lift_run]; exact newPublicKey_no_panic _) fun k w2 _ => ?_
      refine bind_no_panic ?_ fun v w3 _ => ?_
      · rw [M.lift_run]
        unfold SenderKeyMsg.verifySignature
        rw [if_neg (by omega)]
        exact verifySignature_no_panic _ _ _ _
      split
      rotate_left
      · simp
      refine bind_no_panic (by rw [M.lift_run]; exact groupMessageKey_no_panic _ _ _) fun x w4 _ => ?_
      obtain ⟨mk, s'⟩ := x
      refine bind_no_panic (gTouch_no_panic _ _ _ _ _) fun _ w5 _ => ?_
      refine bind_no_panic (by rw [M.lift_run]; exact cbcDecrypt_no_panic' _ _ _ _) fun p w6 _ => ?_
      exact bind_no_panic (gStoreCall_no_panic _ _) fun _ w7 _ => by simp

theorem processDistribution_no_panic (al : Bool) (a : Address) (d : DistributionMsg) (w : GWorld) :
    (processDistribution al a d w).1 ≠ .panic := by
  unfold processDistribution
  refine bind_no_panic (gStoreCall_no_panic _ _) fun o w1 _ => ?_
  refine bind_no_panic (by rw [M.lift_run]; exact addState_no_panic _ _) fun g w2 _ => ?_
  refine bind_no_panic (gTouch_no_panic _ _ _ _ _) fun _ w3 _ => ?_
  exact gStoreCall_no_panic _ _

theorem newSenderKeyDistribution_no_panic (C : Crypto) (a : Address) (d : DistId) (w : GWorld) :
    (newSenderKeyDistribution C a d w).1 ≠ .panic := by
  unfold newSenderKeyDistribution
  refine bind_no_panic (gStoreCall_no_panic _ _) fun o w1 _ => ?_
  have rest : ∀ (g : GRecord) (w2 : GWorld), ((do
      let state ← M.lift (GRecord.state g)
      let signingKey ← M.lift state.publicSigningKey
      (pure (newDistribution state.version.toUInt8 d state.chainId state.chainKey.iteration state.chainKey.seed signingKey) :
        M GWorld DistributionMsg)) w2).1 ≠ .panic := by
    intro g w2
    refine bind_no_panic (by rw [M.lift_run]; exact g.state_no_panic) fun s w2 _ => ?_
    exact bind_no_panic (by rw [M.lift_run]; exact newPublicKey_no_panic _) fun k w4 _ => by simp
  cases o with
  | some g => exact rest g w1
  | none =>
    refine bind_no_panic ?_ fun g w2 _ => rest g w2
    unfold createSenderKey randomUint32
    refine bind_no_panic (gWithSysRand_no_panic (bind_no_panic (readFull_no_panic _ _) fun _ _ _ => by simp)) fun _ _ _ => ?_
    refine bind_no_panic (gWithRand_no_panic (readFull_no_panic _ _)) fun _ _ _ => ?_
    refine bind_no_panic (gWithRand_no_panic (generateKeyPair_no_panic _ _)) fun _ _ _ => ?_
    refine bind_no_panic (by rw [M.lift_run]; exact addState_no_panic _ _) fun _ _ _ => ?_
    exact bind_no_panic (gStoreCall_no_panic _ _) fun _ _ _ => by simp

end Verif
