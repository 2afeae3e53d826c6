import Verif.Proofs.Oracle
import Verif.Props.GroupTranscript

/-!
# What a forger learns from the answers: C122
-/

namespace Verif

open Ex Doc

/-- **C122**. DecryptMessage looks at the body of a message only after its MAC: for two forged messages that differ in body, previous counter
and MAC, and even with another AES, the result, the stores, the random bytes that are left and the store calls made are the same. -/
theorem C122_no_oracle (E : Env) (C' : Crypto) (hC : E.C.SameButAesOn C' (fun _ => True)) (w : World) (hw : Reachable E w) (a : Address)
    (x x' : Ciphertext) (h : x.SameHeader x') (h1 : w.Forged E.C a x) (h2 : w.Forged E.C a x') :
    decryptMessage { E with C := C' } a x' w = decryptMessage E a x w := forged_decrypt hC h hw.WF h1 h2

/-- **C122** for groups: here the iteration may differ too, because the signature is checked first. -/
theorem C122_no_group_oracle (E : GEnv) (C' : Crypto) (hC : E.C.SameButAesOn C' (fun _ => True)) (w : GWorld) (hw : GReachable E w) (a : Address)
    (m m' : SenderKeyMsg) (h : m.SameHeader m') (h1 : w.Forged E.C a m) (h2 : w.Forged E.C a m') :
    groupDecrypt C' E.aliased a m' w = groupDecrypt E.C E.aliased a m w := (forged_group hC h hw.WF h1 h2).1

/-- C122 over histories: whoever sends any number of forged messages, between any other calls, sees the same answers whatever the bodies
and MACs of the forged messages are, and everybody else sees the same too. -/
theorem C122_no_oracle_in_histories (E : Env) (w : World) (hw : Reachable E w) (cs cs' : List Call) (h : Tampered E w cs cs') :
    runCalls E cs' w = runCalls E cs w := tampered_calls h hw.WF

/-- C122 over histories of group calls. -/
theorem C122_no_group_oracle_in_histories (E : GEnv) (w : GWorld) (hw : GReachable E w) (cs cs' : List GCall) (h : GTampered E w cs cs') :
    runGCalls E cs' w = runGCalls E cs w := tampered_gcalls h hw.WF

/-! ## Examples -/

namespace Ex

/-- the message with another body and a MAC of zeros -/
def tamper (body : Bytes) : Ciphertext → Ciphertext
  | .preKey m => .preKey { m with message := { m.message with ciphertext := body, serialized := body ++ List.replicate 8 0 }, serialized := [] }
  | c => c

theorem tamper_header (b b' : Bytes) (h : (preKeyOf m1).isSome = true) : (tamper b m1).SameHeader (tamper b' m1) := by
  generalize m1 = c at h ⊢
  cases c with
  | preKey m => exact .preKey _ { m.message with ciphertext := b', serialized := b' ++ List.replicate 8 0 } [] ⟨rfl, rfl, rfl⟩
  | _ => simp [preKeyOf] at h

theorem tamper_forged {b : Bytes}
    (h : (preKeyOf m1).elim false (fun m => List.replicate 8 0 != (toy.hmac ((secrets1.drop 32).take 32) (wireKey m.identityKey ++ wireKey bob0.identity.pub ++ b)).take 8) = true) :
    bob0.Forged toy alice (tamper b m1) := by
  have hs := bobSecrets_eq
  have hid : (preKeyOf m1).elim false (fun m => (m.preKeyID.bind bob0.preKeys).isSome) = true := by decide +kernel
  generalize m1 = c at hs hid h ⊢
  cases c with
  | senderKey _ => simp [preKeyOf] at hs
  | plaintext _ => simp [preKeyOf] at hs
  | signal _ => simp [preKeyOf] at hs
  | preKey pm =>
    simp only [preKeyOf, Option.bind_some, Option.elim_some] at hs hid h
    intro m s snd rcv sec hm hr h1 h2 h3
    cases hm
    obtain ⟨k1, k2, k3⟩ := bob_reader (pm := { pm with message := { pm.message with ciphertext := b, serialized := b ++ List.replicate 8 0 }, serialized := [] })
      hid hr h3
    have : sec = secrets1 := Option.some.inj (k1.symm.trans hs)
    subst this
    refine ⟨b, List.replicate 8 0, rfl, by simp, ?_⟩
    rw [← h1, ← h2, k2, k3]
    exact bne_iff_ne.mp h

end Ex

/-- the hypotheses are met by two forgeries of the first message of the example, sent to Bob before it; the message is still read -/
example : Tampered copying bob0 [⟨.decrypt alice (tamper [1] m1), bob0.rand, []⟩, ⟨.decrypt alice m1, bob0.rand, []⟩]
    [⟨.decrypt alice (tamper [2, 2] m1), bob0.rand, []⟩, ⟨.decrypt alice m1, bob0.rand, []⟩] ∧
    (match (runCalls copying [⟨.decrypt alice (tamper [1] m1), bob0.rand, []⟩, ⟨.decrypt alice m1, bob0.rand, []⟩] bob0).1 with
      | [.error _, .plaintext _ (some p)] => p == [1, 2, 3]
      | _ => false) = true := by
  refine ⟨.forged _ _ _ _ _ _ _ _ (tamper_header _ _ (by decide +kernel)) (tamper_forged (by decide +kernel)) (tamper_forged (by decide +kernel))
    (.same _ _ _ _ (.nil _)), by decide +kernel⟩

/-- the hypotheses of the group theorem are met by two forgeries with other iterations -/
example : gbob1.Forged toy alice { g1 with ciphertext := [1], serialized := List.replicate 65 1 } ∧
    gbob1.Forged toy alice { g1 with iteration := 9, ciphertext := [2], serialized := List.replicate 66 2 } ∧
    SenderKeyMsg.SameHeader { g1 with ciphertext := [1], serialized := List.replicate 65 1 }
      { g1 with iteration := 9, ciphertext := [2], serialized := List.replicate 66 2 } ∧
    (groupDecrypt toy false alice { g1 with iteration := 9, ciphertext := [2], serialized := List.replicate 66 2 } gbob1).1 = .err .badSignature := by
  have forged : ∀ (m : SenderKeyMsg) (n : Nat) (x : UInt8), m.distID = dist →
      ((gbob1.records (alice, dist)).getD []).all (fun s => match s.publicSigningKey with
        | .ok k => toy.verify k.key (List.replicate n x) (List.replicate 64 x) == some false
        | _ => false) = true → gbob1.Forged toy alice { m with serialized := List.replicate (n + 64) x } := by
    intro m n x hd h g s key hr hs _ hk
    simp only [hd] at hr
    rw [hr] at h
    simp only [Option.getD_some, List.all_eq_true] at h
    have h' := h s hs
    have hpk : s.publicSigningKey = .ok key := by rw [GState.publicSigningKey, hk]; exact newPublicKey_bytes key
    rw [hpk] at h'
    refine ⟨List.replicate n x, List.replicate 64 x, ?_, by simp, by simpa using h'⟩
    simp only [← List.replicate_append_replicate]
  have hd : g1.distID = dist := by decide +kernel
  exact ⟨forged { g1 with ciphertext := [1] } 1 1 hd (by decide +kernel), forged { g1 with iteration := 9, ciphertext := [2] } 2 2 hd (by decide +kernel),
    ⟨rfl, rfl, rfl⟩, by decide +kernel⟩

end Verif
