import Verif.Proofs.Work
import Verif.Proofs.Guessing

/-!
# C118: what a message can make the library compute
-/

namespace Verif

open Ex

/-- **C118**, DecryptMessage. Take any message, from anybody, in any reachable state of a user, for an address with which they have no
session with themselves. The call evaluates HMAC at most 41 · 50002 times, HKDF at most 41 · 25003 + 1 times, and multiplies points of the
curve at most 41 · 3 + 4 times: 41 sessions, at most 25000 skipped messages in each. What it returns and all that it stores is settled by
these values. -/
theorem C118_decrypt (E : Env) (w : World) (hw : Reachable E w) (a : Address) (c : Ciphertext)
    (ho : ∀ r s, w.sessions a = some r → r.HasState s → s.WithOther) (hm : ∀ m, c = .preKey m → m.identityKey ≠ w.identity.pub) :
    Within E.C (fun C => decryptMessage { E with C := C } a c w) (41 * 50002) (41 * 25003 + 1) (41 * 3 + 4) :=
  Within.decrypt hw.WF ho hm

/-- **C118**, EncryptMessage: three HMACs and one HKDF, whatever the state and the plaintext are. -/
theorem C118_encrypt (E : Env) (w : World) (a : Address) (p : Bytes) :
    Within E.C (fun C => encryptMessage { E with C := C } a p w) 3 1 0 := Within.encrypt

/-- **C118**, ProcessPreKeyBundle: two HKDFs and seven multiplications, whatever the state and the bundle are. -/
theorem C118_bundle (E : Env) (w : World) (a : Address) (b : Bundle) :
    Within E.C (fun C => processPreKeyBundle { E with C := C } a b w) 0 2 7 := Within.bundle

/-- **C118**, DecryptMessage of a group session: 50002 HMACs and 25001 HKDFs, whatever the state and the message are. -/
theorem C118_group (C : Crypto) (aliased : Bool) (g : GWorld) (sender : Address) (m : SenderKeyMsg) :
    Within C (fun C => groupDecrypt C aliased sender m g) 50002 25001 0 := Within.groupDec

/-! The count is not free: one evaluation of HMAC needs one. -/
example (C : Crypto) (k x : Bytes) (n n' : Nat) : ¬ Within C (fun C' => C'.hmac k x) 0 n n' := by
  rintro ⟨q, h1, -, -, h⟩
  have hq : q.hmac = [] := List.length_eq_zero_iff.mp (Nat.le_zero.mp h1)
  have key : ∀ b : UInt8, List.replicate 32 b = C.hmac k x := fun b => by
    have := h (C.withMac (fun k' x' => k' = k ∧ x' = x) (fun _ _ => List.replicate 32 b) (fun _ _ => List.length_replicate))
      ⟨rfl, rfl, rfl, rfl, rfl, fun _ _ hm => (by rw [hq] at hm; cases hm), fun _ _ _ _ _ => rfl, fun _ _ => rfl, fun _ _ _ => rfl⟩
    refine Eq.trans ?_ this
    exact (withMac_on (hv := fun _ _ => List.length_replicate) ⟨rfl, rfl⟩).symm
  have := (key 0).trans (key 1).symm
  revert this
  decide

/-! Bob, who has a session with Alice, may be given any message from her: the hypotheses hold. -/
example : Reachable copying bob3 ∧ (bob3.sessions alice).isSome ∧
    (∀ r s, bob3.sessions alice = some r → r.HasState s → s.WithOther) := by
  refine ⟨bob3_reachable, by decide +kernel, fun r s hr hs => ?_⟩
  have h : (match bob3.sessions alice with
      | some r => r.previous.isEmpty && (match r.current with | some s => decide (s.sessionWithSelf ≠ .ok true) | none => false)
      | none => false) = true := by decide +kernel
  rw [hr] at h
  simp only [Bool.and_eq_true, List.isEmpty_iff] at h
  rcases hs with hc | ⟨b, hb, -⟩
  · rw [hc] at h
    exact of_decide_eq_true (p := s.sessionWithSelf ≠ .ok true) h.2
  · rw [h.1] at hb; cases hb

end Verif
