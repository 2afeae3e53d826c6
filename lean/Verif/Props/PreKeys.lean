import Verif.Proofs.PreKeys
import Verif.Props.Records

/-!
# C126: pre-keys matter only to the messages that start a session with them
-/

namespace Verif

open Ex

theorem World.withOtherPreKeys_all (pk spk : UInt32 → Option PreKeyRec) (w : World) :
    w.withOtherPreKeys (fun _ => false) (fun _ => false) pk spk = w.withPreKeys pk spk := by
  simp [World.withOtherPreKeys, World.withPreKeys]

/-- **C126**, sending: EncryptMessage does the same whatever is in the pre-key stores, and leaves them alone. -/
theorem C126_encrypt (E : Env) (w : World) (a : Address) (p : Bytes) (pk spk : UInt32 → Option PreKeyRec) :
    encryptMessage E a p (w.withPreKeys pk spk) =
      ((encryptMessage E a p w).1, (encryptMessage E a p w).2.withPreKeys pk spk) := by
  simp only [← World.withOtherPreKeys_all]
  exact Framed.encryptMessage E a p w

/-- **C126**, starting a session as the initiator: ProcessPreKeyBundle does the same whatever is in the own pre-key stores. -/
theorem C126_bundle (E : Env) (w : World) (a : Address) (b : Bundle) (pk spk : UInt32 → Option PreKeyRec) :
    processPreKeyBundle E a b (w.withPreKeys pk spk) =
      ((processPreKeyBundle E a b w).1, (processPreKeyBundle E a b w).2.withPreKeys pk spk) := by
  simp only [← World.withOtherPreKeys_all]
  exact Framed.processPreKeyBundle E a b w

/-- **C126**, receiving in a session that exists: DecryptMessage of every message that is not a pre-key message, and of every
pre-key message of a session that is in the record, does the same whatever is in the pre-key stores. -/
theorem C126_decrypt (E : Env) (w : World) (hw : Reachable E w) (a : Address) (c : Ciphertext)
    (h : ∀ m, c = .preKey m → ∃ r, w.sessions a = some r ∧ r.Knows m.version.toUInt32 m.baseKey)
    (pk spk : UInt32 → Option PreKeyRec) :
    decryptMessage E a c (w.withPreKeys pk spk) =
      ((decryptMessage E a c w).1, (decryptMessage E a c w).2.withPreKeys pk spk) := by
  simp only [← World.withOtherPreKeys_all]
  cases c with
  | signal m => exact Framed.decryptSignal E a m w
  | senderKey m => exact Framed.throw _ w
  | plaintext m => exact Framed.throw _ w
  | preKey m =>
    obtain ⟨r, hr, hk⟩ := h m rfl
    refine Framed.bind (Framed.decryptPreKey E a m w (Or.inl ?_)) fun p w' _ => .pure _ _
    rw [hr]
    rcases (hw.WF a r hr).hasSessionState m.version.toUInt32 m.baseKey with ⟨_, h'⟩ | ⟨hn, _⟩
    · exact h'
    · exact absurd hk hn

/-- **C126**, a message that starts a session: only the pre-keys it names matter. Whatever is in the stores under all other
ids, DecryptMessage does the same, and leaves the other entries alone. -/
theorem C126_named_only (E : Env) (w : World) (a : Address) (m : PreKeyMsg) (P S : UInt32 → Bool)
    (hS : S m.signedPreKeyID = true) (hP : ∀ id, m.preKeyID = some id → P id = true) (pk spk : UInt32 → Option PreKeyRec) :
    decryptMessage E a (.preKey m) (w.withOtherPreKeys P S pk spk) =
      ((decryptMessage E a (.preKey m) w).1, (decryptMessage E a (.preKey m) w).2.withOtherPreKeys P S pk spk) :=
  Framed.bind (Framed.decryptPreKey E a m w (Or.inr ⟨hS, hP⟩)) fun p w' _ => .pure _ _

/-! ## The hypotheses can be met -/

/-- Bob throws away all pre-keys, and still reads the next pre-key message of the session. -/
example : (decryptMessage copying alice m2 (bob2.withPreKeys (fun _ => none) (fun _ => none))).1 = .ok (some [4]) := by
  obtain ⟨m, r, h1, h2, h3⟩ := bob2_knows_m2
  have h := C126_decrypt copying bob2 bob2_reachable alice m2 (fun m' hm' => by
    rw [h1] at hm'
    cases hm'
    exact ⟨r, h2, h3⟩) (fun _ => none) (fun _ => none)
  rw [h]
  simp only [m2_delivered]

/-- Bob throws away all pre-keys but those the first message names, and still reads it. -/
example : ∃ m P S, m1 = .preKey m ∧ S m.signedPreKeyID = true ∧ (∀ id, m.preKeyID = some id → P id = true) ∧
    (decryptMessage copying alice m1 (bob0.withOtherPreKeys P S (fun _ => none) (fun _ => none))).1 = .ok (some [1, 2, 3]) := by
  have h : (match m1 with | .preKey _ => true | _ => false) = true := by decide +kernel
  split at h
  · rename_i m hm
    refine ⟨m, fun id => m.preKeyID == some id, fun id => id == m.signedPreKeyID, hm, by simp, fun id h => by simp [h], ?_⟩
    have h := C126_named_only copying bob0 alice m (fun id => m.preKeyID == some id) (fun id => id == m.signedPreKeyID) (by simp)
      (fun id h => by simp [h]) (fun _ => none) (fun _ => none)
    rw [hm, h]
    have := m1_delivered
    rw [hm] at this
    simp only [this]
  · cases h

end Verif
