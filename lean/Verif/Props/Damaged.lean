import Verif.Proofs.Damaged
import Verif.Props.Failures

/-!
# C128: damaged session records give errors, not panics
-/

namespace Verif

open Ex

/-- **C128**. Whatever records the stores hold (nothing is assumed about them, so every damaged or foreign record is covered), no call of
the session API panics, but for DecryptMessage on a pre-key message: whatever its arguments, its random bytes, the kind of store and
the failures of the store. -/
theorem C128_any_store (E : Env) (w : World) (c : Call) (hc : c.op.NotPreKey) : (c.run E w).1 ≠ .panic := by
  obtain ⟨op, rand, faults⟩ := c
  cases op with
  | encrypt a pt => exact Out.of_ne_panic (by simp) (encrypt_never_panics E a pt _)
  | bundle a b => exact Out.of_ne_panic (by simp) (bundle_no_panic E a b _)
  | addPreKey id k => simp [Call.run]
  | addSignedPreKey id k => simp [Call.run]
  | decrypt a m =>
    refine Out.of_ne_panic (by simp) ?_
    cases m with
    | preKey m => exact hc.elim
    | signal m =>
      obtain ⟨bytes, hb⟩ := hc
      exact decryptSignal_never_panics E a (parsed_signal_length hb) _
    | _ => simp [decryptMessage]

/-- C128 for pre-key messages: a damaged record adds no way to panic. DecryptMessage panics exactly in the case of C108, and then the
archive of the record can be parsed; with an archive that cannot be parsed it does not get that far. -/
theorem C128_pre_key_message (E : Env) (w : World) (hf : w.faults = []) (a : Address) (m : PreKeyMsg)
    (hm : (Ciphertext.preKey m).Parsed) :
    (decryptMessage E a (.preKey m) w).1 = .panic ↔
      E.trusted w.known a m.identityKey .receiving = true ∧
      (∀ r, w.sessions a = some r → ¬ r.Knows m.version.toUInt32 m.baseKey ∧ r.ArchiveParses) ∧
      m.KeysReadable w ∧ ¬ m.Acceptable E.C w := by
  have hk : ((w.sessions a).getD {}).hasSessionState m.version.toUInt32 m.baseKey.bytes = .ok false ↔
      ∀ r, w.sessions a = some r → ¬ r.Knows m.version.toUInt32 m.baseKey ∧ r.ArchiveParses := by
    rw [hasSessionState_false_iff]
    cases w.sessions a with
    | some r => simp
    | none =>
      simp only [Option.getD_none, reduceCtorEq, false_implies, implies_true, iff_true]
      refine ⟨?_, by simp [Record.ArchiveParses]⟩
      rintro ⟨s, h | ⟨b, hb, _⟩, _⟩
      · cases h
      · simp at hb
  obtain ⟨bytes, hb⟩ := hm
  rw [← hk]
  constructor
  · intro h
    exact preKey_panic_only (parsed_preKey_length hb) h
  · rintro ⟨h1, h2, h3, h4⟩
    exact preKey_panics_any hf h1 h2 h3 h4

/-- C128: what EncryptMessage needs. With a store that does not fail and holds any records, it returns a message exactly if there is a
record with a current session, the session has all the parts that sending uses, and the remote identity is trusted. In all other
cases it returns an error (C128_any_store). -/
theorem C128_encrypt_needs (E : Env) (w : World) (hf : w.faults = []) (a : Address) (pt : Bytes) :
    (∃ c, (encryptMessage E a pt w).1 = .ok c) ↔
      ∃ r s k, w.sessions a = some r ∧ r.current = some s ∧ s.Sendable ∧ s.remoteIdentityPublic.take 33 = k.bytes ∧
        E.trusted w.known a k .sending = true := by
  cases hr : w.sessions a with
  | none =>
    unfold encryptMessage
    rw [M.bind_ok_run (x := loadSession a) (storeCall_nil _ w hf)]
    simp [hr]
  | some r =>
    cases hs : r.current with
    | none =>
      unfold encryptMessage
      rw [M.bind_ok_run (x := loadSession a) (storeCall_nil _ w hf)]
      simp [hr, hs]
    | some s =>
      cases he : encryptState E.C s pt with
      | panic => exact absurd he (encryptState_no_panic _ _ _)
      | err e =>
        unfold encryptMessage
        rw [M.bind_ok_run (x := loadSession a) (storeCall_nil _ w hf)]
        simp only [hr, hs]
        have hl : M.lift (encryptState E.C s pt) w = (.err e, w) := by rw [M.lift_run, he]
        rw [M.bind_run, hl]
        constructor
        · rintro ⟨c, h⟩; cases h
        · rintro ⟨_, _, _, h1, h2, h3, _⟩
          cases h1
          rw [hs] at h2
          cases h2
          obtain ⟨x, hx⟩ := encryptState_of_sendable E.C h3 pt
          rw [he] at hx; cases hx
      | ok x =>
        obtain ⟨msg, s', k⟩ := x
        obtain ⟨h1, h2⟩ := encryptState_sendable he
        have h2' := ((remoteIdentityKey_iff _ _).1 h2).2
        cases ht : E.trusted w.known a k .sending with
        | true =>
          rw [encrypt_run hf hr hs he ht]
          exact iff_of_true ⟨_, rfl⟩ ⟨r, s, k, rfl, hs, h1, h2', ht⟩
        | false =>
          unfold encryptMessage
          rw [M.bind_ok_run (x := loadSession a) (storeCall_nil _ w hf)]
          simp only [hr, hs]
          have hl : M.lift (encryptState E.C s pt) w = (.ok (msg, s', k), w) := by rw [M.lift_run, he]
          rw [M.bind_ok_run hl]
          simp only
          rw [M.bind_ok_run (touch_run E a true _ _)]
          rw [M.bind_ok_run (x := isTrusted E a k .sending) (storeCall_nil _ _ (by simpa using hf))]
          constructor
          · rintro ⟨c, h⟩; simp [ht] at h
          · rintro ⟨r', s2, k', e1, e2, _, e3, e4⟩
            cases e1
            rw [hs] at e2; cases e2
            have : k' = k := by
              have := h2'.symm.trans e3
              obtain ⟨k1, _⟩ := k
              obtain ⟨k2, _⟩ := k'
              simp only [PubKey.bytes, List.cons.injEq, true_and] at this
              subst this
              rfl
            rw [this, ht] at e4
            cases e4

/-! ## The hypotheses can be met -/

namespace Ex

/-- Bob's store after a fault of the disk: the record of Alice has lost its chain key. -/
def bobDamaged : World :=
  { bob2 with sessions := fun x => if x = alice then some { current := some { senderChain := some {} }, previous := [[0xFF]] } else none }

/-- It answers both calls with an error, and cannot be a store of the library's own making. -/
example : (encryptMessage copying alice [1] bobDamaged).1 = .err .missingSenderChainKey ∧
    (decryptMessage copying alice m2 bobDamaged).1 = .err .proto := by
  decide +kernel

end Ex

end Verif
