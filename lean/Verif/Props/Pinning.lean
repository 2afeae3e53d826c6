import Verif.Props.Stores
import Verif.Proofs.WF

/-!
# C80: a successful call pins the identity of the peer

Trust on first use only protects later messages if the first use is remembered.
-/

namespace Verif
open Ex

/-- **C80.** A successful EncryptMessage has stored, for this address and for no other, the identity key of the peer whose session was used. -/
theorem C80_encrypt_pins (E : Env) (w : World) (a : Address) (pt : Bytes) (c : Ciphertext) (h : (encryptMessage E a pt w).1 = .ok c) :
    ∃ k, w.peer a = some k ∧ (encryptMessage E a pt w).2.peer a = some k ∧
      (encryptMessage E a pt w).2.known a = some k ∧ ∀ b, b ≠ a → (encryptMessage E a pt w).2.known b = w.known b := by
  have ho := encrypt_outcome E a pt w
  generalize encryptMessage E a pt w = x at ho h ⊢
  obtain ⟨r, w'⟩ := x
  simp only at ho h ⊢
  subst h
  cases ho with
  | early _ fs hr => exact absurd rfl (hr c)
  | stopped _ fs hr => exact absurd rfl (hr c)
  | done fs rec st st' msg k h1 h2 h3 ht =>
    have hk : st.remoteIdentityKey = .ok (some k) ∧ st'.remoteIdentityKey = .ok (some k) := by
      unfold encryptState at h3
      simp only [Res.bind_eq_ok] at h3
      obtain ⟨ck, _, eph, _, lk, _, o, ho, h3⟩ := h3
      cases o with
      | none => simp at h3
      | some rk =>
        simp only [Res.bind_eq_ok, Res.pure_eq, Res.ok.injEq, Prod.mk.injEq] at h3
        obtain ⟨_, _, _, _, _, _, _, rfl, rfl⟩ := h3
        refine ⟨ho, ?_⟩
        rw [← ho]
        unfold SState.setSenderChainKey
        split <;> rfl
    refine ⟨k, by simp [World.peer, h1, h2, SState.peer, hk.1], by simp [World.peer, Record.setSessionState, SState.peer, hk.2], upd_same .., ?_⟩
    exact fun b hb => upd_ne _ _ hb

example : ∃ c, (encryptMessage copying bob [4] alice2).1 = .ok c ∧ (encryptMessage copying bob [4] alice2).2.known bob = some (pair 2).pub := by
  exact ⟨outMsg (encryptMessage copying bob [4] alice2), by decide +kernel, by decide +kernel⟩

/-- **C80.** So has a DecryptMessage of a Signal message that returns normally: the stored key is that of the session that is current
afterwards. -/
theorem C80_decrypt_signal_pins (E : Env) (w : World) (a : Address) (m : Signal) (o : Option Bytes)
    (h : (decryptMessage E a (.signal m) w).1 = .ok o) :
    ∃ k, (decryptMessage E a (.signal m) w).2.peer a = some k ∧ (decryptMessage E a (.signal m) w).2.known a = some k ∧
      ∀ b, b ≠ a → (decryptMessage E a (.signal m) w).2.known b = w.known b := by
  simp only [decryptMessage] at h ⊢
  have ho := signal_outcome E a m w
  generalize decryptSignal E a m w = x at ho h ⊢
  obtain ⟨r, w'⟩ := x
  simp only at ho h ⊢
  subst h
  cases ho with
  | early _ fs rd hr => exact absurd rfl (hr o)
  | stopped _ fs hr => exact absurd rfl (hr o)
  | done fs rec rec' pt rd st k h1 h2 h3 h4 ht =>
    exact ⟨k, by simp [World.peer, h3, SState.peer, h4], upd_same .., fun b hb => upd_ne _ _ hb⟩

/-- **C80.** A successful DecryptMessage of a pre-key message has stored the identity key that the message names. -/
theorem C80_decrypt_preKey_pins (E : Env) (w : World) (a : Address) (m : PreKeyMsg) (o : Option Bytes)
    (h : (decryptMessage E a (.preKey m) w).1 = .ok o) :
    (decryptMessage E a (.preKey m) w).2.known a = some m.identityKey ∧
    ∀ b, b ≠ a → (decryptMessage E a (.preKey m) w).2.known b = w.known b := by
  rw [(C09_decrypt_preKey_partial E w a m o h).2]
  exact ⟨upd_same .., fun b hb => upd_ne _ _ hb⟩

/-- **C80.** A successful ProcessPreKeyBundle has stored the identity key of the bundle, and the current session is with it. -/
theorem C80_bundle_pins (E : Env) (w : World) (a : Address) (b : Bundle) (h : (processPreKeyBundle E a b w).1 = .ok ()) :
    (processPreKeyBundle E a b w).2.peer a = some b.identityKey ∧ (processPreKeyBundle E a b w).2.known a = some b.identityKey ∧
    ∀ c, c ≠ a → (processPreKeyBundle E a b w).2.known c = w.known c := by
  have ho := bundle_outcome E a b w
  generalize processPreKeyBundle E a b w = x at ho h ⊢
  obtain ⟨r, w'⟩ := x
  simp only at ho h ⊢
  subst h
  cases ho with
  | early _ fs rd hr => exact absurd rfl (hr ())
  | stopped _ fs hr => exact absurd rfl (hr ())
  | done fs s rd ht hv hf =>
    refine ⟨?_, upd_same .., fun c hc => upd_ne _ _ hc⟩
    obtain ⟨base, rd1, _, s0, hb, hi, _, rfl⟩ := hf
    obtain ⟨kp, d1, d2, d3, d4, _, _, _, _, _, rk, ck, hk, sr, sc, hc, rfl⟩ := initializeAlice_ok hi
    simp only [World.peer, upd_same, Option.bind_some, Record.promoteState, SState.peer]
    rw [SState.remoteIdentityKey_bytes (k := b.identityKey)]
    show (SState.addReceiverChain _ _ _).remoteIdentityPublic = _
    unfold SState.addReceiverChain
    simp only
    split <;> rfl

example : (processPreKeyBundle copying bob bundle alice0).1 = .ok () := by decide +kernel

/-- **C80.** With the trust rule of the in-memory identity store, the first pinned key stays: after any further calls, with any messages,
outcomes and store failures, EncryptMessage to this address only ever succeeds for a session with that same key, ProcessPreKeyBundle only
for a bundle with it, and DecryptMessage only for pre-key messages that name it and, for Signal messages, for a session with it. -/
theorem C80_first_use_is_final (E : Env) (hE : E.trusted = tofu) (w : World) (a : Address) (k : PubKey) (hk : w.known a = some k) (cs : List Call)
    (rand : Bytes) (faults : List Fault) :
    let w' := { after E cs w with rand := rand, faults := faults }
    (∀ pt c, (encryptMessage E a pt w').1 = .ok c → w'.peer a = some k) ∧
    (∀ b, (processPreKeyBundle E a b w').1 = .ok () → b.identityKey = k) ∧
    (∀ m o, (decryptMessage E a (.preKey m) w').1 = .ok o → m.identityKey = k) ∧
    (∀ m o, (decryptMessage E a (.signal m) w').1 = .ok o → (decryptMessage E a (.signal m) w').2.peer a = some k) := by
  intro w'
  have hw : w'.known a = some k := C06_known_identity_is_kept_partial E hE cs w a k hk
  have key : ∀ k' d, E.trusted w'.known a k' d = true → k' = k := by
    intro k' d ht
    rw [hE] at ht
    simpa only [tofu, hw, PubKey.equal_iff] using ht
  refine ⟨fun pt c h => ?_, fun b h => ?_, fun m o h => ?_, fun m o h => ?_⟩
  · obtain ⟨k', h1, h2⟩ := C09_encrypt_only_to_trusted E w' a pt c h
    rw [h1, key _ _ h2]
  · exact key _ _ (C10_bundle_is_authenticated E w' a b h).1
  · exact key _ _ (C09_decrypt_preKey_partial E w' a m o h).1
  · obtain ⟨k', h1, h2⟩ := C09_decrypt_signal_only_from_trusted E w' a m o h
    rw [h1, key _ _ h2]

example : copying.trusted = tofu ∧ bob1.known alice = some (pair 1).pub ∧
    ∃ c, (encryptMessage copying alice [9] bob1).1 = .ok c :=
  ⟨rfl, by decide +kernel, outMsg (encryptMessage copying alice [9] bob1), by decide +kernel⟩

end Verif
