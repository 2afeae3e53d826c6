import Verif.Proofs.Fresh
import Verif.Props.Inspect

/-!
# C120: private keys are made of fresh random bytes
-/

namespace Verif

open Ex

/-- **C120**, one call. Take any reachable state of a user and any call. Every private ratchet key that is stored for an address after the
call was stored for this address before; or is made of 32 of the random bytes of this call; or is the private key of the signed pre-key that
a pre-key message names. EncryptMessage makes no keys. -/
theorem C120_stored_keys (E : Env) (w : World) (hw : Reachable E w) (c : Call) (a : Address) (key : Bytes)
    (h : (c.run E w).2.HasRatchet a key) :
    w.HasRatchet a key ∨ (Drawn c.rand key ∧ ((∃ m, c.op = .decrypt a m) ∨ ∃ b, c.op = .bundle a b)) ∨
      ∃ m p, c.op = .decrypt a (.preKey m) ∧ w.signedPreKeys m.signedPreKeyID = some p ∧ p.HasPrivate key := by
  obtain ⟨r, u, hr, hu, rfl⟩ := h
  have hwf : ((w.sessions a).getD {}).WF := hw.WF.getD a
  have stored : ∀ s, ((w.sessions a).getD {}).HasState s → w.HasRatchet a s.ratchetPrivate := by
    intro s hs
    cases hr0 : w.sessions a with
    | none =>
      rw [hr0] at hs
      rcases hs with hs | ⟨_, hs, _⟩ <;> cases hs
    | some r0 =>
      rw [hr0] at hs
      exact ⟨r0, s, hr0, hs, rfl⟩
  rcases call_changed E c w a with he | ⟨r', he, hst⟩
  · rw [hr] at he
    exact .inl ⟨r, u, he.symm, hu, rfl⟩
  · rw [hr] at he
    cases he
    simp only at hst
    generalize hop : c.op = op at hst
    cases hst with
    | enc h2 h3 =>
      left
      rcases hu with hu | hu
      · simp only [Record.setSessionState, Option.some.injEq] at hu
        subst hu
        rw [encrypt_ratchet (hwf.current _ h2) h3]
        exact stored _ (.inl h2)
      · exact stored _ (.inr hu)
    | dec hd =>
      rcases decryptRecord_ratchet hwf hd hu with ⟨s, hs, e⟩ | hd
      · rw [e]; exact .inl (stored s hs)
      · exact .inr (.inl ⟨hd, .inl ⟨_, rfl⟩⟩)
    | setUp hE hp hbad =>
      rcases hp.ratchet hwf hu with hu | ⟨p, hp, hk⟩
      · exact .inl (stored u hu)
      · exact .inr (.inr ⟨_, p, rfl, hp, hk⟩)
    | preKey hp hd =>
      rcases decryptRecord_ratchet (hp.WF hwf) hd hu with ⟨s, hs, e⟩ | hd
      · rw [e]
        rcases hp.ratchet hwf hs with hs | ⟨p, hp, hk⟩
        · exact .inl (stored s hs)
        · exact .inr (.inr ⟨_, p, rfl, hp, hk⟩)
      · exact .inr (.inl ⟨hd, .inl ⟨_, rfl⟩⟩)
    | bundle hf =>
      rcases hwf.promoted_state hu with rfl | hu
      · obtain ⟨h1, _, h2, _⟩ := hf.ratchet
        exact .inr (.inl ⟨⟨1, h1, h2⟩, .inr ⟨_, rfl⟩⟩)
      · exact .inl (stored u hu)

/-- **C120**, ProcessPreKeyBundle: a successful call reads 64 random bytes. The first 32 are the base key, whose public half goes into the
session and into the pre-key messages. The other 32 are the private ratchet key of the new session. -/
theorem C120_bundle (E : Env) (w : World) (a : Address) (b : Bundle) (h : (processPreKeyBundle E a b w).1 = .ok ()) :
    64 ≤ w.rand.length ∧ (processPreKeyBundle E a b w).2.rand = w.rand.drop 64 ∧
    ∃ r s base p, (processPreKeyBundle E a b w).2.sessions a = some r ∧ r.current = some s ∧
      s.ratchetPrivate = clamp ((w.rand.drop 32).take 32) ∧ base = clamp (w.rand.take 32) ∧
      s.aliceBaseKey = 5 :: E.C.pub base ∧ s.pendingPreKey = some p ∧ p.baseKey = 5 :: E.C.pub base := by
  have ho := bundle_outcome E a b w
  generalize processPreKeyBundle E a b w = x at ho h ⊢
  obtain ⟨r, w'⟩ := x
  simp only at ho h ⊢
  cases ho with
  | early r fs rd hr => exact absurd h (hr ())
  | stopped r fs hr => exact absurd h (hr ())
  | done fs s rd ht hv hf =>
    obtain ⟨h1, h2, h3, base, h4, h5, p, h6, h7⟩ := hf.ratchet
    refine ⟨h1, h2, _, s, base.key, p, upd_same _ _ _, rfl, h3, h4, ?_, h6, ?_⟩
    · rw [h5]; rfl
    · rw [h7]; rfl

/-- Every private ratchet key comes from the random bytes of some call of the history, or from a signed pre-key. -/
theorem C120_origin (E : Env) (w0 : World) (h0 : w0.NoSessions) (cs : List Call) (a : Address) (key : Bytes)
    (h : (after E cs w0).HasRatchet a key) : (∃ c ∈ cs, Drawn c.rand key) ∨ SignedPrivate w0 cs key := by
  have gen : ∀ (cs : List Call) (w : World), Reachable E w → ∀ a key, (after E cs w).HasRatchet a key →
      w.HasRatchet a key ∨ (∃ c ∈ cs, Drawn c.rand key) ∨ SignedPrivate w cs key := by
    intro cs
    induction cs with
    | nil => exact fun w _ a key h => .inl h
    | cons c cs ih =>
      intro w hw a key h
      rcases ih (c.run E w).2 (hw.call c) a key h with h | ⟨d, hd, h⟩ | h
      · rcases C120_stored_keys E w hw c a key h with h | ⟨h, _⟩ | ⟨m, p, _, hp, hk⟩
        · exact .inl h
        · exact .inr (.inl ⟨c, by simp, h⟩)
        · exact .inr (.inr (.inl ⟨_, p, hp, hk⟩))
      · exact .inr (.inl ⟨d, by simp [hd], h⟩)
      · refine .inr (.inr ?_)
        rcases h with ⟨id, p, hp, hk⟩ | ⟨d, hd, h⟩
        · rcases run_signedPreKeys E c w with he | ⟨i, q, hc, he⟩
          · rw [he] at hp; exact .inl ⟨id, p, hp, hk⟩
          · rw [he] at hp
            by_cases hi : id = i
            · subst hi
              rw [upd_same] at hp
              cases hp
              exact .inr ⟨c, by simp, id, p, hc, hk⟩
            · rw [upd_ne _ _ hi] at hp
              exact .inl ⟨id, p, hp, hk⟩
        · exact .inr ⟨d, by simp [hd], h⟩
  rcases gen cs w0 (.start h0) a key h with ⟨r, _, hr, _⟩ | h
  · rw [h0 a] at hr; cases hr
  · exact h

/-- **C120**, histories. If the random bytes of a call give no key that the random bytes of an earlier call gave, nor that of a signed
pre-key, then none of the keys they give is stored before the call, for any address. -/
theorem C120_never_before (E : Env) (w0 : World) (h0 : w0.NoSessions) (cs : List Call) (c : Call)
    (hnew : ∀ key, Drawn c.rand key → (∀ d ∈ cs, ¬ Drawn d.rand key) ∧ ¬ SignedPrivate w0 cs key)
    (key : Bytes) (hk : Drawn c.rand key) (ds : List Call) (hds : ds <+: cs) (a : Address) : ¬ (after E ds w0).HasRatchet a key := by
  intro h
  obtain ⟨h1, h2⟩ := hnew key hk
  rcases C120_origin E w0 h0 ds a key h with ⟨d, hd, h3⟩ | h3 | ⟨d, hd, h3⟩
  · exact h1 d (hds.subset hd) h3
  · exact h2 (.inl h3)
  · exact h2 (.inr ⟨d, hds.subset hd, h3⟩)

/-- **C120**, reading. With enough random bytes -- none for EncryptMessage, 64 for ProcessPreKeyBundle, 32 · 41 for DecryptMessage -- a call
reads some first k of them, no more than that, leaves the others for the next call, and does not depend on them. -/
theorem C120_reads (E : Env) (w : World) (hw : Reachable E w) (c : Call) (hl : c.op.appetite ≤ c.rand.length) :
    ∃ k, k ≤ c.op.appetite ∧ (c.run E w).2.rand = c.rand.drop k ∧
      ∀ rest, Call.run E { c with rand := c.rand.take k ++ rest } w = ((c.run E w).1, { (c.run E w).2 with rand := rest }) := by
  have hwf : ∀ rd fs, ({ w with rand := rd, faults := fs } : World).WF := fun _ _ => hw.WF
  obtain ⟨op, rd, fs⟩ := c
  cases op with
  | addPreKey id k => exact ⟨0, Nat.le_refl _, by simp [Call.run], fun rest => by simp [Call.run]⟩
  | addSignedPreKey id k => exact ⟨0, Nat.le_refl _, by simp [Call.run], fun rest => by simp [Call.run]⟩
  | encrypt a pt =>
    obtain ⟨k, h1, h2, h3⟩ := encryptMessage_takes E a pt { w with rand := rd, faults := fs } hl
    exact ⟨k, h1, h2, fun rest => by simp only [Call.run]; rw [h3]⟩
  | decrypt a m =>
    obtain ⟨k, h1, h2, h3⟩ := decryptMessage_takes E a m { w with rand := rd, faults := fs } (hwf _ _) hl
    exact ⟨k, h1, h2, fun rest => by simp only [Call.run]; rw [h3]⟩
  | bundle a b =>
    obtain ⟨k, h1, h2, h3⟩ := processPreKeyBundle_takes E a b { w with rand := rd, faults := fs } hl
    exact ⟨k, h1, h2, fun rest => by simp only [Call.run]; rw [h3]⟩

/-- **C120**, groups. NewSenderKeyDistribution makes a new sender key of random bytes: 32 for the chain, other 32 for the signing key, and
four of the system's for the chain id. -/
theorem C120_group (C : Crypto) (w : GWorld) (a : Address) (d : DistId) (hn : w.records (a, d) = none) (m : DistributionMsg)
    (h : (newSenderKeyDistribution C a d w).1 = .ok m) :
    4 ≤ w.sysRand.length ∧ 64 ≤ w.rand.length ∧ m.chainID.toNat = leNat (w.sysRand.take 4) / 2 ∧ m.chainKey = w.rand.take 32 ∧
      ∃ k : PrivKey, k.key = clamp ((w.rand.drop 32).take 32) ∧ m.signingKey = k.pub C ∧
        (newSenderKeyDistribution C a d w).2.records (a, d) = some [newGroupState 3 m.chainID 0 m.chainKey m.signingKey (some k)] := by
  have ho := newSenderKeyDistribution_outcome C a d w
  generalize newSenderKeyDistribution C a d w = x at ho h ⊢
  obtain ⟨r, w'⟩ := x
  simp only at ho h ⊢
  cases ho with
  | early r fs rd srd hr => exact absurd h (hr m)
  | stopped fs rd srd g hg _ _ => cases h
  | existing fs s rest k h1 _ => rw [hn] at h1; cases h1
  | created fs rd srd s k hg _ hk =>
    obtain ⟨cid, seed, kp, h1, h2, h3, ⟨h4, h5, h6, h7⟩, h8⟩ := hg.shape
    cases h8
    cases h
    rw [newGroupState_publicKey] at hk
    cases hk
    have hg := generateKeyPair_ok (r' := (generateKeyPair C (w.rand.drop 32)).2) (by rw [← h7])
    have hl := hg.1
    rw [List.length_drop] at hl
    exact ⟨h4, by omega, h5, h6, kp.priv, hg.2.1, hg.2.2.1, upd_same _ _ _⟩

/-! The hypotheses hold, and the conclusions are not empty: Alice sets up a session from Bob's bundle, and her key was not stored before. Bob
answers Alice's first message with a key of his random bytes. A group key is made. -/
example : (processPreKeyBundle copying bob bundle alice0).1 = .ok () ∧
    (∀ a key, ¬ alice0.HasRatchet a key) ∧ ∃ key, alice1.HasRatchet bob key ∧ Drawn alice0.rand key := by
  have h : (processPreKeyBundle copying bob bundle alice0).1 = .ok () := by decide +kernel
  refine ⟨h, fun a key ⟨r, _, hr, _⟩ => (by cases hr), ?_⟩
  have key : ∀ w, (processPreKeyBundle copying bob bundle w).1 = .ok () →
      ∃ key, (processPreKeyBundle copying bob bundle w).2.HasRatchet bob key ∧ Drawn w.rand key := by
    intro w h
    obtain ⟨h1, _, r, s, _, _, h2, h3, h4, _⟩ := C120_bundle copying w bob bundle h
    exact ⟨_, ⟨r, s, h2, .inl h3, h4⟩, 1, h1, rfl⟩
  exact key alice0 h

example : (Op.bundle bob bundle).appetite ≤ alice0.rand.length ∧ group0.records (alice, dist) = none ∧
    (newSenderKeyDistribution toy alice dist group0).1 = .ok d1 := by decide +kernel

end Verif
