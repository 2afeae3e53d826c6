import Verif.Proofs.NoPanic
import Verif.Proofs.Runs
import Verif.Proofs.GroupDelivery
import Verif.Spec.Failures

/-!
When a pre-key message panics, and when a bundle is accepted.
-/

namespace Verif

theorem some_of_agreement {C : Crypto} {p : PrivKey} {q : PubKey} {d : Bytes} (h : p.agreement C q = .ok d) : (C.dh p.key q.keyBytes).isSome := by
  unfold PrivKey.agreement at h
  cases hd : C.dh p.key q.keyBytes with
  | none => simp [hd] at h
  | some _ => rfl

theorem LoadsPair.some_ok {m : UInt32 → Option PreKeyRec} {id : UInt32} {o : Option KeyPair} (h : LoadsPair m id o) {p : PreKeyRec} {k : KeyPair}
    (hp : m id = some p) (hk : p.keyPair = .ok k) : o = some k := by
  rcases h with ⟨h1, _⟩ | ⟨p', k', h1, h2, rfl⟩
  · rw [hp] at h1; cases h1
  · rw [hp] at h1
    cases h1
    rw [hk] at h2
    cases h2
    rfl

theorem acceptable_of_initializeBob {C : Crypto} {w : World} {m : PreKeyMsg} {signed oneTime : Option KeyPair} {s : SState}
    (hs : LoadsPair w.signedPreKeys m.signedPreKeyID signed)
    (ho : match m.preKeyID with | none => oneTime = none | some id => LoadsPair w.preKeys id oneTime)
    (h : initializeBobSession C ⟨w.identity, signed, oneTime, signed, m.identityKey, m.baseKey⟩ = .ok s) : m.Acceptable C w := by
  obtain ⟨sk, _, d1, d2, d3, d4, e1, _, h1, h2, h3, h4, _⟩ := initializeBob_ok h
  simp only at e1 h1 h2 h3 h4
  subst e1
  refine ⟨?_, fun p k hp hk => ?_, some_of_agreement h2, fun id p k hid hp hk => ?_⟩
  · rcases hs with ⟨_, h0⟩ | ⟨p, _, hp, _⟩
    · cases h0
    · rw [hp]; rfl
  · have := hs.some_ok hp hk
    cases this
    exact ⟨some_of_agreement h1, some_of_agreement h3⟩
  · rw [hid] at ho
    have := LoadsPair.some_ok ho hp hk
    subst this
    exact some_of_agreement h4

/-- The pair that a readable key loads as. -/
theorem loadsPair_of_readable {m : UInt32 → Option PreKeyRec} {id : UInt32} (h : ∀ p, m id = some p → ∃ k, p.keyPair = .ok k) :
    ∃ o, LoadsPair m id o := by
  cases hm : m id with
  | none => exact ⟨none, .inl ⟨hm, rfl⟩⟩
  | some p =>
    obtain ⟨k, hk⟩ := h p hm
    exact ⟨some k, .inr ⟨p, k, hm, hk, rfl⟩⟩

theorem bind_panic {σ α β} {x : M σ α} {f : α → M σ β} {s : σ} (h : (x s).1 = .panic) : ((x >>= f) s).1 = .panic := by
  rw [M.bind_run]
  rcases hx : x s with ⟨r, s'⟩
  rw [hx] at h
  simp only at h
  subst h
  rfl

theorem preKey_panics {E : Env} {w : World} (hf : w.faults = []) {a : Address} {m : PreKeyMsg} (hwf : ((w.sessions a).getD {}).WF)
    (ht : E.trusted w.known a m.identityKey .receiving = true) (hk : ¬ ((w.sessions a).getD {}).Knows m.version.toUInt32 m.baseKey)
    (hr : m.KeysReadable w) (ha : ¬ m.Acceptable E.C w) : (decryptMessage E a (.preKey m) w).1 = .panic := by
  obtain ⟨signed, hs⟩ := loadsPair_of_readable hr.1
  obtain ⟨oneTime, ho⟩ : ∃ o : Option KeyPair, match m.preKeyID with | none => o = none | some id => LoadsPair w.preKeys id o := by
    cases hid : m.preKeyID with
    | none => exact ⟨none, rfl⟩
    | some id => exact loadsPair_of_readable fun p hp => hr.2 id p hid hp
  have hi : orPanic (initializeBobSession E.C ⟨w.identity, signed, oneTime, signed, m.identityKey, m.baseKey⟩) = .panic := by
    cases hb : initializeBobSession E.C ⟨w.identity, signed, oneTime, signed, m.identityKey, m.baseKey⟩ with
    | ok s => exact absurd (acceptable_of_initializeBob hs ho hb) ha
    | err e => rfl
    | panic => rfl
  have hh : ((w.sessions a).getD {}).hasSessionState m.version.toUInt32 m.baseKey.bytes = .ok false := by
    rcases hwf.hasSessionState m.version.toUInt32 m.baseKey with ⟨h, _⟩ | ⟨_, h⟩
    · exact absurd h hk
    · exact h
  have hv3 : (processPreKeyV3 E a (w.sessions a).isSome ((w.sessions a).getD {}) m w).1 = .panic := by
    unfold processPreKeyV3
    have hl : M.lift (((w.sessions a).getD {}).hasSessionState m.version.toUInt32 m.baseKey.bytes) w = (.ok false, w) := by
      rw [M.lift_run, hh]
    rw [M.bind_ok_run hl]
    simp only [Bool.false_eq_true, if_false]
    have h1 : (loadSignedPreKey m.signedPreKeyID >>= optKeyPair) w = (.ok signed, w) := by
      rw [M.bind_ok_run (x := loadSignedPreKey _) (storeCall_nil _ w hf)]
      exact optKeyPair_run hs w
    rw [M.bind_ok_run h1]
    cases hid : m.preKeyID with
    | none =>
      rw [hid] at ho
      simp only at ho
      subst ho
      simp only
      rw [M.bind_ok_run (M.pure_run _ w), M.bind_ok_run (M.get_run w)]
      refine bind_panic ?_
      rw [M.lift_run]
      exact hi
    | some i =>
      rw [hid] at ho
      simp only at ho
      have h2 : (loadPreKey i >>= optKeyPair) w = (.ok oneTime, w) := by
        rw [M.bind_ok_run (x := loadPreKey _) (storeCall_nil _ w hf)]
        exact optKeyPair_run ho w
      simp only
      rw [M.bind_ok_run h2, M.bind_ok_run (M.get_run w)]
      refine bind_panic ?_
      rw [M.lift_run]
      exact hi
  simp only [decryptMessage]
  refine bind_panic ?_
  unfold decryptPreKey
  rw [M.bind_ok_run (x := loadSession a) (storeCall_nil _ w hf)]
  simp only
  refine bind_panic ?_
  unfold processPreKey
  rw [M.bind_ok_run (x := isTrusted E a _ .receiving) (storeCall_nil _ w hf)]
  simp only [ht, if_true]
  exact bind_panic hv3

theorem processPreKey_WF {E : Env} {a : Address} {m : PreKeyMsg} {w w' : World} {fs : List Fault} (hfs : ∀ g ∈ fs, g ∈ w.faults)
    (hwf : ((w.sessions a).getD {}).WF) {id : Option UInt32} {rec : Record}
    (h : processPreKey E a (w.sessions a).isSome ((w.sessions a).getD {}) m { w with faults := fs } = (.ok (id, rec), w')) : rec.WF := by
  have := processPreKey_bind (E := E) (a := a) (msg := m) (w0 := w) (f := fun x => (pure x : M World _))
    (fun r _ => ∀ id rec, r = .ok (id, rec) → rec.WF) ⟨fs, rfl, hfs⟩
    (fun r _ hr id rec h => by subst h; simp at hr) (fun _ _ _ _ _ _ _ id rec h => by cases h)
    (fun _ id rec _ _ hp _ _ id' rec' h => by
      simp only [M.pure_run, Res.ok.injEq, Prod.mk.injEq] at h
      obtain ⟨rfl, rfl⟩ := h
      exact hp.WF hwf)
  refine this id rec ?_
  rw [M.bind_run, h]
  rfl

/-- Where a pre-key message panics, the sender is trusted and the named keys are readable. -/
theorem preKey_panic_needs {E : Env} {w : World} {a : Address} {m : PreKeyMsg} (hm : 8 ≤ m.message.serialized.length)
    (hwf : ((w.sessions a).getD {}).WF) (h : (decryptMessage E a (.preKey m) w).1 = .panic) :
    E.trusted w.known a m.identityKey .receiving = true ∧ m.KeysReadable w := by
  refine Classical.byContradiction fun hn => ?_
  refine absurd h ?_
  simp only [decryptMessage]
  refine bind_no_panic ?_ (by simp)
  unfold decryptPreKey
  refine storeCall_bind (fun r _ => r ≠ .panic) (fun fs hfs => ?_) (fun _ _ => by simp) (fun _ _ => by simp)
  simp only
  refine bind_no_panic ?_ fun x w1 hx => ?_
  · unfold processPreKey
    refine storeCall_bind (fun r _ => r ≠ .panic) (fun fs1 _ => ?_) (fun _ _ => by simp) (fun _ _ => by simp)
    simp only
    by_cases ht : E.trusted w.known a m.identityKey .receiving = true
    rotate_left
    · rw [if_neg ht]; simp
    rw [if_pos ht]
    have hr : ¬ m.KeysReadable w := fun hr => hn ⟨ht, hr⟩
    refine bind_no_panic ?_ fun _ _ _ => bind_no_panic (storeCall_no_panic _ _) fun _ _ _ => by simp
    unfold processPreKeyV3
    refine bind_no_panic ?_ fun found w2 hw2 => ?_
    · rw [M.lift_run]
      rcases hwf.hasSessionState m.version.toUInt32 m.baseKey with ⟨_, h⟩ | ⟨_, h⟩ <;> rw [h] <;> simp
    rw [M.lift_run] at hw2
    have e2 : w2 = { w with faults := fs1 } := (congrArg Prod.snd hw2).symm
    subst e2
    cases found with
    | true => simp
    | false =>
      simp only [Bool.false_eq_true, if_false]
      refine load_bind_no_panic fun fs2 signed hs => ?_
      cases hid : m.preKeyID with
      | none =>
        exfalso
        refine hr ⟨fun p hp => ?_, fun id p h => by rw [hid] at h; cases h⟩
        rcases hs with ⟨h, _⟩ | ⟨p', k', h, h', _⟩
        · simp only at h; rw [hp] at h; cases h
        · simp only at h; rw [hp] at h; cases h; exact ⟨k', h'⟩
      | some i =>
        refine load_bind_no_panic fun fs3 one ho => ?_
        exfalso
        refine hr ⟨fun p hp => ?_, fun id p h hp => ?_⟩
        · rcases hs with ⟨h, _⟩ | ⟨p', k', h, h', _⟩
          · simp only at h; rw [hp] at h; cases h
          · simp only at h; rw [hp] at h; cases h; exact ⟨k', h'⟩
        · rw [hid] at h
          cases h
          rcases ho with ⟨h, _⟩ | ⟨p', k', h, h', _⟩
          · simp only at h; rw [hp] at h; cases h
          · simp only at h; rw [hp] at h; cases h; exact ⟨k', h'⟩
  · obtain ⟨id, rec⟩ := x
    have hrec : rec.WF := processPreKey_WF hfs hwf hx
    refine bind_no_panic ?_ fun y w2 _ => ?_
    · rw [withRand_run]; exact hrec.no_panic hm _
    obtain ⟨p, r⟩ := y
    refine bind_no_panic (by rw [touch_run]; simp) fun _ w3 _ => ?_
    refine bind_no_panic (storeCall_no_panic _ _) fun _ w4 _ => ?_
    cases id with
    | none => simp
    | some i => exact bind_no_panic (storeCall_no_panic _ _) fun _ _ _ => by simp

/-- A bundle that is accepted was usable. -/
theorem usable_of_fromBundle {E : Env} {w : World} {b : Bundle} {s : SState} {rd : Bytes} (h : FromBundle E w b s rd) :
    64 ≤ w.rand.length ∧ b.Usable E.C w w.rand := by
  obtain ⟨base, rd1, _, s0, hb, hi, _, _⟩ := h
  obtain ⟨l1, k1, _, rfl⟩ := generateKeyPair_ok hb
  obtain ⟨kp, d1, d2, d3, d4, hg, h1, h2, h3, h4, rk, ck, _, sr, sc, hc, _⟩ := initializeAlice_ok hi
  obtain ⟨l2, k2, _, _⟩ := generateKeyPair_ok hg
  simp only at h1 h2 h3 h4 hc
  rw [List.length_drop] at l2
  refine ⟨by omega, some_of_agreement h1, ?_, ?_, fun k hk => ?_, ?_⟩
  · have := some_of_agreement h2; rw [k1] at this; exact this
  · have := some_of_agreement h3; rw [k1] at this; exact this
  · rw [hk] at h4
    have := some_of_agreement h4
    rw [k1] at this
    exact this
  · rw [createChain_eq] at hc
    cases ha : kp.priv.agreement E.C b.signedPreKeyPublic with
    | ok d => have := some_of_agreement ha; rw [k2] at this; exact this
    | err e => rw [ha] at hc; cases hc
    | panic => rw [ha] at hc; cases hc

theorem fromBundle_of_usable {E : Env} {w : World} {b : Bundle} (hr : 64 ≤ w.rand.length) (h : b.Usable E.C w w.rand) :
    ∃ s rd, FromBundle E w b s rd := by
  obtain ⟨base, hb, k1, _⟩ := generateKeyPair_run E.C w.rand (by omega)
  obtain ⟨kp, hg, k2, _⟩ := generateKeyPair_run E.C (w.rand.drop 32) (by rw [List.length_drop]; omega)
  obtain ⟨d1, h1⟩ := agreement_some h.identity
  obtain ⟨d2, h2⟩ := agreement_some (p := base.priv) (q := b.identityKey) (by rw [k1]; exact h.base)
  obtain ⟨d3, h3⟩ := agreement_some (p := base.priv) (q := b.signedPreKeyPublic) (by rw [k1]; exact h.signed)
  obtain ⟨d5, h5⟩ := agreement_some (p := kp.priv) (q := b.signedPreKeyPublic) (by rw [k2]; exact h.ratchet)
  have hi : ∃ s, initializeAliceSession E.C
      ⟨w.identity, base, b.identityKey, b.signedPreKeyPublic, b.preKeyPublic, b.signedPreKeyPublic⟩ (w.rand.drop 32) =
        (.ok s, (w.rand.drop 32).drop 32) := by
    unfold initializeAliceSession
    rw [M.bind_ok_run hg, M.lift_run]
    simp only [h1, h2, h3, Res.bind_ok]
    cases ho : b.preKeyPublic with
    | none =>
      simp only [Res.bind_ok, deriveKeys_ok, createChain_eq, h5]
      exact ⟨_, rfl⟩
    | some k =>
      obtain ⟨d4, h4⟩ := agreement_some (p := base.priv) (q := k) (by rw [k1]; exact h.oneTime k ho)
      simp only [h4, Res.bind_ok, deriveKeys_ok, createChain_eq, h5]
      exact ⟨_, rfl⟩
  obtain ⟨s, hi⟩ := hi
  exact ⟨_, _, .mk base _ _ s hb hi _ rfl⟩

/-! ## Group records are never empty -/

theorem GRecord.setStateForChainID_length (g : GRecord) (c : UInt32) (s : GState) : (g.setStateForChainID c s).length = g.length := by
  induction g with
  | nil => rfl
  | cons t g ih =>
    unfold GRecord.setStateForChainID
    split
    · rfl
    · simp [ih]

def GWorld.NonEmpty (w : GWorld) : Prop := ∀ k, w.records k ≠ some []

theorem GWorld.NonEmpty.call {E : GEnv} {w : GWorld} (h : w.NonEmpty) (c : GCall) : (c.run E w).2.NonEmpty := by
  intro k hg
  rcases gcall_changed E c w k with he | ⟨g', _, he, hst⟩
  · rw [he] at hg; exact h k hg
  · rw [he] at hg
    simp only [Option.some.injEq] at hg
    subst hg
    generalize ho : w.records k = o at hst
    generalize hg : ([] : GRecord) = g at hst
    generalize c.op = op at hst
    cases hst with
    | enc _ => cases hg
    | dec _ =>
      have := congrArg List.length hg
      rw [GRecord.setStateForChainID_length] at this
      rename_i g _ _ _ _ _
      cases g with
      | nil => exact h k ho
      | cons _ _ => cases this
    | proc =>
      have := congrArg List.length hg
      simp [GRecord.added] at this
    | create hc =>
      obtain ⟨_, _, _, _, _, _, _, rfl⟩ := hc.shape
      cases hg

theorem GReachable.nonEmpty {E : GEnv} {w : GWorld} (h : GReachable E w) : w.NonEmpty := by
  obtain ⟨w0, cs, rd, srd, fs, h0, rfl⟩ := h
  have h1 : ∀ cs w0, GWorld.NonEmpty w0 → (gAfter E cs w0).NonEmpty := by
    intro cs
    induction cs with
    | nil => intro w0 h; exact h
    | cons c cs ih => intro w0 h; exact ih _ (h.call c)
  exact h1 cs w0 fun k hg => by rw [h0 k] at hg; cases hg

/-! ## Group calls -/

theorem parsed_senderKey_length {bytes : Bytes} {m : SenderKeyMsg} (h : newSenderKeyFromBytes bytes = .ok m) : 64 ≤ m.serialized.length := by
  obtain ⟨_, _, _, _, _, hl, _, _, _, _, _, _, hs⟩ := newSenderKeyFromBytes_ok h
  rw [hs]; omega

theorem built_needs {C : Crypto} {w : GWorld} {a : Address} {d : DistId} {pt : Bytes} {s : GState} {rest : GRecord} {sk : PrivKey} {m : SenderKeyMsg}
    {rd : Bytes} (h : GBuilt C w a d pt s rest sk m rd) :
    64 ≤ w.rand.length ∧ ∃ s rest, w.records (a, d) = some (s :: rest) ∧ s.signingPrivate ≠ [] := by
  obtain ⟨ct, _, hm⟩ := h.built
  refine ⟨newSenderKey_rand hm, s, rest, h.record, fun he => ?_⟩
  have := h.key
  simp [GState.privateSigningKey, he, newPrivateKey] at this

theorem groupEncrypt_succeeds {C : Crypto} {al : Bool} {w : GWorld} {a : Address} {d : DistId} {pt : Bytes} (hf : w.faults = []) (hr : 64 ≤ w.rand.length)
    {s : GState} {rest : GRecord} (hg : w.records (a, d) = some (s :: rest)) {sk : PrivKey} (hk : s.privateSigningKey = .ok sk) :
    ∃ m, (groupEncrypt C al a d pt w).1 = .ok m := by
  obtain ⟨ct, hct, _⟩ := cbcEncrypt_ok C (s.chainKey.messageKey C).cipherKey (s.chainKey.messageKey C).iv pt
    (by simp [aesKeyOk, (skmk_len C s.chainKey).1]) (skmk_len C s.chainKey).2
  have hm : ∃ m, newSenderKey C s.version.toUInt8 d s.chainId (s.chainKey.messageKey C).iteration ct sk w.rand = (.ok m, w.rand.drop 64) := by
    unfold newSenderKey PrivKey.sign
    simp only [M.bind_run, readFull_ok 64 w.rand hr, M.pure_run]
    exact ⟨_, rfl⟩
  obtain ⟨m, hm⟩ := hm
  refine ⟨m, ?_⟩
  unfold groupEncrypt
  rw [M.bind_ok_run (x := gLoad _) (gStoreCall_none _ hf)]
  simp only [hg]
  rw [M.bind_ok_run (show M.lift _ _ = (.ok s, _) by rw [M.lift_run]; rfl)]
  rw [M.bind_ok_run (show M.lift _ _ = (.ok ct, _) by rw [M.lift_run, hct])]
  rw [M.bind_ok_run (show M.lift _ _ = (.ok sk, _) by rw [M.lift_run, hk])]
  rw [M.bind_ok_run (show gWithRand _ w = (.ok m, { w with rand := w.rand.drop 64 }) by simp only [gWithRand, hm])]
  rw [M.bind_ok_run (gTouch_run _ _ _ _ _)]
  rw [M.bind_ok_run (x := gStore _ _) (gStoreCall_none _ (by simpa using hf))]
  rfl

theorem distribute_creates {C : Crypto} {w : GWorld} {a : Address} {d : DistId} (hf : w.faults = []) (hg : w.records (a, d) = none)
    (h4 : 4 ≤ w.sysRand.length) (hr : 64 ≤ w.rand.length) : ∃ m, (newSenderKeyDistribution C a d w).1 = .ok m := by
  obtain ⟨kp, hkp, _⟩ := generateKeyPair_run C (w.rand.drop 32) (by rw [List.length_drop]; omega)
  unfold newSenderKeyDistribution
  rw [M.bind_ok_run (x := gLoad _) (gStoreCall_none _ hf)]
  simp only [hg]
  have hc : ∃ (s : GState) (w' : GWorld), createSenderKey C a d w = (.ok [s], w') ∧ s.publicSigningKey = .ok kp.pub := by
    unfold createSenderKey
    have h1 : gWithSysRand randomUint32 w = (.ok (UInt32.ofNat (leNat (w.sysRand.take 4))), { w with sysRand := w.sysRand.drop 4 }) := by
      simp only [gWithSysRand, randomUint32, M.bind_run, readFull_ok 4 _ h4, M.pure_run]
    rw [M.bind_ok_run h1]
    have h2 : gWithRand (readFull 32) { w with sysRand := w.sysRand.drop 4 } =
        (.ok (w.rand.take 32), { w with sysRand := w.sysRand.drop 4, rand := w.rand.drop 32 }) := by
      simp only [gWithRand, readFull_ok 32 w.rand (by omega)]
    rw [M.bind_ok_run h2]
    have h3 : gWithRand (generateKeyPair C) { w with sysRand := w.sysRand.drop 4, rand := w.rand.drop 32 } =
        (.ok kp, { w with sysRand := w.sysRand.drop 4, rand := (w.rand.drop 32).drop 32 }) := by
      simp only [gWithRand, hkp]
    rw [M.bind_ok_run h3]
    have h4 : GRecord.addState [] (newGroupState 3 (UInt32.ofNat (leNat (w.sysRand.take 4)) >>> 1) 0 (w.rand.take 32) kp.pub (some kp.priv)) =
        .ok [newGroupState 3 (UInt32.ofNat (leNat (w.sysRand.take 4)) >>> 1) 0 (w.rand.take 32) kp.pub (some kp.priv)] := by
      simp [GRecord.addState, newGroupState_publicKey, GRecord.removeState, GRecord.removeStates, maxSenderKeyStates]
    rw [M.bind_ok_run (show M.lift _ _ = (.ok _, _) by rw [M.lift_run, h4])]
    rw [M.bind_ok_run (x := gStore _ _) (gStoreCall_none _ (by simpa using hf))]
    exact ⟨_, _, rfl, newGroupState_publicKey ..⟩
  obtain ⟨s, w', hc, hp⟩ := hc
  rw [M.bind_ok_run hc]
  rw [M.bind_ok_run (show M.lift _ _ = (.ok s, _) by rw [M.lift_run]; rfl)]
  rw [M.bind_ok_run (show M.lift _ _ = (.ok kp.pub, _) by rw [M.lift_run, hp])]
  exact ⟨_, rfl⟩

end Verif
