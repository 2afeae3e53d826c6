import Verif.Proofs.Ops

/-!
Runs of the session operations when every store call succeeds.
-/

namespace Verif

theorem storeCall_nil {α} (act : World → α × World) (w : World) (h : w.faults = []) :
    storeCall act w = (.ok (act w).1, (act w).2) := by
  unfold storeCall; rw [h]

theorem encrypt_run {E : Env} {a : Address} {pt : Bytes} {w : World} {rec : Record} {st st' : SState} {msg : Ciphertext} {k : PubKey}
    (hf : w.faults = []) (h1 : w.sessions a = some rec) (h2 : rec.current = some st)
    (h3 : encryptState E.C st pt = .ok (msg, st', k)) (ht : E.trusted w.known a k .sending = true) :
    encryptMessage E a pt w = (.ok msg,
      { w with sessions := upd w.sessions a (some (rec.setSessionState st')), known := upd w.known a (some k) }) := by
  unfold encryptMessage
  rw [M.bind_ok_run (x := loadSession a) (storeCall_nil _ w hf)]
  simp only [h1, h2]
  have hl : M.lift (encryptState E.C st pt) w = (.ok (msg, st', k), w) := by rw [M.lift_run, h3]
  rw [M.bind_ok_run hl]
  simp only
  rw [M.bind_ok_run (touch_run E a true _ _)]
  rw [M.bind_ok_run (x := isTrusted E a k .sending) (storeCall_nil _ _ (by simpa using hf))]
  simp only [ht, if_true]
  rw [M.bind_ok_run (x := storeIdentity a k) (storeCall_nil _ _ (by simpa using hf))]
  simp only
  rw [M.bind_ok_run (x := storeSession a _) (storeCall_nil _ _ (by simpa using hf))]
  simp only [M.pure_run, upd_mid]

theorem optKeyPair_run {m : UInt32 → Option PreKeyRec} {id : UInt32} {o : Option KeyPair} (h : LoadsPair m id o) (w : World) :
    optKeyPair (m id) w = (.ok o, w) := by
  rcases h with ⟨h1, rfl⟩ | ⟨p, k, h1, h2, rfl⟩
  · rw [h1]; rfl
  · rw [h1]
    simp only [optKeyPair]
    have hl : M.lift p.keyPair w = (.ok k, w) := by rw [M.lift_run, h2]
    rw [M.bind_ok_run hl]
    rfl

theorem processPreKeyV3_run {E : Env} {a : Address} {m : PreKeyMsg} {w : World} {id : Option UInt32} {rec : Record}
    (hf : w.faults = []) (hp : Processed E w ((w.sessions a).getD {}) m id rec) :
    processPreKeyV3 E a (w.sessions a).isSome ((w.sessions a).getD {}) m w =
      (.ok (id, rec), { w with sessions := mid E a (w.sessions a).isSome w.sessions rec }) := by
  unfold processPreKeyV3
  cases hp with
  | found h =>
    have hl : M.lift (((w.sessions a).getD {}).hasSessionState m.version.toUInt32 m.baseKey.bytes) w = (.ok true, w) := by
      rw [M.lift_run, h]
    rw [M.bind_ok_run hl, mid_self]
    rfl
  | fresh h signed oneTime s hs ho hi s' hs' =>
    have hl : M.lift (((w.sessions a).getD {}).hasSessionState m.version.toUInt32 m.baseKey.bytes) w = (.ok false, w) := by
      rw [M.lift_run, h]
    rw [M.bind_ok_run hl]
    simp only [Bool.false_eq_true, if_false]
    have h1 : (loadSignedPreKey m.signedPreKeyID >>= optKeyPair) w = (.ok signed, w) := by
      rw [M.bind_ok_run (x := loadSignedPreKey _) (storeCall_nil _ w hf)]
      exact optKeyPair_run hs w
    rw [M.bind_ok_run h1]
    have hrest : ∀ one, one = oneTime → (M.get >>= fun w => M.lift (orPanic (initializeBobSession E.C
        { ourIdentityKeyPair := w.identity, ourSignedPreKeyPair := signed, ourOneTimePreKeyPair := one,
          ourRatchetKeyPair := signed, theirIdentityKey := m.identityKey, theirBaseKey := m.baseKey })) >>= fun s =>
        touch E a (w.sessions a).isSome (((w.sessions a).getD {}).promoteState { s with localRegistrationId := w.regId, remoteRegistrationId := m.registrationID, aliceBaseKey := m.baseKey.bytes }) >>= fun _ =>
        (pure (m.preKeyID, ((w.sessions a).getD {}).promoteState { s with localRegistrationId := w.regId, remoteRegistrationId := m.registrationID, aliceBaseKey := m.baseKey.bytes }) : M World _)) w =
        (.ok (m.preKeyID, ((w.sessions a).getD {}).promoteState s'),
          { w with sessions := mid E a (w.sessions a).isSome w.sessions (((w.sessions a).getD {}).promoteState s') }) := by
      rintro one rfl
      rw [M.bind_ok_run (M.get_run w)]
      have hl : M.lift (orPanic (initializeBobSession E.C
        { ourIdentityKeyPair := w.identity, ourSignedPreKeyPair := signed, ourOneTimePreKeyPair := one,
          ourRatchetKeyPair := signed, theirIdentityKey := m.identityKey, theirBaseKey := m.baseKey })) w = (.ok s, w) := by
        rw [M.lift_run, hi]; rfl
      rw [M.bind_ok_run hl, M.bind_ok_run (touch_run E a _ _ _), hs']
      rfl
    cases hid : m.preKeyID with
    | none =>
      simp only [hid] at ho hrest
      exact hrest none ho.symm
    | some i =>
      simp only [hid] at ho hrest
      have h2 : (loadPreKey i >>= optKeyPair) w = (.ok oneTime, w) := by
        rw [M.bind_ok_run (x := loadPreKey _) (storeCall_nil _ w hf)]
        exact optKeyPair_run ho w
      simp only
      rw [M.bind_ok_run h2]
      exact hrest oneTime rfl

theorem preKey_run {E : Env} {a : Address} {m : PreKeyMsg} {w : World} {id : Option UInt32} {rec rec' : Record} {p rd : Bytes}
    (hf : w.faults = []) (ht : E.trusted w.known a m.identityKey .receiving = true)
    (hp : Processed E w ((w.sessions a).getD {}) m id rec)
    (hd : decryptRecord E.C rec m.message w.rand = (.ok (p, rec'), rd)) :
    decryptPreKey E a m w = (.ok p,
      { w with sessions := upd w.sessions a (some rec'), known := upd w.known a (some m.identityKey), rand := rd, preKeys := dropPreKey w.preKeys id }) := by
  unfold decryptPreKey
  rw [M.bind_ok_run (x := loadSession a) (storeCall_nil _ w hf)]
  simp only
  have h1 : processPreKey E a (w.sessions a).isSome ((w.sessions a).getD {}) m w = (.ok (id, rec),
      { w with sessions := mid E a (w.sessions a).isSome w.sessions rec, known := upd w.known a (some m.identityKey) }) := by
    unfold processPreKey
    rw [M.bind_ok_run (x := isTrusted E a _ .receiving) (storeCall_nil _ w hf)]
    simp only [ht, if_true]
    rw [M.bind_ok_run (processPreKeyV3_run hf hp), M.bind_ok_run (x := storeIdentity a _) (storeCall_nil _ _ (by simpa using hf))]
    rfl
  rw [M.bind_ok_run h1]
  simp only
  have h2 : withRand (decryptRecord E.C rec m.message) { w with sessions := mid E a (w.sessions a).isSome w.sessions rec, known := upd w.known a (some m.identityKey) } =
      (.ok (p, rec'), { w with sessions := mid E a (w.sessions a).isSome w.sessions rec, known := upd w.known a (some m.identityKey), rand := rd }) := by
    rw [withRand_run]; simp only [hd]
  rw [M.bind_ok_run h2]
  simp only
  rw [M.bind_ok_run (touch_run E a _ _ _)]
  simp only [mid_mid]
  rw [M.bind_ok_run (x := storeSession a _) (storeCall_nil _ _ (by simpa using hf))]
  simp only [upd_mid]
  cases id with
  | none => rfl
  | some i =>
    simp only
    rw [M.bind_ok_run (x := deletePreKey i) (storeCall_nil _ _ (by simpa using hf))]
    rfl

theorem signal_run {E : Env} {a : Address} {m : Signal} {w : World} {rec rec' : Record} {pt : Option Bytes} {rd : Bytes} {st : SState} {k : PubKey}
    (hf : w.faults = []) (h1 : w.sessions a = some rec) (h2 : Tried E rec m w.rand pt rec' rd) (h3 : rec'.current = some st)
    (h4 : st.remoteIdentityKey = .ok (some k)) (ht : E.trusted w.known a k .receiving = true) :
    decryptSignal E a m w = (.ok pt,
      { w with sessions := upd w.sessions a (some rec'), known := upd w.known a (some k), rand := rd }) := by
  unfold decryptSignal
  rw [M.bind_ok_run (x := loadSession a) (storeCall_nil _ w hf)]
  simp only [h1]
  rw [M.bind_run, M.attempt, withRand_run]
  have key : (touch E a true rec' >>= fun _ => match rec'.current with
          | none => (M.throw .mustHaveState : M World (Option Bytes))
          | some state =>
            match state.remoteIdentityKey with
            | .ok (some theirIdentityKey) => do
              let trusted ← isTrusted E a theirIdentityKey .receiving
              if trusted then
                storeIdentity a theirIdentityKey
                storeSession a rec'
                return pt
              else M.throw (.untrustedIdentity a)
            | .panic => M.panic
            | _ => M.throw .mustHaveIdentity) { w with rand := rd } =
      (.ok pt, { w with sessions := upd w.sessions a (some rec'), known := upd w.known a (some k), rand := rd }) := by
    rw [M.bind_ok_run (touch_run E a true _ _)]
    simp only [h3, h4]
    rw [M.bind_ok_run (x := isTrusted E a k .receiving) (storeCall_nil _ _ (by simpa using hf))]
    simp only [ht, if_true]
    rw [M.bind_ok_run (x := storeIdentity a k) (storeCall_nil _ _ (by simpa using hf))]
    rw [M.bind_ok_run (x := storeSession a _) (storeCall_nil _ _ (by simpa using hf))]
    simp only [M.pure_run, upd_mid]
  cases h2 with
  | ok p _ _ hd => rw [hd]; exact key
  | failed e _ hd => rw [hd]; exact key

theorem bundle_run {E : Env} {a : Address} {b : Bundle} {w : World} {s : SState} {rd : Bytes} (hf : w.faults = [])
    (ht : E.trusted w.known a b.identityKey .sending = true)
    (hv : b.identityKey.verifySignature E.C b.signedPreKeySignature [b.signedPreKeyPublic.bytes] = .ok true)
    (h : FromBundle E w b s rd) :
    processPreKeyBundle E a b w = (.ok (),
      { w with sessions := upd w.sessions a (some (((w.sessions a).getD {}).promoteState s)), known := upd w.known a (some b.identityKey), rand := rd }) := by
  obtain ⟨base, rd1, _, s0, hb, hi, _, rfl⟩ := h
  unfold processPreKeyBundle
  rw [M.bind_ok_run (x := isTrusted E a _ .sending) (storeCall_nil _ w hf)]
  simp only [ht, if_true]
  have hl : M.lift (b.identityKey.verifySignature E.C b.signedPreKeySignature [b.signedPreKeyPublic.bytes]) w = (.ok true, w) := by
    rw [M.lift_run, hv]
  rw [M.bind_ok_run hl]
  simp only [if_true]
  rw [M.bind_ok_run (x := loadSession a) (storeCall_nil _ w hf)]
  simp only
  have h1 : withRand (generateKeyPair E.C) w = (.ok base, { w with rand := rd1 }) := by
    rw [withRand_run]; simp only [hb]
  rw [M.bind_ok_run h1, M.bind_ok_run (M.get_run _)]
  have h2 : withRand (initializeAliceSession E.C
      ⟨w.identity, base, b.identityKey, b.signedPreKeyPublic, b.preKeyPublic, b.signedPreKeyPublic⟩) { w with rand := rd1 } = (.ok s0, { w with rand := rd }) := by
    rw [withRand_run]; simp only [hi]
  rw [M.bind_ok_run h2, M.bind_ok_run (x := storeIdentity a _) (storeCall_nil _ _ (by simpa using hf))]
  simp only
  rw [M.bind_ok_run (touch_run E a _ _ _)]
  rw [show storeSession a _ _ = _ from storeCall_nil _ _ (by simpa using hf)]
  simp only [upd_mid]

end Verif
