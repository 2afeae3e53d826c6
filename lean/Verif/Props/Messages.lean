import Verif.Proofs.Messages
import Verif.Proofs.Reading

/-!
# Which messages DecryptMessage accepts and what EncryptMessage produces: C03, C04, C16, C18
-/

namespace Verif

open Ex

/-! ## C03 -/

/-- C03 does not hold: the newest message of a chain is accepted again. -/
theorem C03_no_second_delivery_false :
    ∃ (E : Env) (w : World) (a : Address) (c : Ciphertext) (p : Bytes), Reachable E w ∧ w.faults = [] ∧
      (decryptMessage E a c w).1 = .ok (some p) ∧
      (decryptMessage E a c (decryptMessage E a c w).2).1 = .ok (some p) :=
  ⟨copying, bob2, alice, m3, [5, 5], bob2_reachable, by decide +kernel, m3_delivered, by decide +kernel⟩

/-- C03 does not hold: the first message is accepted again after the next message of the chain has been accepted. -/
theorem C03_no_late_second_delivery_false :
    ∃ (E : Env) (w : World) (a : Address) (c c' : Ciphertext) (p : Bytes), Reachable E w ∧ w.faults = [] ∧
      (decryptMessage E a c w).1 = .ok (some p) ∧
      (decryptMessage E a c' (decryptMessage E a c w).2).1 ≠ .ok none ∧
      (decryptMessage E a c (decryptMessage E a c' (decryptMessage E a c w).2).2).1 = .ok (some p) :=
  ⟨copying, bob0, alice, m1, m2, [1, 2, 3], bob0_reachable, by decide +kernel, m1_delivered, by decide +kernel, by decide +kernel⟩

/-- C03, for messages that arrive after a newer message of their chain: once decrypted, such a message is reported as a
duplicate in every later state of the session, whatever else is sent and received in between, as long as the session
keeps the chain. Missing from the full claim: a message that is the newest of its chain (see the `_false` theorems). -/
theorem C03_no_second_delivery_partial (E : Env) (w : World) (hw : Reachable E w) (a : Address) (r : Record)
    (h : w.sessions a = some r) (s : SState) (hs : r.HasState s) (m : Signal) (rd rd' p : Bytes) (s1 : SState)
    (hd : decryptMessageSession E.C s m rd = (.ok (p, s1), rd'))
    (hlate : m.counter.toNat < s.position m.senderRatchetKey) (evs : List SEvent)
    (hkeep : ∀ n, (s1.run E.C (evs.take n)).HasChain m.senderRatchetKey) (rd2 : Bytes) :
    decryptMessageSession E.C (s1.run E.C evs) m rd2 = (.err .duplicateMessage, rd2) := by
  have hwf := (hw.WF a r h).state hs
  have h1 := SState.Spent.of_decrypted hwf hd hlate
  have hw1 := hwf.decrypt hd
  have hv : m.version = 3 := (decrypted_shape hwf hd).version
  have key : ∀ (evs : List SEvent) (t : SState), t.WF → t.Spent m.senderRatchetKey m.counter →
      (∀ n, (t.run E.C (evs.take n)).HasChain m.senderRatchetKey) →
      (t.run E.C evs).WF ∧ (t.run E.C evs).Spent m.senderRatchetKey m.counter := by
    intro evs
    induction evs with
    | nil => exact fun t ht hsp _ => ⟨ht, hsp⟩
    | cons ev evs ih =>
      intro t ht hsp hk
      refine ih (t.step E.C ev) (ht.step ev) (hsp.step ht ev (hk 1)) ?_
      intro n
      exact hk (n + 1)
  obtain ⟨hw2, h2⟩ := key evs s1 hw1 h1 hkeep
  exact SState.Spent.rejected hw2 h2 hv rd2

/-- C03 at the API: DecryptMessage returns no plaintext for a message whose counter is spent in the current session,
and a plain message then changes no session; for every kind of store and failure. -/
theorem C03_spent_message_partial (E : Env) (w : World) (hw : Reachable E w) (a : Address) (r : Record)
    (h : w.sessions a = some r) (s : SState) (hs : r.current = some s) (c : Ciphertext) (m : Signal) (hc : c.inner = some m)
    (hv : m.version = 3) (hk : ∀ pm, c = .preKey pm → r.Knows pm.version.toUInt32 pm.baseKey)
    (hsp : s.Spent m.senderRatchetKey m.counter) :
    (∀ p, (decryptMessage E a c w).1 ≠ .ok (some p)) ∧
    (∀ sm, c = .signal sm → (decryptMessage E a c w).2.sessions = w.sessions) := by
  have hwf := (hw.WF a r h).current s hs
  have hrec : decryptRecord E.C r m w.rand = (.err .duplicateMessage, w.rand) := by
    unfold decryptRecord
    rw [hs]
    simp only
    rw [M.bind_run, M.attempt, SState.Spent.rejected hwf hsp hv]
    rfl
  cases c with
  | senderKey m => simp [Ciphertext.inner] at hc
  | plaintext m => simp [Ciphertext.inner] at hc
  | signal sm =>
    simp only [Ciphertext.inner, Option.some.injEq] at hc
    subst hc
    have := signal_unopened_record (E := E) (a := a) (m := sm) (w := w) (fun r' hr' => by
      rw [h] at hr'; simp only [Option.some.injEq] at hr'; subst hr'; rw [hrec]; simp)
    exact ⟨this.1, fun _ _ => this.2⟩
  | preKey pm =>
    refine ⟨?_, fun sm hsm => by simp at hsm⟩
    simp only [Ciphertext.inner, Option.some.injEq] at hc
    subst hc
    intro p hp
    obtain ⟨id, rec, rec', rd, hpr, hd⟩ := preKey_plaintext hp
    have : rec = r := by
      rw [h] at hpr
      rcases (hw.WF a r h).hasSessionState pm.version.toUInt32 pm.baseKey with ⟨_, ht⟩ | ⟨hn, _⟩
      · cases hpr with
        | found _ => rfl
        | fresh hf => simp only [Option.getD_some] at hf; rw [ht] at hf; simp at hf
      · exact absurd (hk pm rfl) hn
    subst this
    rw [hrec] at hd
    simp at hd

/-- Bob has received `m2` before `m1`. -/
def bobEarly : World := (decryptMessage copying alice m2 bob0).2

theorem bobEarly_reachable : Reachable copying bobEarly := bob0_reachable.decrypt _ _

example : ∃ (r : Record) (s : SState) (m : Signal) (rd rd' p : Bytes) (s1 : SState), bobEarly.sessions alice = some r ∧ r.HasState s ∧
    m1.inner = some m ∧ decryptMessageSession copying.C s m rd = (.ok (p, s1), rd') ∧
    m.counter.toNat < s.position m.senderRatchetKey ∧ s1.HasChain m.senderRatchetKey := by
  have h : (match m1.inner, bobEarly.sessions alice with
    | some m, some r => match r.current with
      | some s => match decryptMessageSession toy s m [] with
        | (.ok (_, s1), _) => decide (m.counter.toNat < s.position m.senderRatchetKey) &&
            s1.receiverChains.any (fun c => c.senderRatchetKey = m.senderRatchetKey.bytes)
        | _ => false
      | none => false
    | _, _ => false) = true := by decide +kernel
  split at h
  · rename_i m r hm hr
    split at h
    · rename_i s hs
      split at h
      · rename_i p s1 rd' hd
        simp only [Bool.and_eq_true, decide_eq_true_eq, List.any_eq_true] at h
        exact ⟨r, s, m, _, _, _, _, hr, .inl hs, hm, hd, h.1, h.2⟩
      · simp at h
    · simp at h
  · simp at h

/-! ## C04 -/

/-- C04 does not hold: a plain message with a wrong MAC is reported as success, with a nil plaintext. -/
theorem C04_rejection_is_an_error_false :
    ∃ (E : Env) (w : World) (a : Address) (m : Signal) (r : Record) (e : Err), Reachable E w ∧ w.faults = [] ∧ w.sessions a = some r ∧
      (decryptRecord E.C r m w.rand).1 = .err e ∧ (decryptMessage E a (.signal m) w).1 = .ok none := by
  have h : (match badMAC m3, bob2.sessions alice with
    | .signal m, some r => decide ((decryptRecord toy r m bob2.rand).1 = .err .decryptionFailed) &&
        decide ((decryptMessage copying alice (.signal m) bob2).1 = .ok none)
    | _, _ => false) = true := by decide +kernel
  split at h
  · rename_i m r hm hr
    simp only [Bool.and_eq_true, decide_eq_true_eq] at h
    exact ⟨copying, bob2, alice, m, r, _, bob2_reachable, by decide +kernel, hr, h.1, h.2⟩
  · simp at h

/-- C04, what holds: a message that none of the states that may read it can read yields no plaintext, whatever the store does
(`Verif.Spec.Reading` says what reading takes: the secrets of the position, the MAC, the padding). Missing from the full claim: for
plain messages the error may be nil (see the `_false` theorem). -/
theorem C04_rejection_gives_no_plaintext_partial (E : Env) (w : World) (hw : Reachable E w) (a : Address) (c : Ciphertext)
    (h : ∀ m s p, c.inner = some m → w.Reader E.C a c s → ¬ s.CanRead E.C m p) :
    ∀ p, (decryptMessage E a c w).1 ≠ .ok (some p) := by
  intro p hp
  obtain ⟨m, s, h1, h2, h3⟩ := delivered_reader hw.WF hp
  exact h m s p h1 h2 h3

/-- C04 for pre-key messages holds in full: when none of the states that may read the message can read it, DecryptMessage does not
return success. -/
theorem C04_preKey_rejection_partial (E : Env) (w : World) (hw : Reachable E w) (a : Address) (m : PreKeyMsg)
    (h : ∀ s p, w.Reader E.C a (.preKey m) s → ¬ s.CanRead E.C m.message p) :
    (decryptMessage E a (.preKey m) w).1.Bad := by
  intro o ho
  cases o with
  | none =>
    rw [decryptMessage_preKey] at ho
    cases hr : (decryptPreKey E a m w).1 <;> simp [hr] at ho
  | some p =>
    obtain ⟨x, s, h1, h2, h3⟩ := delivered_reader hw.WF ho
    simp only [Ciphertext.inner, Option.some.injEq] at h1
    subst h1
    exact h s p h2 h3

/-- nobody can read a message with a wrong MAC -/
example : ∃ c, c = badMAC m3 ∧ ∀ m s p, c.inner = some m → bob2.Reader toy alice c s → ¬ s.CanRead toy m p := by
  refine ⟨_, rfl, ?_⟩
  intro m s p hm hs hp
  have h : (match badMAC m3, bob2.sessions alice with
    | .signal m, some r => !((m.senderRatchetKey.key.map (· ^^^ 0x55)).all (· == 0)) && r.previous.isEmpty &&
        (match r.current with
         | some t => match (decryptMessageSession toy t m (randomness 1)).1 with | .ok _ => false | _ => true
         | none => false)
    | _, _ => false) = true := by decide +kernel
  generalize badMAC m3 = c at h hm hs
  cases hs with
  | fresh m s hn ha => simp at h
  | stored c r s hr hs =>
    rw [hr] at h
    cases c with
    | senderKey => simp at h
    | plaintext => simp at h
    | preKey => simp at h
    | signal m' =>
      simp only [Bool.and_eq_true, List.isEmpty_iff, Bool.not_eq_true'] at h
      obtain ⟨⟨h4, h5⟩, h6⟩ := h
      simp only [Ciphertext.inner, Option.some.injEq] at hm
      subst hm
      rcases hs with hs | ⟨b, hb, _⟩
      · rw [hs] at h6
        obtain ⟨s', rd', hd⟩ := ((bob2_reachable.WF alice r hr).current s hs).reads hp (randomness 1) (by decide) (fun k => by
          simp only [toy, toyDh, h4]; rfl)
        simp [hd] at h6
      · rw [h5] at hb; simp at hb

/-- C04: a nil plaintext without an error is returned only for plain messages that did not decrypt. -/
theorem C04_nil_plaintext_partial (E : Env) (w : World) (a : Address) (c : Ciphertext) (h : (decryptMessage E a c w).1 = .ok none) :
    ∃ (m : Signal) (r : Record) (e : Err), c = .signal m ∧ w.sessions a = some r ∧ (decryptRecord E.C r m w.rand).1 = .err e := by
  cases c with
  | senderKey m => simp [decryptMessage] at h
  | plaintext m => simp [decryptMessage] at h
  | preKey m =>
    rw [decryptMessage_preKey] at h
    cases hr : (decryptPreKey E a m w).1 <;> simp [hr] at h
  | signal m =>
    simp only [decryptMessage] at h
    have ho := signal_outcome E a m w
    generalize decryptSignal E a m w = x at ho h
    obtain ⟨r, w'⟩ := x
    simp only at ho h
    subst h
    cases ho with
    | early _ fs rd hr => exact absurd rfl (hr _)
    | stopped _ fs hr => exact absurd rfl (hr _)
    | done fs rec rec' pt rd st k h1 h2 =>
      cases h2 with
      | failed e rd' hd => exact ⟨m, rec, e, rfl, h1, by rw [hd]⟩

/-! ## C18 -/

/-- C18 does not hold: a well-formed pre-key message that names a signed pre-key the user does not have makes
DecryptMessage panic. -/
theorem C18_unknown_signed_preKey_false :
    ∃ (E : Env) (w : World) (a : Address) (c : Ciphertext), Reachable E w ∧ w.faults = [] ∧ c.Parsed ∧ (decryptMessage E a c w).1 = .panic := by
  have h : (match m1 with
    | .preKey m => match newPreKeyFromBytes (newPreKey 3 11 (some 5) 77 m.baseKey m.identityKey m.message).serialized with
      | .ok m' => decide ((decryptMessage copying alice (.preKey m') bob0).1 = .panic)
      | _ => false
    | _ => false) = true := by decide +kernel
  split at h
  · split at h
    · rename_i m' hm'
      simp only [decide_eq_true_eq] at h
      exact ⟨copying, bob0, alice, .preKey m', bob0_reachable, rfl, ⟨_, hm'⟩, h⟩
    · simp at h
  · simp at h

/-- A public key of low order (for the toy primitives). -/
def lowOrder : PubKey := ⟨List.replicate 32 0x55, by simp⟩

/-- C18 does not hold: a pre-key message whose base key is a low-order point makes DecryptMessage panic. -/
theorem C18_low_order_base_key_false :
    ∃ (E : Env) (w : World) (a : Address) (c : Ciphertext), Reachable E w ∧ w.faults = [] ∧ c.Parsed ∧ (decryptMessage E a c w).1 = .panic := by
  have h : (match m1 with
    | .preKey m => match newPreKeyFromBytes (newPreKey 3 11 (some 5) 6 lowOrder m.identityKey m.message).serialized with
      | .ok m' => decide ((decryptMessage copying alice (.preKey m') bob0).1 = .panic)
      | _ => false
    | _ => false) = true := by decide +kernel
  split at h
  · split at h
    · rename_i m' hm'
      simp only [decide_eq_true_eq] at h
      exact ⟨copying, bob0, alice, .preKey m', bob0_reachable, rfl, ⟨_, hm'⟩, h⟩
    · simp at h
  · simp at h

theorem signal_never_panics {E : Env} {w : World} (hw : w.WF) (a : Address) (m : Signal)
    (hm : (Ciphertext.signal m).Parsed) : (decryptMessage E a (.signal m) w).1 ≠ .panic := by
  obtain ⟨bytes, hb⟩ := hm
  have hl := parsed_signal_length hb
  simp only [decryptMessage]
  unfold decryptSignal
  refine bind_no_panic (storeCall_no_panic _ _) ?_
  intro o w1 ho
  have hsess : w1.sessions = w.sessions ∧ o = w.sessions a := by
    have := storeCall_cases (fun w : World => (w.sessions a, w)) w
    obtain ⟨fs, _, h | ⟨h, _⟩ | ⟨h, _⟩⟩ := this
    · rw [show loadSession a w = _ from h] at ho
      simp only [Prod.mk.injEq, Res.ok.injEq] at ho
      obtain ⟨rfl, rfl⟩ := ho
      exact ⟨rfl, rfl⟩
    · rw [show loadSession a w = _ from h] at ho; simp at ho
    · rw [show loadSession a w = _ from h] at ho; simp at ho
  cases o with
  | none => simp
  | some rec =>
    have hrec := hw a rec hsess.2.symm
    refine bind_no_panic (attempt_no_panic ?_) ?_
    · rw [withRand_run]; exact hrec.no_panic hl _
    intro out w2 hout
    have hrec' : ∀ p r', out = .ok (p, r') → r'.WF := by
      intro p r' he
      subst he
      unfold M.attempt at hout
      rw [withRand_run] at hout
      rcases hd : decryptRecord E.C rec m w1.rand with ⟨x, rd'⟩
      rw [hd] at hout
      cases x with
      | ok o =>
        simp only [Prod.mk.injEq, Res.ok.injEq, Except.ok.injEq] at hout
        obtain ⟨rfl, _⟩ := hout
        exact hrec.decrypt hd
      | err e => simp at hout
      | panic => simp at hout
    have tail : ∀ (pt : Option Bytes) (r : Record), r.WF → ((do
        touch E a true r
        match r.current with
        | none => (M.throw .mustHaveState : M World (Option Bytes))
        | some state =>
          match state.remoteIdentityKey with
          | .ok (some theirIdentityKey) => do
            let trusted ← isTrusted E a theirIdentityKey .receiving
            if trusted then do
              storeIdentity a theirIdentityKey
              storeSession a r
              return pt
            else M.throw (.untrustedIdentity a)
          | .panic => M.panic
          | _ => M.throw .mustHaveIdentity) w2).1 ≠ .panic := by
      intro pt r hr
      refine bind_no_panic (by rw [touch_run]; simp) ?_
      intro _ w3 _
      cases hc : r.current with
      | none => simp
      | some st =>
        obtain ⟨k, hk⟩ := (hr.current st hc).remoteId
        simp only [st.remoteIdentityKey_bytes hk]
        refine bind_no_panic (storeCall_no_panic _ _) ?_
        intro b w4 _
        cases b with
        | false => simp
        | true =>
          simp only [if_true]
          refine bind_no_panic (storeCall_no_panic _ _) ?_
          intro _ w5 _
          refine bind_no_panic (storeCall_no_panic _ _) ?_
          intro _ w6 _
          simp
    cases out with
    | ok o =>
      obtain ⟨p, r'⟩ := o
      exact tail (some p) r' (hrec' p r' rfl)
    | error e => exact tail none rec hrec

/-- C18 for plain messages holds in full: DecryptMessage does not panic, for any parsed message, reachable store
content, kind of store and failure. -/
theorem C18_signal_never_panics_partial (E : Env) (w : World) (hw : Reachable E w) (a : Address) (m : Signal)
    (hm : (Ciphertext.signal m).Parsed) : (decryptMessage E a (.signal m) w).1 ≠ .panic :=
  signal_never_panics hw.WF a m hm

/-- C18 for pre-key messages, outside the two cases above: DecryptMessage does not panic if the message belongs to a
session that was already set up, or if the signed pre-key it names is in the store and no Diffie-Hellman value is zero.
Any parsed message, reachable store content, kind of store and failure. -/
theorem C18_preKey_never_panics_partial (E : Env) (w : World) (hw : Reachable E w) (a : Address) (m : PreKeyMsg)
    (hm : (Ciphertext.preKey m).Parsed)
    (hacc : (∃ r, w.sessions a = some r ∧ r.Knows m.version.toUInt32 m.baseKey) ∨ m.Acceptable E.C w) :
    (decryptMessage E a (.preKey m) w).1 ≠ .panic := by
  obtain ⟨bytes, hb⟩ := hm
  have hl := parsed_preKey_length hb
  simp only [decryptMessage]
  refine bind_no_panic ?_ (by simp)
  unfold decryptPreKey
  refine storeCall_bind (fun r _ => r ≠ .panic) (fun fs _ => ?_) (fun _ _ => by simp) (fun _ _ => by simp)
  simp only
  have hwf : ((w.sessions a).getD {}).WF := by
    cases h : w.sessions a with
    | none => exact Record.WF.empty
    | some r => exact hw.WF a r h
  -- what happens once the session is there
  have htail : ∀ (id : Option UInt32) (rec : Record) (w1 : World), rec.WF → ((do
      let (plaintext, record) ← withRand (decryptRecord E.C rec m.message)
      touch E a (w.sessions a).isSome record
      storeSession a record
      match id with
      | some id => deletePreKey id
      | none => pure ()
      (pure plaintext : M World Bytes)) w1).1 ≠ .panic := by
    intro id rec w1 hrec
    refine bind_no_panic ?_ ?_
    · rw [withRand_run]; exact hrec.no_panic hl _
    rintro ⟨p, r⟩ w2 _
    refine bind_no_panic (by rw [touch_run]; simp) ?_
    intro _ w3 _
    refine bind_no_panic (storeCall_no_panic _ _) ?_
    intro _ w4 _
    cases id with
    | none => simp
    | some i => exact bind_no_panic (storeCall_no_panic _ _) (by simp)
  unfold processPreKey
  rw [bind_assoc_run]
  refine storeCall_bind (fun r _ => r ≠ .panic) (fun fs1 _ => ?_) (fun _ _ => by simp) (fun _ _ => by simp)
  simp only
  by_cases ht : E.trusted w.known a m.identityKey .receiving = true
  rotate_left
  · rw [if_neg ht]; simp [M.bind_run]
  rw [if_pos ht, bind_assoc_run]
  have hend : ∀ (id : Option UInt32) (rec : Record) (w1 : World), rec.WF → (((fun out => storeIdentity a m.identityKey >>= fun _ => (pure out : M World (Option UInt32 × Record))) (id, rec) >>= fun x => (do
      let (plaintext, record) ← withRand (decryptRecord E.C x.2 m.message)
      touch E a (w.sessions a).isSome record
      storeSession a record
      match x.1 with
      | some id => deletePreKey id
      | none => pure ()
      (pure plaintext : M World Bytes))) w1).1 ≠ .panic := by
    intro id rec w1 hrec
    simp only
    rw [bind_assoc_run]
    refine storeCall_bind (fun r _ => r ≠ .panic) (fun fs1 _ => ?_) (fun _ _ => by simp) (fun _ _ => by simp)
    exact htail id rec _ hrec
  unfold processPreKeyV3
  rw [bind_assoc_run]
  rcases hwf.hasSessionState m.version.toUInt32 m.baseKey with ⟨hk, hs⟩ | ⟨hk, hs⟩
  · rw [M.bind_ok_run (show M.lift _ _ = (.ok true, _) by rw [M.lift_run, hs])]
    simp only [if_true]
    exact hend none _ _ hwf
  · have hacc' : m.Acceptable E.C w := by
      rcases hacc with ⟨r, hr, hk'⟩ | h
      · rw [hr] at hk; exact absurd hk' hk
      · exact h
    rw [M.bind_ok_run (show M.lift _ _ = (.ok false, _) by rw [M.lift_run, hs])]
    simp only [Bool.false_eq_true, if_false]
    rw [bind_assoc_run]
    refine load_bind_no_panic ?_
    intro fs2 signed hsigned
    simp only at hsigned ⊢
    have hrest : ∀ oneTime fs, (match m.preKeyID with | none => oneTime = none | some id => LoadsPair w.preKeys id oneTime) →
        (((do
          let w ← M.get
          let s ← M.lift (orPanic (initializeBobSession E.C
            { ourIdentityKeyPair := w.identity, ourSignedPreKeyPair := signed,
              ourOneTimePreKeyPair := oneTime, ourRatchetKeyPair := signed,
              theirIdentityKey := m.identityKey, theirBaseKey := m.baseKey }))
          let s := { s with localRegistrationId := w.regId, remoteRegistrationId := m.registrationID,
                            aliceBaseKey := m.baseKey.bytes }
          let record := ((w.sessions a).getD {}).promoteState s
          touch E a (w.sessions a).isSome record
          (pure (m.preKeyID, record) : M World (Option UInt32 × Record))) >>= fun out => ((storeIdentity a m.identityKey >>= fun _ => (pure out : M World _)) >>= fun x => (do
      let (plaintext, record) ← withRand (decryptRecord E.C x.2 m.message)
      touch E a (w.sessions a).isSome record
      storeSession a record
      match x.1 with
      | some id => deletePreKey id
      | none => pure ()
      (pure plaintext : M World Bytes)))) { w with faults := fs }).1 ≠ .panic := by
      intro oneTime fs ho
      rw [bind_assoc_run, M.bind_ok_run (M.get_run _)]
      obtain ⟨s, hi⟩ := initializeBob_some hacc' hsigned ho
      have hi' : M.lift (orPanic (initializeBobSession E.C ⟨w.identity, signed, oneTime, signed, m.identityKey, m.baseKey⟩)) { w with faults := fs } = (.ok s, { w with faults := fs }) := by
        rw [M.lift_run, hi]; rfl
      rw [bind_assoc_run, M.bind_ok_run hi']
      rw [bind_assoc_run, M.bind_ok_run (touch_run E a _ _ _)]
      refine hend _ _ _ ?_
      exact (Processed.fresh hs signed oneTime s hsigned ho hi _ rfl).WF hwf
    cases hpid : m.preKeyID with
    | none =>
      simp only [hpid] at hrest
      exact hrest none fs2 rfl
    | some id =>
      simp only [hpid] at hrest
      rw [bind_assoc_run]
      refine load_bind_no_panic ?_
      intro fs3 oneTime ho
      exact hrest oneTime fs3 ho

/-- The premises can be met: the first message of the example is acceptable to Bob. -/
example : ∃ m : PreKeyMsg, m1 = .preKey m ∧ m.Acceptable toy bob0 := by
  have h : (match m1 with
    | .preKey m => match bob0.signedPreKeys m.signedPreKeyID, m.preKeyID with
      | some p, some id => match p.keyPair, bob0.preKeys id with
        | .ok k, some q => match q.keyPair with
          | .ok k' => (toy.dh k.priv.key m.identityKey.keyBytes).isSome && (toy.dh k.priv.key m.baseKey.keyBytes).isSome &&
              (toy.dh bob0.identity.priv.key m.baseKey.keyBytes).isSome && (toy.dh k'.priv.key m.baseKey.keyBytes).isSome
          | _ => false
        | _, _ => false
      | _, _ => false
    | _ => false) = true := by decide +kernel
  split at h
  · rename_i m hm
    split at h
    · rename_i p id hp hid
      split at h
      · rename_i k q hk hq
        split at h
        · rename_i k' hk'
          simp only [Bool.and_eq_true] at h
          refine ⟨m, hm, by simp [hp], ?_, h.1.2, ?_⟩
          · intro p' k2 hp' hk2
            rw [hp] at hp'
            simp only [Option.some.injEq] at hp'
            subst hp'
            rw [hk] at hk2
            simp only [Res.ok.injEq] at hk2
            subst hk2
            exact h.1.1
          · intro id' q' k2 hid' hq' hk2
            rw [hid] at hid'
            simp only [Option.some.injEq] at hid'
            subst hid'
            rw [hq] at hq'
            simp only [Option.some.injEq] at hq'
            subst hq'
            rw [hk'] at hk2
            simp only [Res.ok.injEq] at hk2
            subst hk2
            exact h.2
        · simp at h
      · simp at h
    · simp at h
  · simp at h

/-! ## C16 -/

/-- C16, from the first reply on: after DecryptMessage has returned a plaintext from `a`, and until another bundle for
`a` is processed, EncryptMessage returns plain messages. For every kind of store and every failure. -/
theorem C16_plain_after_first_reply (E : Env) (w : World) (hw : Reachable E w) (a : Address) (c : Ciphertext) (p : Bytes) (w1 : World)
    (hd : decryptMessage E a c w = (.ok (some p), w1)) (cs : List Call) (hcs : ∀ c ∈ cs, ∀ b, c.op ≠ .bundle a b)
    (rand : Bytes) (faults : List Fault) (pt : Bytes) (out : Ciphertext) (w2 : World)
    (he : encryptMessage E a pt { after E cs w1 with rand := rand, faults := faults } = (.ok out, w2)) :
    ∃ m, out = .signal m := by
  have hw1 : w1.WF := by have := (World.WF.decrypt (E := E) (a := a) (c := c) hw.WF); rwa [hd] at this
  have hset := settled_after (E := E) cs w1 hw1 hcs (decrypted_settled hw.WF hd)
  have hw2 : (after E cs w1).WF := hw1.after
  have ho := encrypt_outcome E a pt { after E cs w1 with rand := rand, faults := faults }
  rw [he] at ho
  cases ho with
  | early _ fs hb => exact absurd rfl (hb _)
  | stopped _ fs hb => exact absurd rfl (hb _)
  | done fs rec st st' msg k h1 h2 h3 ht =>
    simp only at h1
    rw [h1] at hset
    obtain ⟨c, ck, _, _, _, msg', hc, _, _, _, _, _, _, _, _, _, _, out', he', ho⟩ := ((hw2 a rec h1).current st h2).encrypts E.C pt
    rw [h3] at he'
    simp only [Res.ok.injEq, Prod.mk.injEq] at he'
    rcases ho with ⟨_, ho⟩ | ⟨p, base, hp, _⟩
    · exact ⟨msg', he'.1.trans ho⟩
    · rw [hset st h2] at hp; simp at hp

/-- C16, until the first reply: after ProcessPreKeyBundle, and as long as no DecryptMessage call for this address has
returned a plaintext and no further bundle was processed, EncryptMessage returns pre-key messages; all of them name the
pre-keys of the bundle and the same base key, and carry the user's registration id and identity key. For stores that
return copies; in the history, store calls may fail except during DecryptMessage. Missing from the full claim: the in-memory store
(`C16_in_memory_false`), bundles whose pre-key has the id 0 (`C16_id_zero_false`), and DecryptMessage calls that fail only after the
message was decrypted. -/
theorem C16_preKey_until_first_reply_partial (E : Env) (hE : E.aliased = false) (w : World) (hw : Reachable E w) (a : Address) (b : Bundle)
    (hb0 : b.preKeyID ≠ some 0) (w1 : World) (hb : processPreKeyBundle E a b w = (.ok (), w1)) :
    ∃ base : PubKey, ∀ (cs : List Call) (_ : ∀ c ∈ cs, ∀ b, c.op ≠ .bundle a b)
      (_ : ∀ c ∈ cs, ∀ m, c.op = .decrypt a m → ∀ f ∈ c.faults, f = Fault.none)
      (_ : ∀ o ∈ (runCalls E cs w1).1, ∀ p, o ≠ .plaintext a (some p))
      (rand : Bytes) (faults : List Fault) (pt : Bytes) (out : Ciphertext) (w2 : World),
      encryptMessage E a pt { after E cs w1 with rand := rand, faults := faults } = (.ok out, w2) →
      ∃ m, out = .preKey m ∧ m.version = 3 ∧ m.preKeyID = b.preKeyID ∧ m.signedPreKeyID = b.signedPreKeyID ∧ m.baseKey = base ∧
        m.registrationID = w.regId ∧ m.identityKey = w.identity.pub := by
  have ho := bundle_outcome E a b w
  rw [hb] at ho
  have hw1 : w1.WF := by have := (World.WF.bundle (E := E) (a := a) (b := b) hw.WF); rwa [hb] at this
  cases ho with
  | early _ fs rd hr => exact absurd rfl (hr _)
  | stopped _ fs hr => exact absurd rfl (hr _)
  | done fs s rd ht hv hfb =>
  obtain ⟨base, rd1, rd2, s0, hgen, hi, _, rfl⟩ := hfb
  obtain ⟨kp, d1, d2, d3, d4, _, _, _, _, _, rk, ck, hk, sr, sc, hc, rfl⟩ := initializeAlice_ok hi
  generalize hW : (⟨_, _, _, _, _, _, _, _⟩ : World) = w1 at hw1
  have hinit : ∃ r, w1.sessions a = some r ∧ r.Initiated b base.pub w.regId w.identity.pub := by
    subst hW
    exact ⟨_, upd_same _ _ _, _, rfl, rfl, rfl, rfl⟩
  refine ⟨base.pub, ?_⟩
  clear hW
  intro cs
  induction cs generalizing w1 with
  | nil =>
    intro _ _ _ rand faults pt out w2 he
    have ho := encrypt_outcome E a pt { after E [] w1 with rand := rand, faults := faults }
    rw [he] at ho
    cases ho with
    | early _ fs hb => exact absurd rfl (hb _)
    | stopped _ fs hb => exact absurd rfl (hb _)
    | done fs rec st st' msg k h1 h2 h3 ht =>
      obtain ⟨r, hr, s, hs, hp, hreg, hid⟩ := hinit
      have h1' : w1.sessions a = some rec := h1
      rw [hr] at h1'
      simp only [Option.some.injEq] at h1'
      subst h1'
      rw [hs] at h2
      simp only [Option.some.injEq] at h2
      subst h2
      obtain ⟨c, ck, _, lk, _, msg', hc, _, _, _, hlk, _, _, _, _, _, _, out', he', ho⟩ := ((hw1 a r hr).current s hs).encrypts E.C pt
      rw [h3] at he'
      simp only [Res.ok.injEq, Prod.mk.injEq] at he'
      rcases ho with ⟨h0, _⟩ | ⟨q, base', hq, hbase, ho⟩
      · rw [hp] at h0; simp at h0
      · rw [hp] at hq
        simp only [Option.some.injEq] at hq
        subst hq
        have hbb : base' = base.pub := PubKey.bytes_inj hbase.symm
        have hll : lk = w.identity.pub := PubKey.bytes_inj (hlk.symm.trans hid)
        subst hbb hll
        refine ⟨_, he'.1.trans ho, rfl, ?_, ?_, rfl, by rw [← hreg]; rfl, rfl⟩
        · simp only [newPreKey]
          cases hpk : b.preKeyID with
          | none => simp
          | some i =>
            have : i ≠ 0 := by rintro rfl; exact hb0 hpk
            simp [this]
        · simp [newPreKey]
  | cons c cs ih =>
    intro hnb hf hout rand faults pt out w2 he
    have hout' : ∀ o ∈ (runCalls E cs (c.run E w1).2).1, ∀ p, o ≠ .plaintext a (some p) := by
      intro o ho
      exact hout o (by simp [runCalls, ho])
    have hout0 : ∀ p, (c.run E w1).1 ≠ .plaintext a (some p) := hout _ (by simp [runCalls])
    refine ih (c.run E w1).2 hw1.call ?_ (fun c' hc' => hnb c' (by simp [hc'])) (fun c' hc' => hf c' (by simp [hc'])) hout' rand faults pt out w2 he
    obtain ⟨r, hr, s, hs, hp, hreg, hid⟩ := hinit
    have hnb0 := hnb c (by simp)
    have hf0 := hf c (by simp)
    have hsame : (∃ m, c.op = .decrypt a m) → (c.run E w1).2.sessions a = w1.sessions a := by
      rintro ⟨m, hm⟩
      obtain ⟨op, rd, fs⟩ := c
      simp only at hm hf0
      subst hm
      have hrel : ({ w1 with rand := rd, faults := fs } : World).Reliable := fun f hf => hf0 m rfl f hf
      have := decrypt_unchanged E hE a m { w1 with rand := rd, faults := fs } hrel (fun p hp => by
        apply hout0 p
        simp only [Call.run, hp, Out.of])
      simp only [Call.run]
      rw [this]
    rcases call_changed E c w1 a with he | ⟨r', he, hst⟩
    · rw [he]; exact ⟨r, hr, s, hs, hp, hreg, hid⟩
    · simp only [hr, Option.getD_some] at hst
      generalize hop : c.op = op at hst hnb0 hsame
      cases hst with
      | enc h2 h3 =>
        rw [hs] at h2
        simp only [Option.some.injEq] at h2
        subst h2
        obtain ⟨e1, e2, e3⟩ := encryptState_pending ((hw1 a r hr).current _ hs) h3
        exact ⟨_, he, _, rfl, by rw [e1, hp], by rw [e2, hreg], by rw [e3, hid]⟩
      | dec hd => rw [hsame ⟨_, rfl⟩]; exact ⟨r, hr, s, hs, hp, hreg, hid⟩
      | setUp hE hp => rw [hsame ⟨_, rfl⟩]; exact ⟨r, hr, s, hs, ‹_›, hreg, hid⟩
      | preKey hp hd => rw [hsame ⟨_, rfl⟩]; exact ⟨r, hr, s, hs, ‹_›, hreg, hid⟩
      | bundle hfb => exact absurd rfl (hnb0 _)

/-- The premises of both theorems can be met. -/
example : (processPreKeyBundle copying bob bundle alice0).1 = .ok () ∧
    (∃ m, (encryptMessage copying bob [4] alice2).1 = .ok (.preKey m) ∧ m.preKeyID = bundle.preKeyID ∧ m.signedPreKeyID = bundle.signedPreKeyID) ∧
    (decryptMessage copying bob r1 alice3).1 = .ok (some [9]) ∧ ∃ m, (encryptMessage copying bob [5, 5] alice4).1 = .ok (.signal m) := by
  refine ⟨by decide +kernel, ?_, r1_delivered, ?_⟩
  · have h : (match (encryptMessage copying bob [4] alice2).1 with
      | .ok (.preKey m) => decide (m.preKeyID = bundle.preKeyID ∧ m.signedPreKeyID = bundle.signedPreKeyID)
      | _ => false) = true := by decide +kernel
    split at h
    · rename_i m hm; exact ⟨m, hm, by simpa using h⟩
    · simp at h
  · have h : (match (encryptMessage copying bob [5, 5] alice4).1 with
      | .ok (.signal _) => true
      | _ => false) = true := by decide +kernel
    split at h
    · rename_i m hm; exact ⟨m, hm⟩
    · simp at h

end Verif
