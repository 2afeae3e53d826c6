import Verif.Proofs.GroupReading
import Verif.Props.Group

/-!
# What DecryptMessage returns: C68–C70

`Verif.Spec.Reading` and `Verif.Spec.GroupReading` say which states may read a message and what reading means.
-/

namespace Verif

open Ex Doc

/-! ## C68 -/

/-- **C68**, nothing else is delivered. Whatever bytes DecryptMessage returns for a message, with any store and any store failures, some
state that may read the message has the secrets of its position, and under these secrets the message ends with the MAC of both
identity keys of the session and of all bytes before, and its ciphertext is the encryption of the padded bytes. -/
theorem C68_plaintext_is_authentic (E : Env) (w : World) (hw : Reachable E w) (a : Address) (c : Ciphertext) (p : Bytes)
    (h : (decryptMessage E a c w).1 = .ok (some p)) :
    ∃ m s, c.inner = some m ∧ w.Reader E.C a c s ∧ s.CanRead E.C m p := delivered_reader hw.WF h

/-- the hypotheses are met by the messages of the example -/
example : ∃ m s, m3.inner = some m ∧ bob2.Reader toy alice m3 s ∧ s.CanRead toy m [5, 5] :=
  C68_plaintext_is_authentic copying bob2 bob2_reachable alice m3 [5, 5] m3_delivered

example : ∃ m s, m1.inner = some m ∧ bob0.Reader toy alice m1 s ∧ s.CanRead toy m [1, 2, 3] :=
  C68_plaintext_is_authentic copying bob0 bob0_reachable alice m1 [1, 2, 3] m1_delivered

/-- **C68**, one session state. With 32 random bytes and no low-order ratchet key, the state opens exactly the messages that it is
entitled to read, with exactly the plaintext they carry. -/
theorem C68_state_reads_exactly (E : Env) (w : World) (hw : Reachable E w) (a : Address) (r : Record) (hr : w.sessions a = some r)
    (s : SState) (hs : r.HasState s) (m : Signal) (p rand : Bytes) (hrand : 32 ≤ rand.length)
    (hlow : ∀ k : PrivKey, (E.C.dh k.key m.senderRatchetKey.key).isSome) :
    (∃ s', (decryptMessageSession E.C s m rand).1 = .ok (p, s')) ↔ s.CanRead E.C m p := by
  have hwf := (hw.WF a r hr).state_of hs
  constructor
  · rintro ⟨s', h⟩
    rcases hx : decryptMessageSession E.C s m rand with ⟨x, rd'⟩
    rw [hx] at h
    simp only at h
    subst h
    exact hwf.canRead_of hx
  · intro h
    obtain ⟨s', rd', hd⟩ := hwf.reads h rand hrand hlow
    exact ⟨s', by rw [hd]⟩

/-- **C68**, what a stored state can read is delivered: when no store call fails, the peers of the stored states are trusted, no state has
spent the counter, and there is enough randomness, DecryptMessage returns a plaintext that one of the states reads. For a pre-key
message this is the case in which its session is already stored. -/
theorem C68_readable_is_read (E : Env) (w : World) (hw : Reachable E w) (hf : w.faults = []) (a : Address) (r : Record)
    (hr : w.sessions a = some r) (c : Ciphertext) (m : Signal) (hc : c.inner = some m) (s : SState) (hs : r.HasState s) (p : Bytes)
    (hp : s.CanRead E.C m p)
    (hknown : ∀ pm, c = .preKey pm → r.Knows pm.version.toUInt32 pm.baseKey ∧ E.trusted w.known a pm.identityKey .receiving = true)
    (hspent : ∀ t, r.HasState t → ¬ t.Spent m.senderRatchetKey m.counter)
    (htrust : ∀ t k, r.HasState t → t.peer = some k → E.trusted w.known a k .receiving = true)
    (hlow : ∀ k : PrivKey, (E.C.dh k.key m.senderRatchetKey.key).isSome) (hrand : 32 * r.size ≤ w.rand.length) :
    ∃ q t, (decryptMessage E a c w).1 = .ok (some q) ∧ r.HasState t ∧ t.CanRead E.C m q := by
  have hwf := hw.WF a r hr
  obtain ⟨q, r', rd', hd⟩ := hwf.reads hs hp hspent hlow w.rand hrand
  obtain ⟨t, t', rd1, rd2, ht, hdt⟩ := decryptRecord_state hd
  refine ⟨q, t, ?_, ht, (hwf.state_of ht).canRead_of hdt⟩
  cases c with
  | senderKey x => simp [Ciphertext.inner] at hc
  | plaintext x => simp [Ciphertext.inner] at hc
  | signal x =>
    simp only [Ciphertext.inner, Option.some.injEq] at hc
    subst hc
    obtain ⟨u, u', rd3, rd4, h1, h2, h3⟩ := hwf.decrypted hd
    have hu : r.HasState u := by
      obtain ⟨l, hl, _, hpl⟩ := hwf.states
      rcases h3 with ⟨h3, _⟩ | ⟨l', idx, h3, h4, _⟩
      · exact .inl h3
      · exact (hwf.hasState h3 u).mpr (.inr (List.mem_of_getElem? h4))
    obtain ⟨k, hk⟩ := (hwf.state_of hu).remoteId
    have hpeer : u.remoteIdentityKey = .ok (some k) := SState.remoteIdentityKey_bytes hk
    have hpeer' : u'.remoteIdentityKey = .ok (some k) := by
      have := (decryptMessageSession_keeps h1).2.2.2.1
      rw [← hpeer]; unfold SState.remoteIdentityKey; rw [this]
    have := signal_run (st := u') (k := k) hf hr (.ok _ _ _ hd) h2 hpeer' (htrust u k hu (by unfold SState.peer; rw [hpeer]))
    simp only [decryptMessage]
    rw [this]
  | preKey pm =>
    simp only [Ciphertext.inner, Option.some.injEq] at hc
    subst hc
    obtain ⟨hk, ht⟩ := hknown pm rfl
    have hfound : Processed E w ((w.sessions a).getD {}) pm none r := by
      have : r.hasSessionState pm.version.toUInt32 pm.baseKey.bytes = .ok true := by
        rcases hwf.hasSessionState pm.version.toUInt32 pm.baseKey with ⟨_, h⟩ | ⟨h, _⟩
        · exact h
        · exact absurd hk h
      rw [hr]
      exact .found this
    rw [decryptMessage_preKey, preKey_run hf ht hfound hd]

/-- **C68**, a first message that X3DH lets us read is delivered: when no store call fails, the sender's identity is trusted and there is
randomness for a new ratchet key, DecryptMessage returns its plaintext. -/
theorem C68_first_message_is_read (E : Env) (w : World) (hw : Reachable E w) (hf : w.faults = []) (a : Address) (m : PreKeyMsg)
    (hnew : ∀ r, w.sessions a = some r → ¬ r.Knows m.version.toUInt32 m.baseKey)
    (ht : E.trusted w.known a m.identityKey .receiving = true) (s : SState) (hs : s.Answers E.C w m) (p : Bytes)
    (hp : s.CanRead E.C m.message p) (hlow : ∀ k : PrivKey, (E.C.dh k.key m.message.senderRatchetKey.key).isSome)
    (hrand : 32 ≤ w.rand.length) : (decryptMessage E a (.preKey m) w).1 = .ok (some p) := by
  have hr0 : ((w.sessions a).getD {}).WF := by
    cases h : w.sessions a with
    | none => exact Record.WF.empty
    | some r => exact hw.WF a r h
  have hno : ((w.sessions a).getD {}).hasSessionState m.version.toUInt32 m.baseKey.bytes = .ok false := by
    rcases hr0.hasSessionState m.version.toUInt32 m.baseKey with ⟨h1, _⟩ | ⟨_, h1⟩
    · exfalso
      cases h : w.sessions a with
      | none =>
        rw [h] at h1
        obtain ⟨t, h2 | ⟨b, h2, _⟩, _⟩ := h1
        · simp at h2
        · simp at h2
      | some r =>
        rw [h] at h1
        exact hnew r h h1
    · exact h1
  obtain ⟨t, h1, h2⟩ := hs.processed hno
  have hcur : (((w.sessions a).getD {}).promoteState t).current = some t := rfl
  obtain ⟨t', rd', hd⟩ := ((h2.WF hr0).current t hcur).reads (hs.canRead h1 hp) w.rand hrand hlow
  have hd' : decryptRecord E.C (((w.sessions a).getD {}).promoteState t) m.message w.rand =
      (.ok (p, (((w.sessions a).getD {}).promoteState t).setSessionState t'), rd') := by
    unfold decryptRecord
    rw [hcur]
    simp only
    rw [M.bind_run]
    unfold M.attempt
    rw [hd]
    rfl
  rw [decryptMessage_preKey, preKey_run hf ht h2 hd']

/-- the hypotheses of the last theorem are met by the first message of the example -/
example : ∃ (m : PreKeyMsg) (s : SState), m1 = .preKey m ∧ bob0.faults = [] ∧ (∀ r, bob0.sessions alice = some r → ¬ r.Knows m.version.toUInt32 m.baseKey) ∧
    copying.trusted bob0.known alice m.identityKey .receiving = true ∧ s.Answers toy bob0 m ∧ s.CanRead toy m.message [1, 2, 3] ∧
    (∀ k : PrivKey, (toy.dh k.key m.message.senderRatchetKey.key).isSome) ∧ 32 ≤ bob0.rand.length := by
  obtain ⟨x, s, h1, h2, h3⟩ := C68_plaintext_is_authentic copying bob0 bob0_reachable alice m1 [1, 2, 3] m1_delivered
  have h : (match m1 with
    | .preKey m => copying.trusted bob0.known alice m.identityKey .receiving && !((m.message.senderRatchetKey.key.map (· ^^^ 0x55)).all (· == 0))
    | _ => false) = true := by decide +kernel
  generalize hm : m1 = c at h h1 h2
  cases h2 with
  | stored c r s hr => simp [bob0] at hr
  | fresh m s hn ha =>
    simp only [Bool.and_eq_true] at h
    simp only [Ciphertext.inner, Option.some.injEq] at h1
    subst h1
    refine ⟨m, s, rfl, rfl, hn, h.1, ha, h3, fun k => ?_, by decide +kernel⟩
    have h4 := h.2
    simp only [Bool.not_eq_true'] at h4
    simp only [toy, toyDh, h4]
    rfl

/-- the hypotheses of `C68_readable_is_read` are met by the third message of the example -/
theorem Ex.m3_readable : ∃ (m : Signal) (r : Record) (s : SState), m3 = .signal m ∧ bob2.faults = [] ∧ bob2.sessions alice = some r ∧ r.HasState s ∧ s.CanRead toy m [5, 5] ∧
    (∀ t, r.HasState t → ¬ t.Spent m.senderRatchetKey m.counter) ∧
    (∀ t k, r.HasState t → t.peer = some k → copying.trusted bob2.known alice k .receiving = true) ∧
    (∀ k : PrivKey, (toy.dh k.key m.senderRatchetKey.key).isSome) ∧ 32 * r.size ≤ bob2.rand.length ∧ r.current = some s := by
  obtain ⟨x, s, h1, h2, h3⟩ := C68_plaintext_is_authentic copying bob2 bob2_reachable alice m3 [5, 5] m3_delivered
  have h : (match m3, bob2.sessions alice with
    | .signal m, some r => !((m.senderRatchetKey.key.map (· ^^^ 0x55)).all (· == 0)) && r.previous.isEmpty &&
        (match r.current with
         | some t => t.receiverChains.all (fun c => c.senderRatchetKey != m.senderRatchetKey.bytes) &&
            (match t.peer with | some k => copying.trusted bob2.known alice k .receiving | none => true)
         | none => false) && decide (32 * r.size ≤ bob2.rand.length)
    | _, _ => false) = true := by decide +kernel
  generalize hm : m3 = c at h h1 h2
  cases h2 with
  | fresh m s hn ha => simp at h
  | stored c r s hr hs =>
    rw [hr] at h
    cases c with
    | senderKey => simp at h
    | plaintext => simp at h
    | preKey => simp at h
    | signal m =>
      simp only [Bool.and_eq_true, List.isEmpty_iff] at h
      obtain ⟨⟨⟨h4, h5⟩, h6⟩, h7⟩ := h
      simp only [Ciphertext.inner, Option.some.injEq] at h1
      subst h1
      cases hc : r.current with
      | none => simp [hc] at h6
      | some t =>
        rw [hc] at h6
        simp only [Bool.and_eq_true] at h6
        have only : ∀ u, r.HasState u → u = t := by
          rintro u (hu | ⟨b, hb, _⟩)
          · rw [hc] at hu; simpa using hu.symm
          · rw [h5] at hb; simp at hb
        refine ⟨m, r, s, rfl, by decide +kernel, hr, hs, h3, ?_, ?_, fun k => ?_, by simpa using h7, by rw [only s hs]; exact hc⟩
        · rintro u hu ⟨c, hcu, hck, _⟩
          rw [only u hu] at hcu
          have := List.all_eq_true.mp h6.1 c hcu
          simp [hck] at this
        · intro u k hu hk
          rw [only u hu] at hk
          have := h6.2
          rw [hk] at this
          exact this
        · simp only [Bool.not_eq_true'] at h4
          simp only [toy, toyDh, h4]
          rfl

/-! ## C69 -/

/-- The padding 9, 9, 2: only the last byte is right. -/
def Ex.oddBlock : Bytes := List.replicate 14 1 ++ [9, 2]

/-- C69 does not hold: CBCDecrypt accepts a ciphertext that CBCEncrypt returns for no plaintext. -/
theorem C69_only_ciphertexts_false :
    ∃ (C : Crypto) (key iv ciphertext p : Bytes), key.length = 32 ∧ iv.length = 16 ∧ cbcDecrypt C key iv ciphertext = .ok p ∧
      ∀ q, cbcEncrypt C key iv q ≠ .ok ciphertext := by
  refine ⟨toy, List.replicate 32 1, List.replicate 16 0, toyAes (List.replicate 32 1) oddBlock, List.replicate 14 1, by simp, by simp,
    by decide +kernel, ?_⟩
  intro q hq
  have h := cbcDecrypt_cbcEncrypt toy _ _ q _ hq
  have h2 : cbcDecrypt toy (List.replicate 32 1) (List.replicate 16 0) (toyAes (List.replicate 32 1) oddBlock) = .ok (List.replicate 14 1) := by
    decide +kernel
  rw [h2] at h
  simp only [Res.ok.injEq] at h
  subst h
  revert hq
  decide +kernel

/-- C69, what holds: CBCDecrypt returns `p` exactly for the encryptions of `p` followed by 1 to 16 bytes that fill the last block and end
with their number. Missing from the full claim: the other padding bytes are not looked at. -/
theorem C69_accepted_ciphertexts_partial (C : Crypto) (key iv ciphertext p : Bytes)
    (hk : key.length = 16 ∨ key.length = 24 ∨ key.length = 32) (hi : iv.length = 16) :
    cbcDecrypt C key iv ciphertext = .ok p ↔ ∃ padded, Padded p padded ∧ ciphertext = chain C key iv (blocks padded) :=
  cbcDecrypt_iff C ciphertext p (by simp [aesKeyOk]; omega) hi

example : Padded (List.replicate 14 1) oddBlock := ⟨[9, 2], rfl, by decide, ⟨2, rfl, rfl⟩, rfl⟩

/-! ## C70 -/

/-- **C70**, nothing else is delivered: whatever bytes the group DecryptMessage returns, with any store and any store failures, a state
stored for this sender and distribution id can read them out of the message. -/
theorem C70_plaintext_is_authentic (E : GEnv) (w : GWorld) (hw : GReachable E w) (a : Address) (m : SenderKeyMsg) (p : Bytes)
    (h : (groupDecrypt E.C E.aliased a m w).1 = .ok p) :
    ∃ g s, w.records (a, m.distID) = some g ∧ s ∈ g ∧ s.CanRead E.C m p := by
  have ho := groupDecrypt_outcome E.C E.aliased a m w
  generalize groupDecrypt E.C E.aliased a m w = x at ho h
  obtain ⟨r, w'⟩ := x
  simp only at ho h
  subst h
  cases ho with
  | early _ fs hr => exact absurd rfl (hr p)
  | stopped _ fs hr => exact absurd rfl (hr p)
  | done fs g s k mk s' _ hac hp =>
    have hs := (GRecord.stateForChainID_some hac.state).1
    exact ⟨g, s, hac.record, hs, hac.canRead ((hw.WF _ g hac.record).states s hs) hp⟩

/-- **C70**, exactly: when no store call fails, the group DecryptMessage returns `p` if and only if a stored state can read it out of the
message. -/
theorem C70_reads_exactly (E : GEnv) (w : GWorld) (hw : GReachable E w) (hf : w.faults = []) (a : Address) (m : SenderKeyMsg) (p : Bytes) :
    (groupDecrypt E.C E.aliased a m w).1 = .ok p ↔ ∃ g s, w.records (a, m.distID) = some g ∧ s ∈ g ∧ s.CanRead E.C m p :=
  ⟨C70_plaintext_is_authentic E w hw a m p, fun ⟨g, _, hg, hs, h⟩ => h.run hf (hw.WF _ g hg) hg hs⟩

/-- Bob's world after the third message is reachable. -/
theorem Ex.gbob2_reachable : GReachable gCopying gbob2 := gbob1_reachable.decrypt alice g3

/-- the messages of the example are readable: one ahead on the chain, one that was skipped -/
example : ∃ g s, gbob1.records (alice, g3.distID) = some g ∧ s ∈ g ∧ s.CanRead toy g3 [5, 5] :=
  (C70_reads_exactly gCopying gbob1 gbob1_reachable (by decide +kernel) alice g3 [5, 5]).mp g3_delivered

example : ∃ g s, gbob2.records (alice, g1.distID) = some g ∧ s ∈ g ∧ s.CanRead toy g1 [1, 2, 3] :=
  (C70_reads_exactly gCopying gbob2 gbob2_reachable (by decide +kernel) alice g1 [1, 2, 3]).mp g1_delivered

end Verif
