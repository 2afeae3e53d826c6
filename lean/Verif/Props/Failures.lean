import Verif.Proofs.Failures
import Verif.Props.Alone
import Verif.Props.Group

/-!
# Which calls can panic and when calls succeed: C108, C109
-/

namespace Verif

open Ex

/-! ## C108 -/

theorem Out.of_ne_panic {α} {f : α → Out} {r : Res α} (hf : ∀ a, f a ≠ .panic) (h : r ≠ .panic) : Out.of f r ≠ .panic := by
  cases r with
  | ok a => exact hf a
  | err e => simp [Out.of]
  | panic => exact absurd rfl h

theorem GOut.of_ne_panic {α} {f : α → GOut} {r : Res α} (hf : ∀ a, f a ≠ .panic) (h : r ≠ .panic) : GOut.of f r ≠ .panic := by
  cases r with
  | ok a => exact hf a
  | err e => simp [GOut.of]
  | panic => exact absurd rfl h

theorem call_no_panic {E : Env} {w : World} (hw : w.WF) (c : Call) (hc : c.op.NotPreKey) : (c.run E w).1 ≠ .panic := by
  obtain ⟨op, rand, faults⟩ := c
  have hw' : World.WF { w with rand := rand, faults := faults } := hw
  cases op with
  | encrypt a pt => exact Out.of_ne_panic (by simp) (encrypt_no_panic hw' a pt)
  | bundle a b => exact Out.of_ne_panic (by simp) (bundle_no_panic E a b _)
  | addPreKey id k => simp [Call.run]
  | addSignedPreKey id k => simp [Call.run]
  | decrypt a m =>
    refine Out.of_ne_panic (by simp) ?_
    cases m with
    | preKey m => exact hc.elim
    | signal m => exact signal_never_panics hw' a m hc
    | _ => simp [decryptMessage]

theorem gcall_no_panic (E : GEnv) (w : GWorld) (c : GCall) (hc : c.op.FromWire) : (c.run E w).1 ≠ .panic := by
  obtain ⟨op, rand, sysRand, faults⟩ := c
  cases op with
  | encrypt a d pt => exact GOut.of_ne_panic (by simp) (groupEncrypt_no_panic E.C E.aliased a d pt _)
  | process a d => exact GOut.of_ne_panic (by simp) (processDistribution_no_panic E.aliased a d _)
  | distribute a d => exact GOut.of_ne_panic (by simp) (newSenderKeyDistribution_no_panic E.C a d _)
  | decrypt a m =>
    obtain ⟨bytes, hb⟩ := hc
    refine GOut.of_ne_panic (by simp) (groupDecrypt_no_panic E.C E.aliased a m ?_ _)
    exact (parsed_senderKey_length hb)

/-- **C108**. After any history, no call of the session API panics, but for DecryptMessage on a pre-key message: whatever its arguments,
its random bytes, the kind of store and the failures of the store. -/
theorem C108_only_pre_key_messages_panic (E : Env) (w : World) (hw : Reachable E w) (c : Call) (hc : c.op.NotPreKey) :
    (c.run E w).1 ≠ .panic := call_no_panic hw.WF c hc

/-- C108, when several calls run at once: the same for every call in every schedule. -/
theorem C108_also_when_calls_overlap (E : Env) (hE : E.aliased = false) (w : World) (hw : Reachable E w) (cs : List Call)
    (schedule : List Nat) (i : Nat) (c : Call) (hi : cs[i]? = some c) (hs : i ∈ schedule) (hc : c.op.NotPreKey) :
    (runAtOnce E cs schedule w).1[i]? ≠ some (some .panic) := by
  intro ho
  obtain ⟨v, h1, h2, -⟩ := runAtOnce_alone hE cs schedule w i _ hi hs _ ho
  exact call_no_panic (h1.WF fun u hu => hu.WF hE hw.WF) c hc h2

/-- C108 for the group API: no call panics, in whatever state the store is. -/
theorem C108_group_calls_never_panic (E : GEnv) (w : GWorld) (c : GCall) (hc : c.op.FromWire) : (c.run E w).1 ≠ .panic :=
  gcall_no_panic E w c hc

/-- C108 for the group API, when several calls run at once. -/
theorem C108_group_calls_that_overlap (C : Crypto) (w : GWorld) (cs : List GCall) (schedule : List Nat) (i : Nat) (c : GCall)
    (hi : cs[i]? = some c) (hs : i ∈ schedule) (hc : c.op.FromWire) : (runGAtOnce C cs schedule w).1[i]? ≠ some (some .panic) := by
  intro ho
  obtain ⟨runs, -, -, h⟩ := runGAtOnce_sequential C cs schedule w i c hi hs _ ho
  exact gcall_no_panic _ _ c hc h

/-- C108 for pre-key messages: with a store that does not fail, DecryptMessage panics exactly if the sender's identity is trusted, no session
was set up with the base key yet, the named pre-keys can be read as far as they exist, and the signed pre-key does not exist or a
Diffie-Hellman value of the key agreement is zero. -/
theorem C108_pre_key_message_panics_exactly (E : Env) (w : World) (hw : Reachable E w) (hf : w.faults = []) (a : Address) (m : PreKeyMsg)
    (hm : (Ciphertext.preKey m).Parsed) :
    (decryptMessage E a (.preKey m) w).1 = .panic ↔
      E.trusted w.known a m.identityKey .receiving = true ∧ (∀ r, w.sessions a = some r → ¬ r.Knows m.version.toUInt32 m.baseKey) ∧
      m.KeysReadable w ∧ ¬ m.Acceptable E.C w := by
  have hwf : ((w.sessions a).getD {}).WF := by
    cases h : w.sessions a with
    | none => exact Record.WF.empty
    | some r => exact hw.WF a r h
  constructor
  · intro h
    obtain ⟨bytes, hb⟩ := id hm
    obtain ⟨ht, hr⟩ := preKey_panic_needs (parsed_preKey_length hb) hwf h
    refine ⟨ht, fun r hs hk => ?_, hr, fun ha => ?_⟩
    · exact C18_preKey_never_panics_partial E w hw a m hm (.inl ⟨r, hs, hk⟩) h
    · exact C18_preKey_never_panics_partial E w hw a m hm (.inr ha) h
  · rintro ⟨ht, hk, hr, ha⟩
    refine preKey_panics hf hwf ht ?_ hr ha
    cases hs : w.sessions a with
    | none =>
      rintro ⟨s, h | ⟨b, hb, _⟩, _⟩
      · cases h
      · simp at hb
    | some r => exact hk r hs

/-! ## C109 -/

/-- **C109**. After any history, with a store that does not fail, EncryptMessage has one of three results: there is no session with the peer, and it
says so; the identity of the peer's session is not trusted, and it says so; or it returns a message. -/
theorem C109_encrypt (E : Env) (w : World) (hw : Reachable E w) (hf : w.faults = []) (a : Address) (pt : Bytes) :
    (w.sessions a = none ∧ (encryptMessage E a pt w).1 = .err (.sessionNotFound a)) ∨
    ∃ r k, w.sessions a = some r ∧ r.remoteIdentityKey = .ok (some k) ∧
      ((E.trusted w.known a k .sending = false ∧ (encryptMessage E a pt w).1 = .err (.untrustedIdentity a)) ∨
       (E.trusted w.known a k .sending = true ∧ ∃ c, (encryptMessage E a pt w).1 = .ok c)) := by
  cases hr : w.sessions a with
  | none =>
    refine .inl ⟨rfl, ?_⟩
    unfold encryptMessage
    rw [M.bind_ok_run (x := loadSession a) (storeCall_nil _ w hf)]
    simp [hr]
  | some r =>
    obtain ⟨s, hs⟩ := Option.isSome_iff_exists.1 (hw.owned a r hr).1
    obtain ⟨c, ck, eph, lk, rk, msg, h1, h2, h3, h4, h5, h6, h7, h8, h9, h10, h11, out, he, -⟩ := ((hw.WF a r hr).current s hs).encrypts E.C pt
    refine .inr ⟨r, rk, rfl, by simp only [Record.remoteIdentityKey, hs]; exact SState.remoteIdentityKey_bytes h6, ?_⟩
    cases ht : E.trusted w.known a rk .sending with
    | true => exact .inr ⟨rfl, out, by rw [encrypt_run hf hr hs he ht]⟩
    | false =>
      refine .inl ⟨rfl, ?_⟩
      unfold encryptMessage
      rw [M.bind_ok_run (x := loadSession a) (storeCall_nil _ w hf)]
      simp only [hr, hs]
      have hl : M.lift (encryptState E.C s pt) w = (.ok (out, s.setSenderChainKey (ck.next E.C), rk), w) := by rw [M.lift_run, he]
      rw [M.bind_ok_run hl]
      simp only
      rw [M.bind_ok_run (touch_run E a true _ _)]
      rw [M.bind_ok_run (x := isTrusted E a rk .sending) (storeCall_nil _ _ (by simpa using hf))]
      simp [ht]

/-- C109: with a store that does not fail, ProcessPreKeyBundle succeeds exactly if the identity key is trusted, the signature on the signed
pre-key verifies, there are 64 random bytes, and the user has a shared secret with each key of the bundle. Otherwise it returns an error
(C108). -/
theorem C109_bundle (E : Env) (w : World) (hf : w.faults = []) (a : Address) (b : Bundle) :
    (processPreKeyBundle E a b w).1 = .ok () ↔
      E.trusted w.known a b.identityKey .sending = true ∧
      b.identityKey.verifySignature E.C b.signedPreKeySignature [b.signedPreKeyPublic.bytes] = .ok true ∧
      64 ≤ w.rand.length ∧ b.Usable E.C w w.rand := by
  constructor
  · intro h
    have ho := bundle_outcome E a b w
    generalize processPreKeyBundle E a b w = x at ho h
    obtain ⟨r, w'⟩ := x
    simp only at ho h
    subst h
    cases ho with
    | early _ fs rd hr => simp at hr
    | stopped _ fs hr s rd ht hv hb => simp at hr
    | done fs s rd ht hv hb => exact ⟨ht, hv, usable_of_fromBundle hb⟩
  · rintro ⟨ht, hv, hr, hu⟩
    obtain ⟨s, rd, hb⟩ := fromBundle_of_usable hr hu
    rw [bundle_run hf ht hv hb]

/-- C109 for groups: after any history, with a store that does not fail, group EncryptMessage succeeds exactly if the store has a sender key whose
private half the user holds, and there are 64 random bytes. -/
theorem C109_group_encrypt (E : GEnv) (w : GWorld) (hw : GReachable E w) (hf : w.faults = []) (a : Address) (d : DistId) (pt : Bytes) :
    (∃ m, (groupEncrypt E.C E.aliased a d pt w).1 = .ok m) ↔
      64 ≤ w.rand.length ∧ ∃ s rest, w.records (a, d) = some (s :: rest) ∧ s.signingPrivate ≠ [] := by
  constructor
  · rintro ⟨m, h⟩
    have ho := groupEncrypt_outcome E.C E.aliased a d pt w
    generalize groupEncrypt E.C E.aliased a d pt w = x at ho h
    obtain ⟨r, w'⟩ := x
    simp only at ho h
    subst h
    cases ho with
    | early _ fs rd hr => simp at hr
    | stopped _ fs hr => simp at hr
    | done fs s rest sk m rd hb => exact built_needs hb
  · rintro ⟨hr, s, rest, hg, hs⟩
    obtain ⟨k, _, hk, _⟩ := (hw.own _ _ hg).2 s (by simp) hs
    exact groupEncrypt_succeeds hf hr hg (by rw [GState.privateSigningKey, hk, newPrivateKey_bytes])

/-- C109: with a store that does not fail, processing a distribution message always succeeds. -/
theorem C109_group_process (E : GEnv) (w : GWorld) (hf : w.faults = []) (a : Address) (d : DistributionMsg) :
    (processDistribution E.aliased a d w).1 = .ok () := by
  unfold processDistribution
  rw [M.bind_ok_run (x := gLoad _) (gStoreCall_none _ hf)]
  simp only
  have hl : ∃ g, GRecord.addState ((w.records (a, d.distID)).getD [])
      (newGroupState d.version d.chainID d.iteration d.chainKey d.signingKey none) = .ok g := by
    simp only [GRecord.addState, newGroupState_publicKey, Res.bind_ok]
    exact ⟨_, rfl⟩
  obtain ⟨g, hg⟩ := hl
  rw [M.bind_ok_run (show M.lift _ _ = (.ok g, _) by rw [M.lift_run, hg])]
  rw [M.bind_ok_run (show gTouch _ _ _ _ _ = (.ok (), { w with records := gmid E.aliased (a, d.distID) (w.records (a, d.distID)).isSome w.records g }) from gTouch_run _ _ _ _ _)]
  simp only [gStore]
  rw [gStoreCall_none _ (by simpa using hf)]

/-- C109: after any history, with a store that does not fail, NewSenderKeyDistribution succeeds exactly if there is a record for the group, or there
are random bytes for a new one. -/
theorem C109_group_distribute (E : GEnv) (w : GWorld) (hw : GReachable E w) (hf : w.faults = []) (a : Address) (d : DistId) :
    (∃ m, (newSenderKeyDistribution E.C a d w).1 = .ok m) ↔
      (w.records (a, d)).isSome ∨ (4 ≤ w.sysRand.length ∧ 64 ≤ w.rand.length) := by
  constructor
  · rintro ⟨m, h⟩
    have ho := newSenderKeyDistribution_outcome E.C a d w
    generalize newSenderKeyDistribution E.C a d w = x at ho h
    obtain ⟨r, w'⟩ := x
    simp only at ho h
    subst h
    cases ho with
    | early _ fs rd srd hr => simp at hr
    | existing fs s rest k h hk => exact .inl (by rw [h]; rfl)
    | created fs rd srd s k hc hn hk =>
      obtain ⟨_, _, kp, _, hl, _, ⟨h4, _, hs, hg⟩, _⟩ := hc.shape
      refine .inr ⟨h4, ?_⟩
      have := (generateKeyPair_ok (r' := (generateKeyPair E.C (w.rand.drop 32)).2) (by rw [← hg])).1
      rw [List.length_drop] at this
      omega
  · intro h
    cases hg : w.records (a, d) with
    | some g => exact C46_existing_key_succeeds E w hw hf a d g hg fun hn => hw.nonEmpty _ (hn ▸ hg)
    | none =>
      rcases h with h | ⟨h4, hr⟩
      · rw [hg] at h; cases h
      · exact distribute_creates hf hg h4 hr

/-! ## Instances -/

/-- Calls of every kind meet the hypothesis of C108. -/
example : (Call.mk (.encrypt bob [1]) [] []).op.NotPreKey ∧ (Call.mk (.bundle bob bundle) [] []).op.NotPreKey ∧
    (GCall.mk (.distribute alice dist) [] [] []).op.FromWire := ⟨trivial, trivial, trivial⟩

/-- A pre-key message from a trusted sender, with readable pre-keys, that names a signed pre-key which is not there. -/
example : ∃ m, (Ciphertext.preKey m).Parsed ∧ (decryptMessage copying alice (.preKey m) bob0).1 = .panic ∧ m.KeysReadable bob0 ∧
    ¬ m.Acceptable toy bob0 := by
  have h : (match m1 with
    | .preKey m => match newPreKeyFromBytes (newPreKey 3 11 (some 5) 77 m.baseKey m.identityKey m.message).serialized with
      | .ok m' => decide ((decryptMessage copying alice (.preKey m') bob0).1 = .panic)
      | _ => false
    | _ => false) = true := by decide +kernel
  split at h
  · split at h
    · rename_i m' hm'
      simp only [decide_eq_true_eq] at h
      obtain ⟨-, -, h1, h2⟩ := (C108_pre_key_message_panics_exactly copying bob0 bob0_reachable rfl alice m' ⟨_, hm'⟩).1 h
      exact ⟨m', ⟨_, hm'⟩, h, h1, h2⟩
    · simp at h
  · simp at h

/-- The three results of EncryptMessage. -/
example : (encryptMessage copying bob [1] alice0).1 = .err (.sessionNotFound bob) ∧ (encryptMessage copying bob [1, 2, 3] alice1).1 = .ok m1 ∧
    (encryptMessage { copying with trusted := fun _ _ _ _ => false } bob [1] alice1).1 = .err (.untrustedIdentity bob) := by
  decide +kernel

/-- A usable bundle. -/
example : bundle.Usable toy alice0 alice0.rand := by
  have h : (processPreKeyBundle copying bob bundle alice0).1 = .ok () := by decide +kernel
  exact ((C109_bundle copying alice0 rfl bob bundle).1 h).2.2.2

end Verif
