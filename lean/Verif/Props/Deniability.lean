import Verif.Proofs.Deniability
import Verif.Props.Reading
import Verif.Props.Protocol

/-!
# Messages prove nothing to third parties: C112

`Verif.Spec.Deniability` has the functions with which Bob writes messages to Bob. They take Bob's key pairs, what Bob has stored, and
public keys.
-/

namespace Verif

open Ex Doc

/-! ## C112 -/

/-- **C112**, first messages. For any identity key that Bob trusts for the address, any base key and ratchet key, any of Bob's pre-keys,
any header and any plaintext, `firstMessage` is a message that Bob accepts as the first of a session with the owner of that identity
key, with that plaintext. (The public keys must not be of low order and the base key must be new.) -/
theorem C112_first_message (E : Env) (w : World) (hw : Reachable E w) (hf : w.faults = []) (a : Address) (bob : BobKeys) (hk : w.HasKeys bob)
    (claimed base ratchet : PubKey) (registration n previous : UInt32) (p : Bytes) (hp : p.length < 2 ^ 60) (hn : n.toNat ≤ 25000)
    (ht : E.trusted w.known a claimed .receiving = true) (hnew : ∀ r, w.sessions a = some r → ¬ r.Knows 3 base)
    (hlow : ∀ q ∈ [claimed, base, ratchet], ∀ k : PrivKey, (E.C.dh k.key q.key).isSome) (hrand : 32 ≤ w.rand.length) :
    ∃ m, newPreKeyFromBytes (firstMessage E.C bob claimed base ratchet registration n previous p) = .ok m ∧ m.identityKey = claimed ∧
      (decryptMessage E a (.preKey m) w).1 = .ok (some p) := by
  obtain ⟨hid, ⟨rec, hs1, hs2⟩, hone⟩ := hk
  have dh : ∀ q ∈ [claimed, base, ratchet], ∀ k : KeyPair, ∃ d, E.C.dh k.priv.key q.key = some d :=
    fun q hq k => Option.isSome_iff_exists.mp (hlow q hq k.priv)
  obtain ⟨d1, h1⟩ := dh claimed (by simp) bob.signed
  obtain ⟨d2, h2⟩ := dh base (by simp) bob.identity
  obtain ⟨d3, h3⟩ := dh base (by simp) bob.signed
  obtain ⟨dr, hr⟩ := dh ratchet (by simp) bob.signed
  obtain ⟨d4, h4, h4'⟩ : ∃ d4, (match bob.oneTime with | some k => E.C.dh k.priv.key base.key = some d4 | none => d4 = []) ∧
      (match bob.oneTime with | some k => agree E.C k base | none => []) = d4 := by
    cases ho : bob.oneTime with
    | none => exact ⟨[], rfl, rfl⟩
    | some k =>
      obtain ⟨d4, h⟩ := dh base (by simp) k
      exact ⟨d4, h, agree_of h⟩
  obtain ⟨inner, i1, i2, i3, i4, i5, i6⟩ := signalUnder_parses E.C (messageSecrets_length E.C
    (derive E.C (agree E.C bob.signed ratchet) (x3dhBob E.C bob.identity bob.signed bob.oneTime claimed base).root (ascii "WhisperRatchet")).chain n.toNat)
    ratchet n previous claimed bob.identity.pub hp
  rw [← signalMessage_under] at i1 i2
  have hround := prekey_round_trip registration bob.oneTimeId bob.signedId base claimed inner (by rw [i2]; exact i1) (by omega)
  refine ⟨newPreKey 3 registration bob.oneTimeId bob.signedId base claimed inner, ?_, rfl, ?_⟩
  · unfold firstMessage
    simp only
    rw [← i2, ← newPreKey_bytes _ _ _ _ _ _ (by omega)]
    exact hround
  have ha : (agree E.C bob.signed ratchet) = dr := agree_of hr
  let sc : PBChain := { senderRatchetKeyPrivate := bob.signed.priv.bytes }
  let s : SState := { localIdentityPublic := wireKey w.identity.pub, remoteIdentityPublic := wireKey claimed, senderChain := some sc,
                      rootKey := (x3dhBob E.C bob.identity bob.signed bob.oneTime claimed base).root }
  have hroot : s.rootKey = (derive E.C (List.replicate 32 0xFF ++ d1 ++ d2 ++ d3 ++ d4) [] (ascii "WhisperText")).root := by
    show (x3dhBob E.C bob.identity bob.signed bob.oneTime claimed base).root = _
    unfold x3dhBob
    rw [agree_of h1, agree_of h2, agree_of h3, ← h4']
    cases bob.oneTime <;> rfl
  refine C68_first_message_is_read E w hw hf a (newPreKey 3 registration bob.oneTimeId bob.signedId base claimed inner) hnew ht s ⟨rfl, rfl, rfl, ?_⟩ p ?_ ?_ hrand
  · exact ⟨rec, bob.signed, bob.oneTime, d1, d2, d3, d4, hs1, hs2, hone.imp id id, h1, by rw [← hid]; exact h2, h3, h4, hroot, sc, rfl, rfl⟩
  · rw [ha, hid] at i5
    refine ⟨claimed, w.identity.pub, messageSecrets E.C (derive E.C dr s.rootKey (ascii "WhisperRatchet")).chain n.toNat, rfl, rfl, ?_, ?_⟩
    · show s.Secrets E.C inner.senderRatchetKey inner.counter _
      rw [i3, i4]
      exact .ratchet (by simp [s]) sc rfl bob.signed.priv rfl dr hr (.inl hn)
    · show inner.Carries _ _ _ _ _
      show inner.Carries _ (messageSecrets E.C (derive E.C dr (x3dhBob E.C bob.identity bob.signed bob.oneTime claimed base).root (ascii "WhisperRatchet")).chain n.toNat) _ _ _
      rw [hid]
      exact i5
  · intro k
    show (E.C.dh k.key inner.senderRatchetKey.key).isSome
    rw [i3]
    exact hlow ratchet (by simp) k

/-- The examples' public keys are not of low order. -/
theorem Ex.pair_fine (n : UInt8) (k : PrivKey) : (toy.dh k.key (pair n).pub.key).isSome := by
  obtain ⟨s, h, _⟩ := agreement_honest toy k (pair n).priv
  cases hd : toy.dh k.key (pair n).pub.key with
  | some d => rfl
  | none =>
    have hd' : toy.dh k.key ((pair n).priv.pub toy).keyBytes = none := hd
    simp [PrivKey.agreement, hd', Res.ofOption] at h

/-- Bob writes a message in Alice's name with Bob's one-time pre-key 5 and signed pre-key 6. -/
example : ∃ m, newPreKeyFromBytes (firstMessage toy ⟨pair 2, 6, pair 4, some 5, some (pair 3)⟩ (pair 1).pub (pair 7).pub (pair 8).pub 11 3 0 [1, 2]) = .ok m ∧
    m.identityKey = (pair 1).pub ∧ (decryptMessage copying alice (.preKey m) bob0).1 = .ok (some [1, 2]) :=
  C112_first_message copying bob0 bob0_reachable rfl alice ⟨pair 2, 6, pair 4, some 5, some (pair 3)⟩ ⟨rfl, ⟨_, rfl, by decide +kernel⟩, .inr ⟨_, _, rfl, by decide +kernel, rfl⟩⟩
    (pair 1).pub (pair 7).pub (pair 8).pub 11 3 0 [1, 2] (by decide) (by decide) (by decide +kernel) (by simp [bob0])
    (by
      intro q hq k
      simp only [List.mem_cons, List.not_mem_nil, or_false] at hq
      rcases hq with rfl | rfl | rfl <;> exact pair_fine _ k) (by decide +kernel)

/-- **C112**, in a session. For every position at which Bob's current session with `a` could read a message, the secrets stored in that
session give Bob a message at that position with any plaintext and any other header, which Bob accepts as sent by the peer of the
session. -/
theorem C112_in_session (E : Env) (w : World) (hw : Reachable E w) (hf : w.faults = []) (a : Address) (r : Record) (hr : w.sessions a = some r)
    (s : SState) (hs : r.current = some s) (peer us ratchet : PubKey) (n : UInt32) (secrets : Bytes) (hpeer : s.remoteIdentityPublic = wireKey peer)
    (hus : s.localIdentityPublic = wireKey us) (hsec : s.Secrets E.C ratchet n secrets) (previous : UInt32) (p : Bytes) (hp : p.length < 2 ^ 60)
    (ht : E.trusted w.known a peer .receiving = true) (hlow : ∀ k : PrivKey, (E.C.dh k.key ratchet.key).isSome) (hrand : 32 ≤ w.rand.length) :
    ∃ m, newSignalFromBytes (signalUnder E.C secrets ratchet n previous peer us p) = .ok m ∧
      (decryptMessage E a (.signal m) w).1 = .ok (some p) := by
  have hwf := (hw.WF a r hr).current s hs
  obtain ⟨m, i1, i2, i3, i4, i5, i6⟩ := signalUnder_parses E.C (hwf.secrets_length hsec) ratchet n previous peer us hp
  refine ⟨m, i1, ?_⟩
  have hread : s.CanRead E.C m p := ⟨peer, us, secrets, hpeer, hus, by rw [i3, i4]; exact hsec, i5⟩
  obtain ⟨s', rd', hd⟩ := hwf.reads hread w.rand hrand (by rw [i3]; exact hlow)
  have hd' : decryptRecord E.C r m w.rand = (.ok (p, r.setSessionState s'), rd') := by
    unfold decryptRecord
    rw [hs]
    simp only
    rw [M.bind_run]
    unfold M.attempt
    rw [hd]
    rfl
  have hk : s'.remoteIdentityKey = .ok (some peer) := by
    refine SState.remoteIdentityKey_bytes ?_
    rw [(decryptMessageSession_keeps hd).2.2.2.1]
    exact hpeer
  have := signal_run (st := s') (k := peer) hf hr (.ok _ _ _ hd') rfl hk ht
  simp only [decryptMessage]
  rw [this]

/-- **C112**, nothing more is in an accepted message. Whatever bytes Bob's current session reads out of a message, it has the secrets
that write a message at the same position with any other plaintext. -/
theorem C112_accepted (E : Env) (w : World) (hw : Reachable E w) (hf : w.faults = []) (a : Address) (r : Record) (hr : w.sessions a = some r)
    (s : SState) (hs : r.current = some s) (m : Signal) (q : Bytes) (h : s.CanRead E.C m q) (p : Bytes) (hp : p.length < 2 ^ 60)
    (htrust : ∀ k, s.peer = some k → E.trusted w.known a k .receiving = true)
    (hlow : ∀ k : PrivKey, (E.C.dh k.key m.senderRatchetKey.key).isSome) (hrand : 32 ≤ w.rand.length) :
    ∃ secrets peer us m', s.Secrets E.C m.senderRatchetKey m.counter secrets ∧
      newSignalFromBytes (signalUnder E.C secrets m.senderRatchetKey m.counter m.previousCounter peer us p) = .ok m' ∧
      (decryptMessage E a (.signal m') w).1 = .ok (some p) := by
  obtain ⟨peer, us, secrets, h1, h2, h3, _⟩ := h
  have hpeer : s.peer = some peer := by unfold SState.peer; rw [SState.remoteIdentityKey_bytes h1]
  obtain ⟨m', i1, i2⟩ := C112_in_session E w hw hf a r hr s hs peer us m.senderRatchetKey m.counter secrets h1 h2 h3 m.previousCounter p hp
    (htrust peer hpeer) hlow hrand
  exact ⟨secrets, peer, us, m', h3, i1, i2⟩

/-- In the example Bob can put another text at the position of Alice's third message. -/
example : ∃ secrets peer us k n previous m', newSignalFromBytes (signalUnder toy secrets k n previous peer us [9, 9, 9]) = .ok m' ∧
    (decryptMessage copying alice (.signal m') bob2).1 = .ok (some [9, 9, 9]) := by
  obtain ⟨m, r, s, h1, h2, h3, h4, h5, h6, h7, h8, h9, h10⟩ := m3_readable
  have hsize : 1 ≤ r.size := by unfold Record.size; rw [h10]; simp
  obtain ⟨secrets, peer, us, m', _, i1, i2⟩ := C112_accepted copying bob2 bob2_reachable h2 alice r h3 s h10 m [5, 5] h5 [9, 9, 9] (by decide)
    (fun k hk => h7 s k h4 hk) h8 (by omega)
  exact ⟨secrets, peer, us, _, _, _, m', i1, i2⟩

/-- **C112**, whole conversations. Alice processes Bob's bundle; then any schedule of sends and deliveries follows. Everything that either
of them sends is what Bob computes (`BobKeys.wire`) from Bob's own key pairs - identity, pre-keys, and the ratchet keys made by Bob's
deliveries - and Alice's public keys. -/
theorem C112_conversation (d : Duo) (alice bob : World) (b : Bundle) (rand : Bytes) (h : d.Strangers alice bob b)
    (es : List DEvent) (hf : FreshKeys d.C b rand es) (hok : d.Ok (d.start alice bob b rand) es) (hlen : es.length < 2 ^ 32) :
    ∃ (k : BobKeys) (base : PubKey) (bobs : Nat → KeyPair) (alices : Nat → PubKey),
      bob.HasKeys k ∧ k.signedId = b.signedPreKeyID ∧ k.oneTimeId = b.preKeyID ∧ bobs 0 = k.signed ∧
      (∀ pre i r post, es = pre ++ .deliver .bob i r :: post →
        turn (d.run (d.start alice bob b rand) (pre ++ [.deliver .bob i r])) .bob ≠ turn (d.run (d.start alice bob b rand) pre) .bob →
        (generateKeyPair d.C r).1 = .ok (bobs (turn (d.run (d.start alice bob b rand) (pre ++ [.deliver .bob i r])) .bob))) ∧
      ∀ pre s pt post c, es = pre ++ .send s pt :: post →
        (encryptMessage (d.env s) (d.address s.other) pt { (d.run (d.start alice bob b rand) pre).world s with faults := [] }).1 = .ok c →
        c.wire = some (k.wire d.C alice.regId alice.identity.pub base bobs alices (d.run (d.start alice bob b rand) pre) s pt) := by
  obtain ⟨_, base, o, L, lev, cnt, st, hinv, ⟨bk, b1, b2, b3⟩, b4, b5, b6, b7⟩ := Duo.begins h hf
  obtain ⟨L', lev', cnt', st', i1, i2, i3, i4, i5⟩ := hinv.conforms h.trusts es hok (by omega) (fun s => by simp [Duo.start])
  obtain ⟨signed, s1, s2, s3⟩ := h.offers.signed
  obtain ⟨hi1, hi2⟩ := h.offers.identity
  obtain ⟨one, o1, o2, o3⟩ : ∃ one : Option KeyPair, (∀ k, one = some k → k.Matched d.C) ∧ b.preKeyPublic = one.map (·.pub) ∧
      (one = none ∧ b.preKeyID.bind bob.preKeys = none ∨ ∃ rec pair, b.preKeyID.bind bob.preKeys = some rec ∧ rec.keyPair = .ok pair ∧ one = some pair) := by
    rcases h.offers.oneTime with ⟨q1, q2⟩ | ⟨id, k, q1, q2, q3, q4, q5⟩
    · exact ⟨none, by simp, by simp [q2], .inl ⟨rfl, by simp [q1]⟩⟩
    · exact ⟨some k, by simp [q2], by simp [q4], .inr ⟨_, k, by simp [q3, q5]; rfl, by simp [PreKeyRec.new, PreKeyRec.keyPair, newKeyPair], rfl⟩⟩
  have hbk : bk.Matched d.C := by
    rcases hg : generateKeyPair d.C rand with ⟨x, rd⟩
    rw [hg] at b1
    simp only at b1
    subst b1
    exact (generateKeyPair_ok hg).2.2.1
  have hfirst : (L' 0).kp = signed := by
    have : bob.signedPreKeys b.signedPreKeyID = some (PreKeyRec.new (L' 0).kp) := by rw [b4, ← i1.book.first]
    rw [s3] at this
    have hkp : ∀ k : KeyPair, (PreKeyRec.new k).keyPair = .ok k := fun k => by simp [PreKeyRec.new, PreKeyRec.keyPair, newKeyPair]
    have h2 := hkp (L' 0).kp
    rw [← Option.some.inj this, hkp] at h2
    simpa using h2.symm
  refine ⟨⟨bob.identity, b.signedPreKeyID, signed, b.preKeyID, one⟩, bk.pub, fun j => (L' j).kp, fun j => (L' j).kp.pub,
    ⟨rfl, ⟨_, s3, by simp [PreKeyRec.new, PreKeyRec.keyPair, newKeyPair]⟩, o3⟩, rfl, rfl, hfirst, fun pre i r post => i4 pre .bob i r post, ?_⟩
  intro pre s pt post c he hc
  rw [i5 pre s pt post c he hc]
  have hplan : planOf (identOf alice bob) b base o = planFor d.C alice bob b bk := by
    unfold planOf planFor
    rw [b3, b2, b6]
    congr 1
  have hturn : turn (d.run (d.start alice bob b rand) pre) s ≤ max (lev' .alice) (lev' .bob) := by
    have h1 := turn_run d (.send s pt :: post) (d.run (d.start alice bob b rand) pre) s
    rw [← d.run_append, ← he, i1.turn_eq] at h1
    have := i1.top s
    cases s <;> omega
  have hx : Doc.x3dh d.C alice.identity bk b.identityKey b.signedPreKeyPublic b.preKeyPublic =
      x3dhBob d.C bob.identity signed one alice.identity.pub bk.pub := by
    rw [hi1, s2, o2]
    exact x3dh_comm h.aliceKey hbk hi2 s1 o1
  rw [hplan]
  congr 1
  simp only [Plan.wire, BobKeys.wire, planFor, ite_self]
  rw [ratchet_comm _ _ _ i1.lad.matched _ hturn, hx]
  cases s <;> rfl

/-- The conversation of `Props.Delivery` meets the hypotheses; Alice's third message, sent with Alice's second ratchet key, is a
function of Bob's keys. -/
example : ∃ (k : BobKeys) (base : PubKey) (bobs : Nat → KeyPair) (alices : Nat → PubKey), bob0.HasKeys k ∧
    ∀ c, (encryptMessage (duo.env .alice) (duo.address .bob) [3]
      { (duo.run (duo.start alice0 bob0 bundle (randomness 1)) (schedule.take 5)).world .alice with faults := [] }).1 = .ok c →
    c.wire = some (k.wire toy alice0.regId alice0.identity.pub base bobs alices (duo.run (duo.start alice0 bob0 bundle (randomness 1)) (schedule.take 5)) .alice [3]) := by
  obtain ⟨k, base, bobs, alices, h1, _, _, _, _, h2⟩ := C112_conversation duo alice0 bob0 bundle (randomness 1) strangers schedule (by unfold FreshKeys; decide +kernel) schedule_ok
    (by decide)
  exact ⟨k, base, bobs, alices, h1, fun c hc => h2 (schedule.take 5) .alice [3] [.deliver .bob 2 (randomness 5)] c rfl hc⟩

end Verif
