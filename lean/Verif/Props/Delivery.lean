import Verif.Proofs.Duo
import Verif.Spec.Example

/-!
# Set-up and delivery of pairwise messages: C01, C02, C53
-/

namespace Verif

open Ex

/-! ## C02 -/

/-- **C02.** Alice initialises a session from Bob's public keys, Bob one from Alice's, for any key pairs, with or without a
one-time pre-key. Both succeed; the chain Bob sends on is the one Alice receives on under Bob's ratchet key, and the chain
Alice sends on is the one Bob derives for Alice's ratchet key. Each has stored the other's identity key. -/
theorem C02_agreement (C : Crypto) (aliceId base bobId signed ratchet : KeyPair) (oneTime : Option KeyPair)
    (ha : aliceId.Matched C) (hb : base.Matched C) (hi : bobId.Matched C) (hs : signed.Matched C) (hr : ratchet.Matched C)
    (ho : ∀ k, oneTime = some k → k.Matched C) (rand : Bytes) (hrand : 32 ≤ rand.length) :
    ∃ (alice bob : SState),
      initializeAliceSessionRecord C ⟨aliceId, base, bobId.pub, signed.pub, oneTime.map (·.pub), ratchet.pub⟩ rand =
        (.ok { current := some alice }, rand.drop 32) ∧
      initializeBobSessionRecord C ⟨bobId, some signed, oneTime, some ratchet, aliceId.pub, base.pub⟩ = .ok { current := some bob } ∧
      (∃ chain, bob.senderRatchetKey = .ok ratchet.pub ∧ bob.senderChainKey = .ok chain ∧
        alice.receiverChainKey ratchet.pub = .ok (some chain)) ∧
      (∃ key chain, alice.senderRatchetKey = .ok key ∧ alice.senderChainKey = .ok chain ∧
        ∀ rand' : Bytes, 32 ≤ rand'.length → ∃ bob', chainKeyFor C bob key rand' = (.ok (chain, bob'), rand'.drop 32)) ∧
      alice.localIdentityKey = .ok aliceId.pub ∧ alice.remoteIdentityKey = .ok (some bobId.pub) ∧
      bob.localIdentityKey = .ok bobId.pub ∧ bob.remoteIdentityKey = .ok (some aliceId.pub) := by
  obtain ⟨root, ck, l1, l2, l3, _, hbob, halice⟩ := x3dh_agree C ha hb hi hs hr ho
  obtain ⟨kp, g1, _, g3⟩ := generateKeyPair_run C rand hrand
  obtain ⟨sr, sc, c1, c2⟩ := halice rand _ kp g1
  obtain ⟨s1, s2, s3⟩ := RootKey.createChain_ok c1
  refine ⟨aliceInitial aliceId bobId.pub ratchet.pub ck kp sr sc, bobInitial bobId aliceId.pub ratchet root ck, ?_, ?_, ?_, ?_, ?_⟩
  · unfold initializeAliceSessionRecord
    rw [M.bind_ok_run c2]
    rfl
  · unfold initializeBobSessionRecord
    rw [hbob]
    rfl
  · refine ⟨ck, ?_, ?_, ?_⟩
    · simp [bobInitial, SState.senderRatchetKey, SState.setSenderChain]
    · simp [bobInitial, SState.senderChainKey, SState.setSenderChain, newChainKey, l2]
    · simp [aliceInitial, SState.setSenderChain, SState.addReceiverChain, SState.receiverChainKey, SState.receiverChain, SState.findChain, maxReceiverChains, newChainKey, l2]
  · refine ⟨kp.pub, sc, ?_, ?_, ?_⟩
    · simp [aliceInitial, SState.senderRatchetKey, SState.setSenderChain]
    · simp [aliceInitial, SState.senderChainKey, SState.setSenderChain, newChainKey, s2]
    · intro rand' hrand'
      obtain ⟨kp', g1', _, g3'⟩ := generateKeyPair_run C rand' hrand'
      obtain ⟨o, ho1, ho2⟩ := createChain_comm C root g3 hr
      rw [c1] at ho1
      simp only [Res.ok.injEq] at ho1
      subst ho1
      obtain ⟨o', ho1', _⟩ := createChain_comm C sr g3' g3
      have e0 : (bobInitial bobId aliceId.pub ratchet root ck).receiverChainKey kp.pub = .ok none := by
        simp [bobInitial, SState.setSenderChain, SState.receiverChainKey, SState.receiverChain, SState.findChain]
      have e1 : (bobInitial bobId aliceId.pub ratchet root ck).getRootKey = .ok root := by
        simp [bobInitial, SState.setSenderChain, SState.getRootKey, newRootKey, l1]
      have e2 : (bobInitial bobId aliceId.pub ratchet root ck).senderRatchetPrivateKey = .ok ratchet.priv := by
        simp [bobInitial, SState.setSenderChain, SState.senderRatchetPrivateKey]
      have e3 : (bobInitial bobId aliceId.pub ratchet root ck).senderChainKey = .ok ck := by
        simp [bobInitial, SState.senderChainKey, SState.setSenderChain, newChainKey, l2]
      unfold chainKeyFor
      simp only [M.bind_run, M.lift_run, e0, e1, e2, e3, ho2, g1', ho1']
      exact ⟨_, rfl⟩
  · simp [aliceInitial, bobInitial, SState.setSenderChain, SState.addReceiverChain, SState.localIdentityKey, SState.remoteIdentityKey, maxReceiverChains]

/-- Concrete keys meet the hypotheses. -/
example : ∃ alice bob, initializeAliceSessionRecord toy ⟨pair 1, pair 7, (pair 2).pub, (pair 4).pub, some (pair 3).pub, (pair 4).pub⟩ (randomness 1) =
      (.ok { current := some alice }, (randomness 1).drop 32) ∧
    initializeBobSessionRecord toy ⟨pair 2, some (pair 4), some (pair 3), some (pair 4), (pair 1).pub, (pair 7).pub⟩ = .ok { current := some bob } := by
  obtain ⟨a, b, h1, h2, _⟩ := C02_agreement toy (pair 1) (pair 7) (pair 2) (pair 4) (pair 4) (some (pair 3)) rfl rfl rfl rfl rfl
    (by rintro k ⟨rfl⟩; rfl) (randomness 1) (by decide)
  exact ⟨a, b, h1, h2⟩

/-! ## C01 -/

/-- **C01.** Alice processes Bob's bundle; then any schedule of sends and deliveries follows, in both directions, with messages
lost, reordered and repeated. Whenever a message of the other side is delivered (as bytes) and is inside the windows,
DecryptMessage returns its plaintext. The session stores may be of either kind. -/
theorem C01_delivery (d : Duo) (alice bob : World) (b : Bundle) (rand : Bytes) (h : d.Strangers alice bob b)
    (es : List DEvent) (s : Side) (i : Nat) (r : Bytes) (hf : FreshKeys d.C b rand (es ++ [.deliver s i r]))
    (hok : d.Ok (d.start alice bob b rand) es) (hlen : es.length < 2 ^ 32) (c : Ciphertext) (pt : Bytes) (k : PubKey) (n : UInt32)
    (hc : ((d.run (d.start alice bob b rand) es).sent s.other)[i]? = some (c, pt)) (hp : c.position = some (k, n))
    (hw : InWindow ((d.run (d.start alice bob b rand) es).got s) k n) :
    (d.receive s c r ((d.run (d.start alice bob b rand) es).world s)).1 = .ok (some pt) := by
  obtain ⟨_, base, o, L, lev, cnt, st, hinv⟩ := Duo.start_ok h hf
  obtain ⟨L', lev', cnt', st', hI⟩ := hinv.run h.trusts es [.deliver s i r] hok (by omega)
  exact Inv.delivers h.trusts (F := []) hI (List.mem_of_getElem? hc) hp hw

/-- **C01.** No delivery returns anything else: outside the windows, too, a plaintext that is returned is the one that was
encrypted (unless the receiving chain was dropped and the message is nevertheless accepted under another key, which
`DEvent.Ok` excludes). -/
theorem C01_exact (d : Duo) (alice bob : World) (b : Bundle) (rand : Bytes) (h : d.Strangers alice bob b)
    (es : List DEvent) (s : Side) (i : Nat) (r : Bytes) (hf : FreshKeys d.C b rand (es ++ [.deliver s i r]))
    (hok : d.Ok (d.start alice bob b rand) (es ++ [.deliver s i r])) (hlen : es.length < 2 ^ 32) (c : Ciphertext) (pt p : Bytes)
    (hc : ((d.run (d.start alice bob b rand) es).sent s.other)[i]? = some (c, pt))
    (hr : (d.receive s c r ((d.run (d.start alice bob b rand) es).world s)).1 = .ok (some p)) : p = pt := by
  have hsplit : ∀ (es : List DEvent) (S : DSys), d.Ok S (es ++ [.deliver s i r]) → d.Ok S es ∧ DEvent.Ok d (d.run S es) (.deliver s i r) := by
    intro es
    induction es with
    | nil => intro S h; exact ⟨trivial, h.1⟩
    | cons e es ih =>
      intro S h
      obtain ⟨h1, h2⟩ := ih _ h.2
      exact ⟨⟨h.1, h1⟩, h2⟩
  obtain ⟨hok1, hok2⟩ := hsplit es _ hok
  obtain ⟨_, base, o, L, lev, cnt, st, hinv⟩ := Duo.start_ok h hf
  obtain ⟨L', lev', cnt', st', hI⟩ := hinv.run h.trusts es [.deliver s i r] hok1 (by omega)
  exact (Inv.delivered h.trusts (F := []) hI s i hok2).2 c pt hc p hr

/-- **C01.** Messages can be sent throughout: ProcessPreKeyBundle succeeds, and after any schedule EncryptMessage succeeds for
Alice, and for Bob once Bob has received a message. -/
theorem C01_sending (d : Duo) (alice bob : World) (b : Bundle) (rand : Bytes) (h : d.Strangers alice bob b)
    (es : List DEvent) (hf : FreshKeys d.C b rand es) (hok : d.Ok (d.start alice bob b rand) es) (hlen : es.length < 2 ^ 32) :
    (processPreKeyBundle (d.env .alice) (d.address .bob) b { alice with rand := rand, faults := [] }).1 = .ok () ∧
    ∀ (s : Side) (pt : Bytes), (s = .bob → (d.run (d.start alice bob b rand) es).got .bob ≠ []) →
      ∃ c, (encryptMessage (d.env s) (d.address s.other) pt { (d.run (d.start alice bob b rand) es).world s with faults := [] }).1 = .ok c := by
  obtain ⟨hp, base, o, L, lev, cnt, st, hinv⟩ := Duo.start_ok h hf
  have hinv' : Inv d (identOf alice bob) b base o (deliveryRand (es ++ [])) 0 L lev cnt st (d.start alice bob b rand) := by
    rw [List.append_nil]; exact hinv
  obtain ⟨L', lev', cnt', st', hI⟩ := hinv'.run h.trusts es [] hok (by omega)
  exact ⟨hp, fun s pt hs => hI.canSend h.trusts s hs pt⟩

/-! ### A conversation that meets the hypotheses -/

namespace Ex

/-- Alice's store returns copies, Bob uses the in-memory store; both trust on first use. -/
def duo : Duo :=
  { C := toy, aliased := fun s => decide (s = .bob), trusted := fun _ => tofu, address := fun | .alice => alice | .bob => bob }

theorem strangers : duo.Strangers alice0 bob0 bundle := by
  have htofu : ∀ (known : Address → Option PubKey) (a : Address) (k : PubKey) (dir : Direction), known a = none ∨ known a = some k → tofu known a k dir = true := by
    intro known a k dir h
    rcases h with h | h <;> simp [tofu, h]
  refine ⟨rfl, rfl, rfl, ⟨⟨rfl, rfl⟩, ⟨pair 4, rfl, rfl, rfl⟩, by decide +kernel, .inr ⟨5, pair 3, by decide, rfl, rfl, rfl, rfl⟩⟩,
    ⟨.inl rfl, fun known dir h => htofu known _ _ dir h⟩, ⟨.inl rfl, fun known dir h => htofu known _ _ dir h⟩⟩

/-- Bob receives the second message, answers, and receives the third message, before the first one arrives. -/
def schedule : List DEvent :=
  [.send .alice [1], .send .alice [2], .deliver .bob 1 (randomness 3), .send .bob [9], .deliver .alice 0 (randomness 4),
    .send .alice [3], .deliver .bob 2 (randomness 5)]

def talked : DSys := duo.run (duo.start alice0 bob0 bundle (randomness 1)) schedule

/-- Alice's first message. -/
def late : Ciphertext := (((talked.sent .alice)[0]?).map (·.1)).getD noMessage
def latePosition : PubKey × UInt32 := late.position.getD ((pair 1).pub, 0)

theorem short_send {d : Duo} {S : DSys} {s : Side} {pt : Bytes} (h : pt.length ≤ 100) : DEvent.Ok d S (.send s pt) := by
  show pt.length < 2 ^ 62
  omega

theorem few_chains {d : Duo} {S : DSys} {s : Side} (i : Nat) (r : Bytes) (h : (chainsSeen (S.got s)).length ≤ 5) : DEvent.Ok d S (.deliver s i r) := by
  intro c pt k n _ _ h1 h2
  rw [recentChains_eq, lastN_of_le h] at h2
  exact absurd h1 h2

end Ex

/-- The hypotheses of C01 are met by this conversation. -/
theorem Ex.schedule_ok : duo.Ok (duo.start alice0 bob0 bundle (randomness 1)) schedule := by
  refine ⟨short_send (by decide), short_send (by decide), few_chains _ _ ?_, short_send (by decide), few_chains _ _ ?_, short_send (by decide), few_chains _ _ ?_, trivial⟩ <;> decide +kernel

theorem Ex.schedule_fresh : FreshKeys duo.C bundle (randomness 1) (schedule ++ [.deliver .bob 0 (randomness 6)]) := by
  unfold FreshKeys
  decide +kernel

theorem Ex.late_sent : (talked.sent Side.bob.other)[0]? = some (late, [1]) := by decide +kernel

theorem Ex.late_position : late.position = some (latePosition.1, latePosition.2) := by decide +kernel

theorem Ex.late_inWindow : InWindow (talked.got .bob) latePosition.1 latePosition.2 := by
  refine ⟨.inl ?_, ?_, ?_, ?_⟩ <;> decide +kernel

theorem Ex.schedule_length : schedule.length < 2 ^ 32 := by decide

/-- Bob reads the first message after the others. -/
example : (duo.receive .bob late (randomness 6) (talked.world .bob)).1 = .ok (some [1]) := by
  have h := C01_delivery duo alice0 bob0 bundle (randomness 1) strangers schedule .bob 0 (randomness 6) schedule_fresh schedule_ok schedule_length
    late [1] latePosition.1 latePosition.2
  have e : duo.run (duo.start alice0 bob0 bundle (randomness 1)) schedule = talked := rfl
  rw [e] at h
  exact h late_sent late_position late_inWindow

/-- Both chains of Alice's have been seen by then. -/
example : (chainsSeen (talked.got .bob)).length = 2 ∧ (talked.got .alice).length = 1 := by decide +kernel

/-! ## C53 -/

/-- **C53**, for every id but 0 (`Offers` asks for `id ≠ 0`). The first message that Alice sends from a bundle with a one-time
pre-key names that pre-key, and Bob decrypts it. Missing: the id 0, for which the property is false (`C53_id_zero_false`). -/
theorem C53_partial (d : Duo) (alice bob : World) (b : Bundle) (rand : Bytes) (h : d.Strangers alice bob b) (id : UInt32)
    (hid : b.preKeyID = some id) (pt r : Bytes) (hpt : pt.length < 2 ^ 62) (hf : FreshKeys d.C b rand [.deliver .bob 0 r]) :
    ∃ m, (encryptMessage (d.env .alice) (d.address .bob) pt { (d.start alice bob b rand).world .alice with faults := [] }).1 = .ok (.preKey m) ∧
      m.preKeyID = some id ∧ (d.receive .bob (.preKey m) r bob).1 = .ok (some pt) := by
  obtain ⟨_, base, o, L, lev, cnt, st, hinv⟩ := Duo.start_ok h hf
  obtain ⟨c, hc⟩ := hinv.canSend h.trusts .alice (by simp) pt
  obtain ⟨L', lev', cnt', st', hI⟩ := hinv.run h.trusts [.send .alice pt] [.deliver .bob 0 r] ⟨hpt, trivial⟩ (by simp)
  simp only [Side.other] at hc
  have hbob : (d.run (d.start alice bob b rand) [.send .alice pt]).world .bob = bob ∧
      (d.run (d.start alice bob b rand) [.send .alice pt]).sent .alice = [(c, pt)] ∧
      (d.run (d.start alice bob b rand) [.send .alice pt]).got .bob = [] := by
    simp only [Duo.run, List.foldl_cons, List.foldl_nil, Duo.step, Side.other, hc]
    refine ⟨?_, ?_, rfl⟩
    · rw [upd_ne _ _ (by decide)]; rfl
    · rw [upd_same]; rfl
  obtain ⟨hb1, hb2, hb3⟩ := hbob
  have hmem : (c, pt) ∈ (d.run (d.start alice bob b rand) [.send .alice pt]).sent .alice := by rw [hb2]; simp
  obtain ⟨m, rfl, hm, _⟩ := hI.names (by rw [hb1]; exact h.bobNew) hmem
  refine ⟨m, hc, by rw [hm, hid], ?_⟩
  obtain ⟨m', e, t, n, _, h2, h3, h4, h5, h6, h7, _, _, h10⟩ := hI.attempt h.trusts (s := .bob) hmem r
  have hw : InWindow ((d.run (d.start alice bob b rand) [.send .alice pt]).got .bob) m'.senderRatchetKey m'.counter := by
    have hz : m'.counter = 0 := by
      have := hI.small _ _ hmem _ _ h5
      exact UInt32.toNat_inj.mp (by simpa using this)
    rw [hb3]
    exact ⟨.inr (by simp [chainsSeen]), by simp, by simp [hz], by simp [newestUnder]⟩
  have := Inv.delivers h.trusts (F := []) hI (s := .bob) hmem h5 hw
  rw [hb1] at this
  exact this

/-- A concrete case: pre-key 5. -/
example : ∃ m, (encryptMessage (duo.env .alice) (duo.address .bob) [1, 2] { (duo.start alice0 bob0 bundle (randomness 1)).world .alice with faults := [] }).1 =
      .ok (.preKey m) ∧ m.preKeyID = some 5 ∧ (duo.receive .bob (.preKey m) (randomness 3) bob0).1 = .ok (some [1, 2]) :=
  C53_partial duo alice0 bob0 bundle (randomness 1) strangers 5 rfl [1, 2] (randomness 3) (by decide) (by unfold FreshKeys; decide +kernel)

/-- Bob's store when the one-time pre-key has the id 0. -/
def Ex.bobZero : World := { bob0 with preKeys := fun i => if i = 0 then some (PreKeyRec.new (pair 3)) else none }

def Ex.bundleZero : Bundle := { bundle with preKeyID := some 0 }

def Ex.firstZero : Ciphertext :=
  outMsg (encryptMessage copying bob [1, 2, 3] (processPreKeyBundle copying bob bundleZero alice0).2)

/-- **C53** is false for the id 0. Bob holds pre-key 0 and offers it in a correctly signed bundle; Alice accepts the bundle and
sends a message, which names no pre-key, and Bob cannot decrypt it. (SetUnacknowledgedPreKeyMessage stores 0 when there is no
pre-key, and UnacknowledgedPreKeyMessages takes 0 for none.) -/
theorem C53_id_zero_false :
    bobZero.preKeys 0 = some (PreKeyRec.new (pair 3)) ∧ bundleZero.preKeyID = some 0 ∧ bundleZero.preKeyPublic = some (pair 3).pub ∧
    (processPreKeyBundle copying bob bundleZero alice0).1 = .ok () ∧
    (∃ m, firstZero = .preKey m ∧ m.preKeyID = none) ∧
    ∀ p, (decryptMessage copying alice firstZero bobZero).1 ≠ .ok (some p) := by
  have h1 : (match firstZero with | .preKey m => some m.preKeyID | _ => none) = some none := by decide +kernel
  have h2 : (match (decryptMessage copying alice firstZero bobZero).1 with | .ok (some _) => true | _ => false) = false := by decide +kernel
  refine ⟨by decide +kernel, rfl, rfl, by decide +kernel, ?_, ?_⟩
  · split at h1
    · rename_i m hm
      simp only [Option.some.injEq] at h1
      exact ⟨m, hm, h1⟩
    · simp at h1
  · intro p hp
    rw [hp] at h2
    simp at h2

end Verif
