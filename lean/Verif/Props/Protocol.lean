import Verif.Proofs.Conformity
import Verif.Props.Delivery
import Verif.Proofs.GroupWire
import Verif.Proofs.FingerprintDoc
import Verif.Spec.GroupExample

/-!
# The bytes on the wire are those the protocol prescribes: C60
-/

namespace Verif

open Ex

/-! ## C60 -/

/-- What Alice and Bob agree on when Alice processes this bundle with this base key. -/
def planFor (C : Crypto) (alice bob : World) (b : Bundle) (base : KeyPair) : Plan :=
  { start := Doc.x3dh C alice.identity base b.identityKey b.signedPreKeyPublic b.preKeyPublic
    registration := alice.regId
    oneTime := b.preKeyID
    signed := b.signedPreKeyID
    base := base.pub
    identity := fun
      | .alice => alice.identity.pub
      | .bob => bob.identity.pub }

/-- **C60.** Alice processes Bob's bundle; then any schedule of sends and deliveries follows, in both directions, with messages
lost, reordered and repeated. There is one sequence of ratchet keys - Bob's signed pre-key, the key Alice made for the set-up, and
then one for every delivery that takes a side to its next turn, made of the randomness of that delivery, all different - such that
every message either side ever sends has exactly the bytes prescribed by X3DH and the Double Ratchet (`Plan.wire`). -/
theorem C60_wire (d : Duo) (alice bob : World) (b : Bundle) (rand : Bytes) (h : d.Strangers alice bob b)
    (es : List DEvent) (hf : FreshKeys d.C b rand es) (hok : d.Ok (d.start alice bob b rand) es) (hlen : es.length < 2 ^ 32) :
    ∃ (base : KeyPair) (keys : Nat → KeyPair),
      (generateKeyPair d.C rand).1 = .ok base ∧
      bob.signedPreKeys b.signedPreKeyID = some (PreKeyRec.new (keys 0)) ∧
      (generateKeyPair d.C (rand.drop 32)).1 = .ok (keys 1) ∧
      (∀ pre s i r post, es = pre ++ .deliver s i r :: post →
        turn (d.run (d.start alice bob b rand) (pre ++ [.deliver s i r])) s ≠ turn (d.run (d.start alice bob b rand) pre) s →
        (generateKeyPair d.C r).1 = .ok (keys (turn (d.run (d.start alice bob b rand) (pre ++ [.deliver s i r])) s))) ∧
      (∀ i j, (∃ s, i ≤ turn (d.run (d.start alice bob b rand) es) s) → (∃ s, j ≤ turn (d.run (d.start alice bob b rand) es) s) →
        (keys i).pub = (keys j).pub → i = j) ∧
      ∀ pre s pt post c, es = pre ++ .send s pt :: post →
        (encryptMessage (d.env s) (d.address s.other) pt { (d.run (d.start alice bob b rand) pre).world s with faults := [] }).1 = .ok c →
        c.wire = some ((planFor d.C alice bob b base).wire d.C keys (d.run (d.start alice bob b rand) pre) s pt) := by
  obtain ⟨_, base, o, L, lev, cnt, st, hinv, ⟨bk, b1, b2, b3⟩, b4, b5, b6, b7⟩ := Duo.begins h hf
  obtain ⟨L', lev', cnt', st', i1, i2, i3, i4, i5⟩ := hinv.conforms h.trusts es hok (by omega) (fun s => by simp [Duo.start])
  refine ⟨bk, fun j => (L' j).kp, b1, ?_, ?_, i4, ?_, ?_⟩
  · rw [b4, ← i1.book.first]
  · rw [b5, ← i1.book.second.1]
  · rintro i j ⟨s, hi⟩ ⟨u, hj⟩ hk
    rw [i1.turn_eq] at hi hj
    have h1 := i1.top s
    have h2 := i1.top u
    exact i1.lad.distinct i j (by omega) (by omega) hk
  · intro pre s pt post c he hc
    rw [i5 pre s pt post c he hc]
    have : planOf (identOf alice bob) b base o = planFor d.C alice bob b bk := by
      unfold planOf planFor
      rw [b3, b2, b6]
      congr 1
    rw [this]

/-- The conversation of `Props.Delivery` meets the hypotheses. Its fourth send is Alice's third message, with Alice's second ratchet
key (number 3); two messages were sent with the first. -/
example : FreshKeys duo.C bundle (randomness 1) schedule ∧ duo.Ok (duo.start alice0 bob0 bundle (randomness 1)) schedule ∧
    (schedule.take 5 ++ .send .alice [3] :: [.deliver .bob 2 (randomness 5)] = schedule) ∧
    turn (duo.run (duo.start alice0 bob0 bundle (randomness 1)) (schedule.take 5)) .alice = 3 ∧
    turn (duo.run (duo.start alice0 bob0 bundle (randomness 1)) (schedule.take 3)) .bob = 2 ∧
    turn (duo.run (duo.start alice0 bob0 bundle (randomness 1)) schedule) .bob = 4 ∧
    ((duo.run (duo.start alice0 bob0 bundle (randomness 1)) (schedule.take 5)).sent .alice).length = 2 := by
  refine ⟨by unfold FreshKeys; decide +kernel, schedule_ok, rfl, ?_, ?_, ?_, ?_⟩ <;> decide +kernel

/-! ## C61 -/

/-- **C61.** Any history of calls, for this and other groups, with any pattern of store failures, starting before the first call for
this group (`a` in group `dist`). There is one chain (chain id, first chain key, signing key), made of the randomness of one
`NewSenderKeyDistribution` call, such that every message `EncryptMessage` returns for the group and every message
`NewSenderKeyDistribution` returns for it has exactly the prescribed bytes for its position in that chain. -/
theorem C61_group_wire (E : GEnv) (w : GWorld) (a : Address) (dist : DistId) (cs : List GCall) (h : w.records (a, dist) = none)
    (hc : ∀ c ∈ cs, c.Sends (a, dist)) (hn : (cs.map (GCall.reach (a, dist))).sum < 2 ^ 32)
    (hsome : ∃ o ∈ (runGCalls E cs w).1, (∃ m, o = .ciphertext a dist m) ∨ (∃ d, o = .distribution a dist d)) :
    ∃ (cid : UInt32) (first : Bytes) (signing : KeyPair), (∃ c ∈ cs, c.Creates E.C (a, dist) cid first signing) ∧
      (∀ (i : Nat) (c : GCall) (m : SenderKeyMsg), cs[i]? = some c → (runGCalls E cs w).1[i]? = some (.ciphertext a dist m) →
        ∃ pt, c.op = .encrypt a dist pt ∧ m.serialized = Doc.groupMessage E.C dist cid first signing m.iteration pt (c.rand.take 64)) ∧
      (∀ (i : Nat) (d : DistributionMsg), (runGCalls E cs w).1[i]? = some (.distribution a dist d) →
        d.serialized = Doc.distributionMessage E.C dist cid first signing.pub d.iteration) := by
  rcases GMine.history (E := E) cs h hc hn with hno | ⟨cid, first, signing, hcr, hq⟩
  · obtain ⟨o, ho, ⟨m, rfl⟩ | ⟨d, rfl⟩⟩ := hsome
    · exact absurd rfl ((hno _ ho).1 m)
    · exact absurd rfl ((hno _ ho).2 d)
  · refine ⟨cid, first, signing, hcr, fun i c m hci ho => ?_, fun i d ho => ?_⟩
    · obtain ⟨n, _, ⟨h1, _⟩, _⟩ := hq i c _ hci ho
      obtain ⟨pt, e1, e2, e3⟩ := h1 m rfl
      exact ⟨pt, e1, by rw [e2]; exact e3⟩
    · have hi : i < cs.length := by
        have := (List.getElem?_eq_some_iff.mp ho).1
        rwa [runGCalls_length] at this
      obtain ⟨n, _, ⟨_, h2⟩, _⟩ := hq i cs[i] _ (List.getElem?_eq_getElem hi) ho
      obtain ⟨e1, e2⟩ := h2 d rfl
      rw [e1]; exact e2

/-- **C61.** Without store failures, and when the sender does not decrypt their own messages, the iteration of a message is the number
of messages sent to the group before it, and a distribution message starts at the next message. -/
theorem C61_group_numbers (E : GEnv) (w : GWorld) (a : Address) (dist : DistId) (cs : List GCall) (h : w.records (a, dist) = none)
    (hc : ∀ c ∈ cs, c.Sends (a, dist)) (hn : (cs.map (GCall.reach (a, dist))).sum < 2 ^ 32)
    (hf : ∀ c ∈ cs, c.faults = [] ∧ ∀ s m, c.op = .decrypt s m → c.op.key ≠ (a, dist)) (i : Nat) :
    (∀ m, (runGCalls E cs w).1[i]? = some (.ciphertext a dist m) →
      m.iteration.toNat = (sentIterations (a, dist) ((runGCalls E cs w).1.take i)).length) ∧
    (∀ d, (runGCalls E cs w).1[i]? = some (.distribution a dist d) →
      d.iteration.toNat = (sentIterations (a, dist) ((runGCalls E cs w).1.take i)).length) := by
  have key : ∀ o, (runGCalls E cs w).1[i]? = some o → ((∃ m, o = .ciphertext a dist m) ∨ (∃ d, o = .distribution a dist d)) →
      ∃ c cid first signing, o.Conforms E.C (a, dist) cid first signing (sentIterations (a, dist) ((runGCalls E cs w).1.take i)).length c ∧
        (sentIterations (a, dist) ((runGCalls E cs w).1.take i)).length < 2 ^ 32 := by
    intro o ho hsome
    rcases GMine.history (E := E) cs h hc hn with hno | ⟨cid, first, signing, hcr, hq⟩
    · obtain ⟨m, rfl⟩ | ⟨d, rfl⟩ := hsome
      · exact absurd rfl ((hno _ (List.mem_of_getElem? ho)).1 m)
      · exact absurd rfl ((hno _ (List.mem_of_getElem? ho)).2 d)
    · have hi : i < cs.length := by
        have := (List.getElem?_eq_some_iff.mp ho).1
        rwa [runGCalls_length] at this
      obtain ⟨n, h1, h2, h3⟩ := hq i cs[i] _ (List.getElem?_eq_getElem hi) ho
      have := h3 hf
      subst this
      exact ⟨cs[i], cid, first, signing, h2, h1⟩
  refine ⟨fun m ho => ?_, fun d ho => ?_⟩
  · obtain ⟨c, cid, first, signing, ⟨h1, _⟩, hlt⟩ := key _ ho (.inl ⟨m, rfl⟩)
    obtain ⟨pt, _, e, _⟩ := h1 m rfl
    rw [e, UInt32.toNat_ofNat']
    omega
  · obtain ⟨c, cid, first, signing, ⟨_, h2⟩, hlt⟩ := key _ ho (.inr ⟨d, rfl⟩)
    rw [(h2 d rfl).1, UInt32.toNat_ofNat']
    omega

/-- Alice's key, two messages, the key again (from message 2 on), and another message. -/
def groupCalls : List GCall :=
  [⟨.distribute alice dist, randomness 1, randomness 9, []⟩, ⟨.encrypt alice dist [1, 2, 3], randomness 3, [], []⟩,
    ⟨.encrypt alice dist [4], randomness 4, [], []⟩, ⟨.distribute alice dist, [], [], []⟩, ⟨.encrypt alice dist [5, 5], randomness 5, [], []⟩]

example : group0.records (alice, dist) = none ∧ (∀ c ∈ groupCalls, c.Sends (alice, dist)) ∧
    (groupCalls.map (GCall.reach (alice, dist))).sum = 3 ∧
    (sentIterations (alice, dist) (runGCalls gCopying groupCalls group0).1).map UInt32.toNat = [0, 1, 2] ∧
    (∃ d, (runGCalls gCopying groupCalls group0).1[3]? = some (.distribution alice dist d) ∧ d.iteration = 2) ∧
    (∀ c ∈ groupCalls, c.faults = [] ∧ ∀ s m, c.op = .decrypt s m → c.op.key ≠ (alice, dist)) := by
  refine ⟨rfl, ?_, by decide +kernel, by decide +kernel, ?_, ?_⟩
  · intro c hc
    simp only [groupCalls, List.mem_cons, List.not_mem_nil, or_false] at hc
    rcases hc with rfl | rfl | rfl | rfl | rfl <;> refine ⟨fun a d e => ?_, fun a d pt e => ?_⟩ <;> simp at e
    all_goals (obtain ⟨_, _, rfl⟩ := e; decide)
  · have : (match (runGCalls gCopying groupCalls group0).1[3]? with
        | some (GOut.distribution a d m) => decide (a = alice ∧ d = dist ∧ m.iteration = 2)
        | _ => false) = true := by decide +kernel
    revert this
    generalize (runGCalls gCopying groupCalls group0).1[3]? = o
    intro this
    cases o with
    | none => simp at this
    | some o =>
      cases o with
      | distribution a d m =>
        simp only [decide_eq_true_eq] at this
        obtain ⟨rfl, rfl, h⟩ := this
        exact ⟨m, rfl, h⟩
      | _ => simp at this
  · intro c hc
    simp only [groupCalls, List.mem_cons, List.not_mem_nil, or_false] at hc
    rcases hc with rfl | rfl | rfl | rfl | rfl <;> exact ⟨rfl, fun s m e => by simp at e⟩

/-! ## C62 -/

/-- **C62.** A safety number is computed as prescribed: the displayed text is the two 30-digit texts, the smaller one first, and the
scannable code is the protobuf message with the version and the first 32 bytes of each hash. -/
theorem C62_fingerprint_conforms (C : Crypto) (version iterations : UInt32) (localID remoteID : Bytes) (localKey remoteKey : PubKey) (f : Fingerprint)
    (h : newFingerprint C version iterations localID localKey remoteID remoteKey = .ok f) :
    f.displayable.string = Doc.displayed (Doc.fingerprint C localKey localID iterations.toNat) (Doc.fingerprint C remoteKey remoteID iterations.toNat) ∧
    f.scannable.bytes = Doc.scanned version (Doc.fingerprint C localKey localID iterations.toNat) (Doc.fingerprint C remoteKey remoteID iterations.toNat) := by
  exact Doc.newFingerprint_conforms h

example : ∃ f, newFingerprint toy 2 5 [1, 2, 3] (pair 1).pub [9] (pair 2).pub = .ok f := by
  obtain ⟨fl, fr, el, er, _, _, _, _, _, _, h⟩ := newFingerprint_ok toy 2 5 [1, 2, 3] (pair 1).pub [9] (pair 2).pub (by decide)
  exact ⟨_, h⟩

end Verif
