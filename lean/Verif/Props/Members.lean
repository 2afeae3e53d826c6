import Verif.Proofs.Members

/-!
# A sender key handed over in pairwise sessions, and a group of several members: C103
-/

namespace Verif

open Ex

/-- **C103.** The sender makes a distribution message and sends its bytes to every member in a pairwise session; the session
may be old or new, its messages may have been lost, reordered or repeated, and either user may have started it. Then every
member's DecryptMessage returns those bytes, they parse, and what they parse to is the distribution message. -/
theorem C103_sender_key_arrives {ι : Type} (P : GMembers ι) (ws : GWorld) (hs : GReachable ⟨P.C, P.senderAliased⟩ ws)
    (hown : ∀ s rest, ws.records (P.address, P.dist) = some (s :: rest) → s.signingPrivate ≠ [])
    (d : DistributionMsg) (hd : (newSenderKeyDistribution P.C P.address P.dist ws).1 = .ok d)
    (H : ι → Handover) (hH : ∀ r, (H r).Carries d.serialized) (r : ι) :
    (H r).received = .ok (some d.serialized) ∧ newDistributionFromBytes d.serialized = .ok d := by
  refine ⟨?_, distribution_arrives hs hown hd⟩
  have h := hH r
  have := C01_delivery (H r).duo (H r).alice (H r).bob (H r).bundle (H r).rand h.strangers (H r).before (H r).side.other (H r).index
    (H r).deliveryRand h.fresh h.ok h.short (H r).message d.serialized (H r).position.1 (H r).position.2
  have ho : (H r).side.other.other = (H r).side := by cases (H r).side <;> rfl
  rw [ho] at this
  exact this h.sent h.position_eq h.window

/-- **C103.** Then every member accepts the sender key from the plaintext it got, and from there on one ciphertext serves all:
whatever the network does with the group messages on the way to each member, and whatever else arrives, every member reads
every message inside its own windows, and reads what the sender encrypted. -/
theorem C103_group_delivery {ι : Type} [DecidableEq ι] (P : GMembers ι) (ws : GWorld) (hs : GReachable ⟨P.C, P.senderAliased⟩ ws)
    (hown : ∀ s rest, ws.records (P.address, P.dist) = some (s :: rest) → s.signingPrivate ≠ [])
    (d : DistributionMsg) (hd : (newSenderKeyDistribution P.C P.address P.dist ws).1 = .ok d)
    (H : ι → Handover) (hH : ∀ r, (H r).Carries d.serialized)
    (wr : ι → GWorld) (hr : ∀ r, GReachable ⟨P.C, P.memberAliased r⟩ (wr r))
    (hnew : ∀ r g, (wr r).records (P.address, P.dist) = some g → ∀ s ∈ g, s.chainId ≠ d.chainID)
    (plaintext : ι → Bytes) (hp : ∀ r, (H r).received = .ok (some (plaintext r))) :
    (∀ r, (P.accept r (plaintext r) (wr r)).1 = .ok ()) ∧
    ∀ (es : List (GMEvent ι)), (∀ e ∈ es, e.Ok P d.chainID d.signingKey) → d.iteration.toNat + GMEvent.sends es < 2 ^ 32 →
      let s0 : GMSys ι := { sender := (newSenderKeyDistribution P.C P.address P.dist ws).2, member := fun r => (P.accept r (plaintext r) (wr r)).2 }
      let s := P.run s0 es
      ∀ (i : Nat) (m : SenderKeyMsg) (pt : Bytes), s.sent[i]? = some (m, pt) →
        ∀ r, m.iteration.toNat ∉ s.accepted r →
          m.iteration.toNat ≤ nextIteration d.iteration.toNat (s.accepted r) + 25000 →
          (∀ n, outstanding ((P.run s0 (es.take n)).accepted r) m.iteration.toNat < 2000) →
          (P.receive r m.serialized (s.member r)).1 = .ok pt := by
  have hpt : ∀ r, plaintext r = d.serialized := by
    intro r
    have := (C103_sender_key_arrives P ws hs hown d hd H hH r).1
    rw [hp r] at this
    simpa using this
  have hw := distribution_arrives hs hown hd
  have hacc : ∀ r, P.accept r (plaintext r) (wr r) = processDistribution (P.memberAliased r) P.address d { wr r with faults := [] } := by
    intro r
    rw [hpt r]
    simp only [GMembers.accept, hw]
  refine ⟨fun r => by rw [hacc r]; exact processDistribution_ok _ _ _ _ rfl, ?_⟩
  intro es hes hlen s0 s i m pt hi r h1 h2 h3
  have hv : ∀ es', (P.run s0 es').view r = (P.pair r).run (s0.view r) (es'.filterMap (GMEvent.view r)) := fun es' => P.run_view r es' s0
  have h := C37_delivery (P.pair r) ws { wr r with faults := [] } hs (hr r).noFaults d d hd hw
    (processDistribution_ok _ _ _ _ rfl) (hnew r) (es.filterMap (GMEvent.view r)) (ok_view hes r) (by rw [sends_view]; exact hlen)
  have hs0 : s0.view r = { sender := (newSenderKeyDistribution P.C P.address P.dist ws).2, receiver := (processDistribution (P.memberAliased r) P.address d { wr r with faults := [] }).2 } := by
    show (⟨_, (P.accept r (plaintext r) (wr r)).2, _, _⟩ : GSys) = _
    rw [hacc r]
  have hgoal : (P.receive r m.serialized (s.member r)) = (P.pair r).receive m.serialized ((P.run s0 es).view r).receiver := rfl
  rw [hgoal, hv es, hs0]
  refine h i m pt ?_ ?_ ?_ ?_
  · have : ((P.run s0 es).view r).sent[i]? = some (m, pt) := hi
    rw [hv es, hs0] at this
    exact this
  · have : m.iteration.toNat ∉ ((P.run s0 es).view r).accepted := h1
    rw [hv es, hs0] at this
    exact this
  · have : m.iteration.toNat ≤ nextIteration d.iteration.toNat ((P.run s0 es).view r).accepted + 25000 := h2
    rw [hv es, hs0] at this
    exact this
  · intro n
    obtain ⟨k, hk⟩ := take_filterMap (GMEvent.view r) es n
    have : outstanding ((P.run s0 (es.take k)).view r).accepted m.iteration.toNat < 2000 := h3 k
    rw [hv (es.take k), hs0, ← hk] at this
    exact this

/-! ### A group with two members that meets the hypotheses

Alice is the sender. Alice has started the session with the first member, and the second member the one with Alice. -/

namespace Ex

def memberTwo : Address := ⟨[99], 1⟩

/-- The pairwise session that Carol started with Alice (who plays the part of Bob in it). -/
def duo2 : Duo :=
  { C := toy, aliased := fun _ => true, trusted := fun _ => tofu, address := fun | .alice => memberTwo | .bob => alice }

theorem strangers2 : duo2.Strangers alice0 bob0 bundle := by
  have htofu : ∀ (known : Address → Option PubKey) (a : Address) (k : PubKey) (dir : Direction), known a = none ∨ known a = some k → tofu known a k dir = true := by
    intro known a k dir h
    rcases h with h | h <;> simp [tofu, h]
  refine ⟨rfl, rfl, rfl, ⟨⟨rfl, rfl⟩, ⟨pair 4, rfl, rfl, rfl⟩, by decide +kernel, .inr ⟨5, pair 3, by decide, rfl, rfl, rfl, rfl⟩⟩,
    ⟨.inl rfl, fun known dir h => htofu known _ _ dir h⟩, ⟨.inl rfl, fun known dir h => htofu known _ _ dir h⟩⟩

/-- A pairwise message is lost, then the sender key is sent, then another message arrives before it. -/
def before1 : List DEvent := [.send .alice [1], .send .alice d1.serialized, .send .alice [2], .deliver .bob 2 (randomness 3)]

/-- Carol writes first; then Alice answers with the sender key. -/
def before2 : List DEvent := [.send .alice [7], .deliver .bob 0 (randomness 3), .send .bob d1.serialized]

def sentAt (S : DSys) (s : Side) (i : Nat) : Ciphertext := (((S.sent s)[i]?).map (·.1)).getD noMessage

def members : GMembers Bool := ⟨toy, false, fun r => r, alice, dist⟩

def handover : Bool → Handover
  | false =>
    let m := sentAt (duo.run (duo.start alice0 bob0 bundle (randomness 1)) before1) .alice 1
    ⟨duo, .alice, alice0, bob0, bundle, randomness 1, before1, 1, m, m.position.getD ((pair 1).pub, 0), randomness 6⟩
  | true =>
    let m := sentAt (duo2.run (duo2.start alice0 bob0 bundle (randomness 1)) before2) .bob 0
    ⟨duo2, .bob, alice0, bob0, bundle, randomness 1, before2, 0, m, m.position.getD ((pair 1).pub, 0), randomness 6⟩

theorem key_send {d : Duo} {S : DSys} {s : Side} : DEvent.Ok d S (.send s d1.serialized) := by
  have h : d1.serialized.length ≤ 1000 := by decide +kernel
  show d1.serialized.length < 2 ^ 62
  omega

theorem handover_carries1 : (handover false).Carries d1.serialized where
  strangers := strangers
  fresh := by unfold FreshKeys; decide +kernel
  ok := by
    refine ⟨short_send (by decide), key_send, short_send (by decide), few_chains _ _ ?_, trivial⟩
    decide +kernel
  short := by decide
  sent := by decide +kernel
  position_eq := by decide +kernel
  window := by refine ⟨.inl ?_, ?_, ?_, ?_⟩ <;> decide +kernel

theorem handover_carries2 : (handover true).Carries d1.serialized where
  strangers := strangers2
  fresh := by unfold FreshKeys; decide +kernel
  ok := by
    refine ⟨short_send (by decide), few_chains _ _ ?_, key_send, trivial⟩
    decide +kernel
  short := by decide
  sent := by decide +kernel
  position_eq := by decide +kernel
  window := by refine ⟨.inr ?_, ?_, ?_, ?_⟩ <;> decide +kernel

theorem group0_reachable (E : GEnv) : GReachable E group0 := ⟨group0, [], _, _, _, fun _ => rfl, rfl⟩

end Ex

/-- Both members get the sender key. -/
example : ∀ r, (handover r).received = .ok (some d1.serialized) :=
  fun r => (C103_sender_key_arrives members group0 (group0_reachable _) (by intro s rest h; cases h) d1 (by decide +kernel) handover
    (fun r => by cases r; exact handover_carries1; exact handover_carries2) r).1

/-- Both read the second group message, which one of them gets after the third and the other not at all before. -/
def Ex.mevents : List (GMEvent Bool) :=
  [.send [1, 2, 3] (randomness 3) [], .send [4] (randomness 3) [], .send [5, 5] (randomness 3) [], .deliver true 2, .deliver true 0,
   .deliver false 0, .deliver false 0]

def Ex.mstart : GMSys Bool :=
  { sender := galice1, member := fun r => (members.accept r d1.serialized group0).2 }

example : ((members.run mstart mevents).sent.map fun x => (x.1.iteration, x.2)) = [(0, [1, 2, 3]), (1, [4]), (2, [5, 5])] ∧
    (members.run mstart mevents).accepted true = [0, 2] ∧ (members.run mstart mevents).accepted false = [0] ∧
    (members.receive true g2.serialized ((members.run mstart mevents).member true)).1 = .ok [4] ∧
    (members.receive false g2.serialized ((members.run mstart mevents).member false)).1 = .ok [4] := by
  refine ⟨by decide +kernel, by decide +kernel, by decide +kernel, by decide +kernel, by decide +kernel⟩

example : ∀ e ∈ mevents, e.Ok members d1.chainID d1.signingKey := by
  intro e he
  simp only [mevents, List.mem_cons, List.not_mem_nil, or_false] at he
  rcases he with rfl | rfl | rfl | rfl | rfl | rfl | rfl <;> simp [GMEvent.Ok]

end Verif
