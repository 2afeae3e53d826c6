import Verif.Proofs.GroupDelivery
import Verif.Props.Group

/-!
# Delivery of group messages: C37
-/

namespace Verif

open Ex

/-- The invariant holds when the receiver has processed the distribution message. -/
theorem GSysInv.start {P : GPair} {ws wr : GWorld} (hs : GReachable ⟨P.C, P.senderAliased⟩ ws) (hr : GReachable ⟨P.C, P.receiverAliased⟩ wr)
    {d d' : DistributionMsg} (hd : (newSenderKeyDistribution P.C P.address P.dist ws).1 = .ok d)
    (hwire : newDistributionFromBytes d.serialized = .ok d') (hp : (processDistribution P.receiverAliased P.address d' wr).1 = .ok ())
    (hnew : ∀ g, wr.records (P.address, P.dist) = some g → ∀ s ∈ g, s.chainId ≠ d.chainID) (t N : Nat) :
    GSysInv P d.chainID d.signingKey { seed := d.chainKey, iteration := d.iteration } t N 0
      { sender := (newSenderKeyDistribution P.C P.address P.dist ws).2, receiver := (processDistribution P.receiverAliased P.address d' wr).2 } ∨
    ∃ st rest, (newSenderKeyDistribution P.C P.address P.dist ws).2.records (P.address, P.dist) = some (st :: rest) ∧ st.signingPrivate = [] := by
  -- the sender
  have hsender : ∃ st rest k, (newSenderKeyDistribution P.C P.address P.dist ws).2.records (P.address, P.dist) = some (st :: rest) ∧
      d = st.distribution P.dist k ∧ st.publicSigningKey = .ok k ∧ st.WF ∧ st.Own P.C := by
    have hown := hs.own
    have ho := newSenderKeyDistribution_outcome P.C P.address P.dist ws
    generalize newSenderKeyDistribution P.C P.address P.dist ws = x at ho hd ⊢
    obtain ⟨r, w'⟩ := x
    simp only at ho hd ⊢
    subst hd
    cases ho with
    | early r fs rd srd hr => simp at hr
    | existing fs s rest k h hk =>
      obtain ⟨h1, h2⟩ := hown _ _ h
      exact ⟨s, rest, k, h, rfl, hk, h1.states s (by simp), h2 s (by simp)⟩
    | created fs rd srd s k h hn hk =>
      refine ⟨s, [], k, upd_same .., rfl, hk, h.WF.states s (by simp), ?_⟩
      obtain ⟨cid, seed, kp, _, hl, hkp, _, he⟩ := h.shape
      simp only [List.cons.injEq, and_true] at he
      subst he
      exact fun _ => ⟨kp, hkp, rfl, rfl, rfl, hl⟩
  obtain ⟨st, rest, k, hrec, rfl, hk, hwf, hown⟩ := hsender
  by_cases hpriv : st.signingPrivate = []
  · exact .inr ⟨st, rest, hrec, hpriv⟩
  left
  obtain ⟨kp, h1, h2, h3, h4, h5⟩ := hown hpriv
  have hv : st.version.toUInt8 = 3 := by simp only [GState.version, h4]; decide
  have hkb : st.signingPublic = k.bytes := by
    obtain ⟨k', hk', hpk⟩ := hwf.publicKey
    rw [hk] at hpk
    simp only [Res.ok.injEq] at hpk
    rw [hpk]; exact hk'
  have hdd : d' = st.distribution P.dist k := by
    have := distribution_round_trip P.dist st.chainId st.chainKey.iteration st.chainKey.seed h5 k
    rw [← hv] at this
    have h0 : newDistributionFromBytes (st.distribution P.dist k).serialized = .ok (st.distribution P.dist k) := this
    rw [hwire] at h0
    simpa using h0
  subst hdd
  refine ⟨⟨st, rest, 0, hrec, Nat.le_refl _, rfl, rfl, hkb, hown⟩, by simp, ?_⟩
  -- the receiver
  have hwr := hr.WF
  have hst : GStep ⟨P.C, P.receiverAliased⟩ wr (.process P.address (st.distribution P.dist k)) (wr.records (P.address, P.dist)) _ := .proc
  have ho := processDistribution_outcome P.receiverAliased P.address (st.distribution P.dist k) wr
  generalize processDistribution P.receiverAliased P.address (st.distribution P.dist k) wr = x at ho hp ⊢
  obtain ⟨r, w'⟩ := x
  simp only at ho hp ⊢
  subst hp
  have hold : ((wr.records (P.address, P.dist)).getD []).WF := by
    cases hrc : wr.records (P.address, P.dist) with
    | none => exact .nil
    | some g => exact hwr _ g hrc
  cases ho with
  | done fs =>
    refine ⟨_, (st.distribution P.dist k).state, 0, upd_same .., hst.WF (hwr (P.address, P.dist)), ⟨?_, rfl, rfl⟩, ?_, ?_⟩
    · show DistributionMsg.state _ ∈ GRecord.added _ _ _
      rw [show (st.distribution P.dist k).distID = P.dist from rfl, hold.added_eq]
      refine List.mem_append_right _ ?_
      rcases hold.added_last (st.distribution P.dist k).state k rfl with ⟨u, hu, _⟩ | ⟨_, he⟩
      · exfalso
        cases hrc : wr.records (P.address, P.dist) with
        | none => rw [hrc] at hu; simp [GRecord.Holds] at hu
        | some g =>
          rw [hrc] at hu
          exact hnew g hrc u hu.1 hu.2.1
      · rw [List.mem_singleton]
        exact he.symm
    · show UInt8.toUInt32 st.version.toUInt8 = 3
      rw [hv]; decide
    · exact ⟨rfl, Nat.zero_le _, by simp [DistributionMsg.state, newGroupState], by simp [DistributionMsg.state, newGroupState], by simp,
        .inl rfl, fun h => absurd h (Nat.not_lt_zero _)⟩

/-- C37: a sender calls NewSenderKeyDistribution (at any time in its life); a receiver that does not know the chain yet
parses and processes the result. Then, after any schedule of sends (which may hit store failures), deliveries (reordered,
repeated, lost), messages from others and calls for other groups, the bytes of a message sent are decrypted to exactly its plaintext, if

* it has not been accepted before,
* it is at most 25000 ahead of the next iteration the receiver expects, and
* at every point of the schedule, fewer than 2000 newer messages were still outstanding (`outstanding`).

For both kinds of store on either side. The bound on the number of sends says that the 32-bit iteration does not
wrap. -/
theorem C37_delivery (P : GPair) (ws wr : GWorld) (hs : GReachable ⟨P.C, P.senderAliased⟩ ws) (hr : GReachable ⟨P.C, P.receiverAliased⟩ wr)
    (d d' : DistributionMsg) (hd : (newSenderKeyDistribution P.C P.address P.dist ws).1 = .ok d)
    (hwire : newDistributionFromBytes d.serialized = .ok d') (hp : (processDistribution P.receiverAliased P.address d' wr).1 = .ok ())
    (hnew : ∀ g, wr.records (P.address, P.dist) = some g → ∀ s ∈ g, s.chainId ≠ d.chainID)
    (es : List GEvent) (hes : ∀ e ∈ es, e.Ok P d.chainID d.signingKey) (hlen : d.iteration.toNat + sends es < 2 ^ 32) :
    let s0 : GSys := { sender := (newSenderKeyDistribution P.C P.address P.dist ws).2, receiver := (processDistribution P.receiverAliased P.address d' wr).2 }
    let s := P.run s0 es
    ∀ (i : Nat) (m : SenderKeyMsg) (pt : Bytes), s.sent[i]? = some (m, pt) →
      m.iteration.toNat ∉ s.accepted →
      m.iteration.toNat ≤ nextIteration d.iteration.toNat s.accepted + 25000 →
      (∀ n, outstanding (P.run s0 (es.take n)).accepted m.iteration.toNat < 2000) →
      (P.receive m.serialized s.receiver).1 = .ok pt := by
  intro s0 s i m pt hi hacc hjump hout
  have hN : (SKChainKey.mk d.chainKey d.iteration).iteration.toNat + sends es < 2 ^ 32 := hlen
  rcases GSysInv.start hs hr hd hwire hp hnew (sends es) (sends es) with hinv | hno
  rotate_left
  · have : s.sent = [] := keyless_sends_nothing es s0 hno rfl
    rw [this] at hi
    simp at hi
  -- the place of the message in the chain
  have h1 := hinv.run hN es hes (by omega) (fun h => absurd h (Nat.lt_irrefl _))
  obtain ⟨n, hn⟩ := h1.sent _ (List.mem_of_getElem? hi)
  simp only at hn
  have hmn : m.iteration.toNat = d.iteration.toNat + n := by
    rw [hn.iteration]; exact skIter_toNat P.C _ n (by have := hn.lt; simp only; omega)
  -- its key is kept
  rcases GSysInv.start hs hr hd hwire hp hnew n (sends es) with hinv | hno
  rotate_left
  · have : s.sent = [] := keyless_sends_nothing es s0 hno rfl
    rw [this] at hi
    simp at hi
  have h2 := hinv.run hN es hes (by omega) (fun _ j => by simp only; rw [← hmn]; exact hout j)
  rw [GPair.receive_eq hn.parses]
  have hrc : GReceiver P.C { s.receiver with faults := [] } (P.address, P.dist) d.chainID d.signingKey ⟨d.chainKey, d.iteration⟩ s.accepted n (sends es) := h2.receiver
  rcases hrc.deliver (al := P.receiverAliased) hN hn rfl with ⟨hok, _⟩ | ⟨e, her, hwhy⟩
  · exact hok
  · rcases hwhy rfl with h | h
    · exact absurd (hmn ▸ h) hacc
    · simp only at h; omega

/-- C37, exactness: whatever the schedule, and inside the window or not, the bytes of a message sent are never decrypted to
anything but its plaintext, and a rejected delivery changes nothing. -/
theorem C37_exact (P : GPair) (ws wr : GWorld) (hs : GReachable ⟨P.C, P.senderAliased⟩ ws) (hr : GReachable ⟨P.C, P.receiverAliased⟩ wr)
    (d d' : DistributionMsg) (hd : (newSenderKeyDistribution P.C P.address P.dist ws).1 = .ok d)
    (hwire : newDistributionFromBytes d.serialized = .ok d') (hp : (processDistribution P.receiverAliased P.address d' wr).1 = .ok ())
    (hnew : ∀ g, wr.records (P.address, P.dist) = some g → ∀ s ∈ g, s.chainId ≠ d.chainID)
    (es : List GEvent) (hes : ∀ e ∈ es, e.Ok P d.chainID d.signingKey) (hlen : d.iteration.toNat + sends es < 2 ^ 32) :
    let s := P.run { sender := (newSenderKeyDistribution P.C P.address P.dist ws).2, receiver := (processDistribution P.receiverAliased P.address d' wr).2 } es
    ∀ (i : Nat) (m : SenderKeyMsg) (pt : Bytes), s.sent[i]? = some (m, pt) →
      (P.receive m.serialized s.receiver).1 = .ok pt ∨
      ((P.receive m.serialized s.receiver).1.Bad ∧ (P.receive m.serialized s.receiver).2.records = s.receiver.records) := by
  intro s i m pt hi
  have hN : (SKChainKey.mk d.chainKey d.iteration).iteration.toNat + sends es < 2 ^ 32 := hlen
  rcases GSysInv.start hs hr hd hwire hp hnew (sends es) (sends es) with hinv | hno
  rotate_left
  · have : s.sent = [] := keyless_sends_nothing es _ hno rfl
    rw [this] at hi
    simp at hi
  have h1 := hinv.run hN es hes (by omega) (fun h => absurd h (Nat.lt_irrefl _))
  obtain ⟨n, hn⟩ := h1.sent _ (List.mem_of_getElem? hi)
  simp only at hn
  rw [GPair.receive_eq hn.parses]
  have hrc : GReceiver P.C { s.receiver with faults := [] } (P.address, P.dist) d.chainID d.signingKey ⟨d.chainKey, d.iteration⟩ s.accepted (sends es) (sends es) := h1.receiver
  rcases hrc.deliver (al := P.receiverAliased) hN hn rfl with ⟨hok, _⟩ | ⟨e, her, _⟩
  · exact .inl hok
  · exact .inr (by rw [her]; exact ⟨by simp, rfl⟩)

/-- C37, the distribution message of a key that the user created always survives the wire. -/
theorem C37_distribution_arrives (E : GEnv) (w : GWorld) (a : Address) (dist : DistId) (hn : w.records (a, dist) = none)
    (d : DistributionMsg) (hd : (newSenderKeyDistribution E.C a dist w).1 = .ok d) : newDistributionFromBytes d.serialized = .ok d := by
  have ho := newSenderKeyDistribution_outcome E.C a dist w
  generalize newSenderKeyDistribution E.C a dist w = x at ho hd
  obtain ⟨r, w'⟩ := x
  simp only at ho hd
  subst hd
  cases ho with
  | early r fs rd srd hr => simp at hr
  | existing fs s rest k h hk => rw [hn] at h; simp at h
  | created fs rd srd s k h _ hk =>
    obtain ⟨cid, seed, kp, _, hl, hkp, _, he⟩ := h.shape
    simp only [List.cons.injEq, and_true] at he
    subst he
    exact distribution_round_trip dist cid 0 seed hl k

/-- The example: Alice sends three messages, Bob gets the third, a forged one, and the first; the hypotheses for the second
are met, with one other message delivered twice. -/
def Ex.gpair : GPair := ⟨toy, false, true, alice, dist⟩

def Ex.gevents : List GEvent :=
  [.send [1, 2, 3] (randomness 3) [], .send [4] (randomness 3) [], .send [5, 5] (randomness 3) [], .deliver 2,
   .foreign { g1 with serialized := g1.serialized.map (· + 1) } [], .deliver 0, .deliver 0]

def Ex.gsys0 : GSys := { sender := galice1, receiver := (processDistribution true alice d1 group0).2 }

example : (newSenderKeyDistribution gpair.C alice dist group0).1 = .ok d1 ∧ newDistributionFromBytes d1.serialized = .ok d1 ∧
    (processDistribution true alice d1 group0).1 = .ok () := by decide +kernel

example : ∀ e ∈ gevents, e.Ok gpair d1.chainID d1.signingKey := by
  intro e he
  simp only [gevents, List.mem_cons, List.not_mem_nil, or_false] at he
  rcases he with rfl | rfl | rfl | rfl | rfl | rfl | rfl
  · simp [GEvent.Ok]
  · simp [GEvent.Ok]
  · simp [GEvent.Ok]
  · trivial
  · intro _ _
    have : ({ g1 with serialized := g1.serialized.map (· + 1) } : SenderKeyMsg).verifySignature toy d1.signingKey ≠ .ok true := by decide +kernel
    exact this
  · trivial
  · trivial

example : (gpair.run gsys0 gevents).accepted = [0, 2] ∧ (gpair.run gsys0 gevents).sent.map (fun x => (x.1.iteration, x.2)) = [(0, [1, 2, 3]), (1, [4]), (2, [5, 5])] ∧
    (∀ n, n < 8 → outstanding (gpair.run gsys0 (gevents.take n)).accepted 1 = 0) ∧
    (gpair.receive g2.serialized (gpair.run gsys0 gevents).receiver).1 = .ok [4] := by
  refine ⟨by decide +kernel, by decide +kernel, by decide +kernel, by decide +kernel⟩

end Verif
