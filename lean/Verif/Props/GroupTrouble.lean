import Verif.Proofs.GroupTrouble
import Verif.Props.GroupDelivery

/-!
# Groups with failing stores and several sender keys: C84
-/

namespace Verif

open Ex

/-- The invariant holds when the receiver has processed the distribution message. -/
theorem GTInv.start {P : GPair} {ws wr : GWorld} (hs : GReachable ⟨P.C, P.senderAliased⟩ ws) (hr : GReachable ⟨P.C, P.receiverAliased⟩ wr)
    {d d' : DistributionMsg} (hd : (newSenderKeyDistribution P.C P.address P.dist ws).1 = .ok d)
    (hwire : newDistributionFromBytes d.serialized = .ok d') (hp : (processDistribution P.receiverAliased P.address d' wr).1 = .ok ())
    (hnew : ∀ g, wr.records (P.address, P.dist) = some g → ∀ s ∈ g, s.chainId ≠ d.chainID) (t N : Nat) :
    GTInv P d.chainID d.signingKey { seed := d.chainKey, iteration := d.iteration } t N 0
      { sender := (newSenderKeyDistribution P.C P.address P.dist ws).2, receiver := (processDistribution P.receiverAliased P.address d' wr).2 } ∨
    ∃ st rest, (newSenderKeyDistribution P.C P.address P.dist ws).2.records (P.address, P.dist) = some (st :: rest) ∧ st.signingPrivate = [] := by
  rcases GSysInv.start hs hr hd hwire hp hnew t N with h | h
  rotate_left
  · exact .inr h
  refine .inl ⟨h, fun g hg => ?_⟩
  simp only at hg ⊢
  obtain ⟨g0, st, p, hg0, hwf, hst, _, _⟩ := h.receiver
  simp only at hg0
  have e0 := hg0
  rw [hg, Option.some.injEq] at e0
  subst e0
  have hold : ((wr.records (P.address, d'.distID)).getD []).WF := by
    cases hrc : wr.records (P.address, d'.distID) with
    | none => exact .nil
    | some g => exact hr.WF _ g hrc
  have ho := processDistribution_outcome P.receiverAliased P.address d' wr
  generalize processDistribution P.receiverAliased P.address d' wr = x at ho hp hg
  obtain ⟨r, w'⟩ := x
  simp only at ho hp hg
  subst hp
  cases ho with
  | done fs =>
    simp only at hg
    by_cases hk : d'.distID = P.dist
    · rw [hk] at hg hold
      rw [upd_same, Option.some.injEq] at hg
      have hadd := hold.added_eq d'.state d'.signingKey
      rw [hg] at hadd
      -- the chain is new, so the state for it is the one put last
      have hlast : st = (((wr.records (P.address, P.dist)).getD []).find? (GRecord.isState d'.state.chainId d'.signingKey)).getD d'.state := by
        have hm := hst.1
        rw [hadd, List.mem_append] at hm
        rcases hm with hm | hm
        · exfalso
          have h1 := (List.mem_filter.mp ((lastN_sublist _ _).subset hm)).1
          cases hrc : wr.records (P.address, P.dist) with
          | none => rw [hrc] at h1; simp at h1
          | some g1 => rw [hrc] at h1; exact hnew g1 hrc st h1 hst.2.1
        · exact List.mem_singleton.mp hm
      rw [← hlast] at hadd
      rw [← hst.2.1]
      exact GRecord.Behind.last hwf hadd _
    · exfalso
      rw [upd_ne _ _ (fun he => hk (Prod.mk.inj he).2.symm)] at hg
      exact hnew g hg st hst.1 hst.2.1

/-- C84: as in C37 a sender hands out its sender key, and a receiver that does not know the chain yet processes it. Then anything may happen: all
that C37 allows; store failures, of any kind, while the receiver decrypts a message or processes a distribution message, and while
the sender encrypts or hands out its key again; and further distribution messages in the sender's name: this key again, at an earlier
or a later position, or other sender keys. As long as never more than four other sender keys have been handed to the receiver since it
last processed this one, the bytes of a message sent are decrypted to exactly its plaintext, if

* it has not been taken in before (`GPair.tookIn`),
* it is at most 25000 ahead of the next iteration the receiver expects, and
* at every point of the schedule, fewer than 2000 newer messages were still outstanding (`outstanding`). -/
theorem C84_delivery (P : GPair) (ws wr : GWorld) (hs : GReachable ⟨P.C, P.senderAliased⟩ ws) (hr : GReachable ⟨P.C, P.receiverAliased⟩ wr)
    (d d' : DistributionMsg) (hd : (newSenderKeyDistribution P.C P.address P.dist ws).1 = .ok d)
    (hwire : newDistributionFromBytes d.serialized = .ok d') (hp : (processDistribution P.receiverAliased P.address d' wr).1 = .ok ())
    (hnew : ∀ g, wr.records (P.address, P.dist) = some g → ∀ s ∈ g, s.chainId ≠ d.chainID)
    (es : List GTEvent) (hes : ∀ e ∈ es, e.Ok P d.chainID d.signingKey) (hlen : d.iteration.toNat + tsends es < 2 ^ 32) :
    let s0 : GTSys := { sender := (newSenderKeyDistribution P.C P.address P.dist ws).2, receiver := (processDistribution P.receiverAliased P.address d' wr).2 }
    let s := P.trun d.chainID s0 es
    (∀ n, (P.trun d.chainID s0 (es.take n)).others.length ≤ 4) →
    ∀ (i : Nat) (m : SenderKeyMsg) (pt : Bytes), s.sent[i]? = some (m, pt) →
      m.iteration.toNat ∉ s.accepted →
      m.iteration.toNat ≤ nextIteration d.iteration.toNat s.accepted + 25000 →
      (∀ n, outstanding (P.trun d.chainID s0 (es.take n)).accepted m.iteration.toNat < 2000) →
      (P.receive m.serialized s.receiver).1 = .ok pt := by
  intro s0 s hoth i m pt hi hacc hjump hout
  have hN : (SKChainKey.mk d.chainKey d.iteration).iteration.toNat + tsends es < 2 ^ 32 := hlen
  have hoth' : ∀ n, (P.trun d.chainID s0 (es.take n)).others.length < 5 := fun n => Nat.lt_succ_of_le (hoth n)
  rcases GTInv.start hs hr hd hwire hp hnew (tsends es) (tsends es) with hinv | hno
  rotate_left
  · have : s.sent = [] := keyless_tsends_nothing es s0 hno rfl
    rw [this] at hi
    simp at hi
  -- the place of the message in the chain
  have h1 := hinv.run hN es hes (by omega) hoth' (fun h => absurd h (Nat.lt_irrefl _))
  obtain ⟨n, hn⟩ := h1.sys.sent _ (List.mem_of_getElem? hi)
  simp only at hn
  have hmn : m.iteration.toNat = d.iteration.toNat + n := by
    rw [hn.iteration]; exact skIter_toNat P.C _ n (by have := hn.lt; simp only; omega)
  -- its key is kept
  rcases GTInv.start hs hr hd hwire hp hnew n (tsends es) with hinv | hno
  rotate_left
  · have : s.sent = [] := keyless_tsends_nothing es s0 hno rfl
    rw [this] at hi
    simp at hi
  have h2 := hinv.run hN es hes (by omega) hoth' (fun _ j => by simp only; rw [← hmn]; exact hout j)
  rw [GPair.receive_eq hn.parses]
  have hrc : GReceiver P.C { s.receiver with faults := [] } (P.address, P.dist) d.chainID d.signingKey ⟨d.chainKey, d.iteration⟩ s.accepted n (tsends es) := h2.sys.receiver
  rcases hrc.deliver (al := P.receiverAliased) hN hn rfl with ⟨hok, _⟩ | ⟨e, her, hwhy⟩
  · exact hok
  · rcases hwhy rfl with h | h
    · exact absurd (hmn ▸ h) hacc
    · simp only at h; omega

/-- C84, exactness: after any such schedule, and with any store failures, the bytes of a message sent are never decrypted to anything
but its plaintext; and whatever comes back, the records are either as they were, or as they are after reading the message. A plaintext
comes back only in the second case. -/
theorem C84_exact (P : GPair) (ws wr : GWorld) (hs : GReachable ⟨P.C, P.senderAliased⟩ ws) (hr : GReachable ⟨P.C, P.receiverAliased⟩ wr)
    (d d' : DistributionMsg) (hd : (newSenderKeyDistribution P.C P.address P.dist ws).1 = .ok d)
    (hwire : newDistributionFromBytes d.serialized = .ok d') (hp : (processDistribution P.receiverAliased P.address d' wr).1 = .ok ())
    (hnew : ∀ g, wr.records (P.address, P.dist) = some g → ∀ s ∈ g, s.chainId ≠ d.chainID)
    (es : List GTEvent) (hes : ∀ e ∈ es, e.Ok P d.chainID d.signingKey) (hlen : d.iteration.toNat + tsends es < 2 ^ 32) :
    let s0 : GTSys := { sender := (newSenderKeyDistribution P.C P.address P.dist ws).2, receiver := (processDistribution P.receiverAliased P.address d' wr).2 }
    let s := P.trun d.chainID s0 es
    (∀ n, (P.trun d.chainID s0 (es.take n)).others.length ≤ 4) →
    ∀ (i : Nat) (m : SenderKeyMsg) (pt : Bytes) (faults : List Fault), s.sent[i]? = some (m, pt) →
      let x := P.receiveWith m.serialized faults s.receiver
      let y := P.receive m.serialized s.receiver
      (x.2.records = s.receiver.records ∨ (y.1 = .ok pt ∧ x.2.records = y.2.records)) ∧
      (∀ q, x.1 = .ok q → q = pt ∧ y.1 = .ok pt ∧ x.2.records = y.2.records) := by
  intro s0 s hoth i m pt faults hi
  have hN : (SKChainKey.mk d.chainKey d.iteration).iteration.toNat + tsends es < 2 ^ 32 := hlen
  rcases GTInv.start hs hr hd hwire hp hnew (tsends es) (tsends es) with hinv | hno
  rotate_left
  · have : s.sent = [] := keyless_tsends_nothing es s0 hno rfl
    rw [this] at hi
    simp at hi
  have h1 := hinv.run hN es hes (by omega) (fun n => Nat.lt_succ_of_le (hoth n)) (fun h => absurd h (Nat.lt_irrefl _))
  obtain ⟨n, hn⟩ := h1.sys.sent _ (List.mem_of_getElem? hi)
  simp only at hn
  rw [GPair.receive_eq hn.parses, GPair.receiveWith_eq hn.parses]
  exact h1.sys.receiver.deliver_faulty hN hn faults

/-- C84, handing out the key again: after any such schedule, a distribution message that NewSenderKeyDistribution returns is for the
same chain and has the same signing key (so processing it is one of the allowed steps), it starts at the next message to be sent, and
the call has not changed the records. -/
theorem C84_again (P : GPair) (ws wr : GWorld) (hs : GReachable ⟨P.C, P.senderAliased⟩ ws) (hr : GReachable ⟨P.C, P.receiverAliased⟩ wr)
    (d d' : DistributionMsg) (hd : (newSenderKeyDistribution P.C P.address P.dist ws).1 = .ok d)
    (hwire : newDistributionFromBytes d.serialized = .ok d') (hp : (processDistribution P.receiverAliased P.address d' wr).1 = .ok ())
    (hnew : ∀ g, wr.records (P.address, P.dist) = some g → ∀ s ∈ g, s.chainId ≠ d.chainID)
    (es : List GTEvent) (hes : ∀ e ∈ es, e.Ok P d.chainID d.signingKey) (hlen : d.iteration.toNat + tsends es < 2 ^ 32) :
    let s0 : GTSys := { sender := (newSenderKeyDistribution P.C P.address P.dist ws).2, receiver := (processDistribution P.receiverAliased P.address d' wr).2 }
    let s := P.trun d.chainID s0 es
    (∀ n, (P.trun d.chainID s0 (es.take n)).others.length ≤ 4) → s.sent ≠ [] →
    ∀ (rand sysRand : Bytes) (faults : List Fault) (d2 : DistributionMsg),
      (newSenderKeyDistribution P.C P.address P.dist { s.sender with rand := rand, sysRand := sysRand, faults := faults }).1 = .ok d2 →
      d2.distID = P.dist ∧ d2.chainID = d.chainID ∧ d2.signingKey = d.signingKey ∧
      (newSenderKeyDistribution P.C P.address P.dist { s.sender with rand := rand, sysRand := sysRand, faults := faults }).2.records = s.sender.records ∧
      ∀ (pt rand' : Bytes) (faults' : List Fault) (m : SenderKeyMsg),
        (groupEncrypt P.C P.senderAliased P.address P.dist pt { s.sender with rand := rand', faults := faults' }).1 = .ok m → m.iteration = d2.iteration := by
  intro s0 s hoth hsent rand sysRand faults d2 hd2
  have hN : (SKChainKey.mk d.chainKey d.iteration).iteration.toNat + tsends es < 2 ^ 32 := hlen
  rcases GTInv.start hs hr hd hwire hp hnew (tsends es) (tsends es) with hinv | hno
  rotate_left
  · exact absurd (keyless_tsends_nothing es s0 hno rfl) hsent
  have h1 := hinv.run hN es hes (by omega) (fun n => Nat.lt_succ_of_le (hoth n)) (fun h => absurd h (Nat.lt_irrefl _))
  obtain ⟨st, rest, j, hrec, hj, hcid, hck, hpk, hown⟩ := h1.sys.sender.state
  have ho := newSenderKeyDistribution_outcome P.C P.address P.dist { s.sender with rand := rand, sysRand := sysRand, faults := faults }
  generalize newSenderKeyDistribution P.C P.address P.dist { s.sender with rand := rand, sysRand := sysRand, faults := faults } = x at ho hd2 ⊢
  obtain ⟨r, w'⟩ := x
  simp only at ho hd2 ⊢
  subst hd2
  cases ho with
  | early r fs rd srd hr => simp at hr
  | created fs rd srd s' k h hn hk =>
    simp only at hn
    exact absurd (hn.symm.trans hrec) (by simp)
  | existing fs s' rest' k h hk =>
    simp only at h
    have e0 := h.symm.trans hrec
    simp only [Option.some.injEq, List.cons.injEq] at e0
    obtain ⟨rfl, rfl⟩ := e0
    refine ⟨rfl, hcid, ?_, rfl, fun pt rand' faults' m hm => ?_⟩
    · rw [GState.publicSigningKey, hpk, newPublicKey_bytes, Res.ok.injEq] at hk
      exact hk.symm
    · have ho := groupEncrypt_outcome P.C P.senderAliased P.address P.dist pt { s.sender with rand := rand', faults := faults' }
      generalize groupEncrypt P.C P.senderAliased P.address P.dist pt { s.sender with rand := rand', faults := faults' } = x at ho hm
      obtain ⟨r, w'⟩ := x
      simp only at ho hm
      subst hm
      cases ho with
      | early r fs rd hr => simp at hr
      | stopped r fs hr => simp at hr
      | done fs s2 rest2 sk m rd hb =>
        have h2 := hb.record
        simp only at h2
        have e0 := h2.symm.trans h
        simp only [Option.some.injEq, List.cons.injEq] at e0
        obtain ⟨rfl, rfl⟩ := e0
        obtain ⟨ct, _, hb2⟩ := hb.built
        exact newSenderKey_iteration hb2

/-- The example: Alice sends three messages. Bob takes in the third while the store fails after writing; then Alice hands out the key
again and Bob processes that, while the store fails before and without failure; Bob gets three other sender keys in Alice's name; the
store fails before writing while the first message arrives. The first two messages can still be read. -/
def Ex.otherKey (n : UInt32) : DistributionMsg := newDistribution 3 dist n 5 (List.replicate 32 9) d1.signingKey

def Ex.gtevents : List GTEvent :=
  [.plain (.send [1, 2, 3] (randomness 3) []), .plain (.send [4] (randomness 3) []), .plain (.send [5, 5] (randomness 3) [.none, .after]), .plain (.send [6] (randomness 3) []),
   .deliver 2 [.none, .after], .distribute [] [] [], .process (otherKey 1) [], .process d1 [.none, .before], .process d1 [],
   .process (otherKey 2) [], .process (otherKey 3) [.none, .before], .process (otherKey 4) [], .process (otherKey 3) [], .deliver 0 [.before]]

def Ex.gtsys0 : GTSys := { toGSys := gsys0 }

example : ∀ e ∈ gtevents, e.Ok gpair d1.chainID d1.signingKey := by
  intro e he
  simp only [gtevents, List.mem_cons, List.not_mem_nil, or_false] at he
  rcases he with rfl | rfl | rfl | rfl | rfl | rfl | rfl | rfl | rfl | rfl | rfl | rfl | rfl | rfl
  all_goals first | trivial | (intro _ _; rfl) | simp [GTEvent.Ok, GEvent.Ok]

example : (gpair.trun d1.chainID gtsys0 gtevents).accepted = [3] ∧
    (gpair.trun d1.chainID gtsys0 gtevents).sent.map (fun x => (x.1.iteration, x.2)) = [(0, [1, 2, 3]), (1, [4]), (3, [6])] ∧
    (∀ n, n < 15 → (gpair.trun d1.chainID gtsys0 (gtevents.take n)).others.length ≤ 4) ∧
    (∀ n, n < 15 → outstanding (gpair.trun d1.chainID gtsys0 (gtevents.take n)).accepted 0 ≤ 2) ∧
    (gpair.receive g1.serialized (gpair.trun d1.chainID gtsys0 gtevents).receiver).1 = .ok [1, 2, 3] := by
  refine ⟨by decide +kernel, by decide +kernel, by decide +kernel, by decide +kernel, by decide +kernel⟩

/-- The bound is the right one: a fifth other sender key makes the receiver forget the first. -/
example : (gpair.trun d1.chainID gtsys0 (gtevents ++ [.process (otherKey 5) [], .process (otherKey 6) []])).others.length = 5 ∧
    (gpair.receive g1.serialized (gpair.trun d1.chainID gtsys0 (gtevents ++ [.process (otherKey 5) []])).receiver).1 = .ok [1, 2, 3] ∧
    (gpair.receive g1.serialized (gpair.trun d1.chainID gtsys0 (gtevents ++ [.process (otherKey 5) [], .process (otherKey 6) []])).receiver).1 =
      .err .noSenderKeyState := by
  refine ⟨by decide +kernel, by decide +kernel, by decide +kernel⟩

end Verif
