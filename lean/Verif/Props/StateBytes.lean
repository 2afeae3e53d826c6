import Verif.Proofs.StateBytesSim
import Verif.Proofs.Cipher
import Verif.Spec.Example

/-!
# C132: what looking at a session can change
-/

namespace Verif

/-- **C132**. A program has parsed a stored session and calls the accessors of its state, holds the bytes they return, and writes to any
bytes it holds. It gets the answers, and the library goes on with the session, that the program over values gives. There a write to
the bytes of `AliceBaseKey`, `RootKey`, `SenderChainKey` or `ReceiverChainKey` replaces exactly that key in the session; `MessageKeys` takes
the keys of exactly that position out; and nothing else changes the session. -/
theorem C132_as_values (C : Crypto) (s : SState) (heap : Heap) (own : List Slice) (hown : ∀ x ∈ own, heap.Valid x) (ops : List StateOp) :
    ((StateMem.start s heap own).run C ops).1 = (StateVals.run { state := s } ops).1 ∧
    ((StateMem.start s heap own).run C ops).2.seen = (StateVals.run { state := s } ops).2.state := by
  have i := (StateMem.Inv.start s heap own hown).run C ops
  exact ⟨i.1, i.2.seen⟩

/-- C132, for states that were not parsed, such as those that the ratchet leaves in memory, where the root key and a chain key are the two halves
of one array: the same holds wherever the bytes are, if no two byte strings of the state overlap and the program holds none of them. -/
theorem C132_any_layout (C : Crypto) (heap : Heap) (state : StateOf Slice) (own : List Slice) (hstate : ∀ p ∈ state.places, heap.Valid p)
    (hown : ∀ x ∈ own, heap.Valid x) (hapart : state.places.Pairwise NoOverlap) (hheld : ∀ x ∈ own, ∀ p ∈ state.places, NoOverlap x p) (ops : List StateOp) :
    (StateMem.run C { heap := heap, state := state, own := own } ops).1 = (StateVals.run { state := state.seen heap } ops).1 ∧
    (StateMem.run C { heap := heap, state := state, own := own } ops).2.seen = (StateVals.run { state := state.seen heap } ops).2.state := by
  have i : StateMem.Inv { heap := heap, state := state, own := own } { state := state.seen heap } :=
    ⟨rfl, hstate, hown, hapart, hheld, .nil⟩
  exact ⟨(i.run C ops).1, (i.run C ops).2.seen⟩

theorem StateVals.looks (v : StateVals) (ops : List StateOp) (h : ∀ op ∈ ops, op.Looks) : (v.run ops).2.state = v.state := by
  induction ops generalizing v with
  | nil => rfl
  | cons op ops ih =>
    have hs : (v.step op).2.state = v.state := by
      have := h op (by simp)
      cases op with
      | shared f =>
        simp only [StateVals.step]
        cases f.value v.state with
        | ok o => cases o <;> rfl
        | err _ => rfl
        | panic => rfl
      | copied f => rfl
      | messageKeys k n => exact this.elim
      | write n o b => rfl
      | writeShared n o b => exact this.elim
    exact (ih _ fun o ho => h o (by simp [ho])).trans hs

/-- C132: a program that only looks changes nothing. It may write to the bytes of identity keys, ratchet keys and base keys, to the
serialised session, and to bytes of its own. Afterwards the session is the one that was parsed. -/
theorem C132_looking_changes_nothing (C : Crypto) (s : SState) (heap : Heap) (own : List Slice) (hown : ∀ x ∈ own, heap.Valid x) (ops : List StateOp)
    (h : ∀ op ∈ ops, op.Looks) : ((StateMem.start s heap own).run C ops).2.seen = s :=
  (C132_as_values C s heap own hown ops).2.trans (StateVals.looks { state := s } ops h)

/-- C132: `Bytes` before and after a program that only looks are the same. -/
theorem C132_same_bytes (C : Crypto) (s : SState) (heap : Heap) (own : List Slice) (hown : ∀ x ∈ own, heap.Valid x) (ops : List StateOp)
    (h : ∀ op ∈ ops, op.Looks) : (((StateMem.start s heap own).run C ops).2.step C (.copied .bytes)).1 = .ok [s.marshal] := by
  have i := ((StateMem.Inv.start s heap own hown).run C ops).2.step C (.copied .bytes)
  rw [i.1]
  show Res.ok [(StateVals.run { state := s } ops).2.state.marshal] = _
  rw [StateVals.looks { state := s } ops h]

/-- C132: a caller who asks for the message keys of a position, whatever they did before, makes the message at this position unreadable in this
session, if its place in the chain has been passed. -/
theorem C132_message_keys_lose_message (C : Crypto) (s : SState) (heap : Heap) (own : List Slice) (hown : ∀ x ∈ own, heap.Valid x) (ops : List StateOp)
    (sender : PubKey) (counter : UInt32) (c : Signal) (hc : c.senderRatchetKey = sender ∧ c.counter = counter) (random : Bytes) :
    let t := (((StateMem.start s heap own).run C ops).2.step C (.messageKeys sender counter)).2.seen
    (∃ k, t.receiverChainKey sender = .ok (some k) ∧ counter < k.index) → ∀ p, (decryptMessageSession C t c random).1 ≠ .ok p := by
  intro t ht p hp
  have i := (((StateMem.Inv.start s heap own hown).run C ops).2.step C (.messageKeys sender counter)).2.seen
  have ht' : t = (StateVals.run { state := s } ops).2.state.withoutMessageKeys sender counter := i
  obtain ⟨k, hk, hlt⟩ := ht
  obtain ⟨rfl, rfl⟩ := hc
  have hnone : ∃ u, t.takeMessageKeys c.senderRatchetKey c.counter = .ok (none, u) := by
    rw [ht']
    generalize (StateVals.run { state := s } ops).2.state = v
    unfold SState.withoutMessageKeys
    cases hr : v.receiverChain c.senderRatchetKey with
    | none => exact ⟨v, by simp only [SState.takeMessageKeys, hr]⟩
    | some o =>
      obtain ⟨j, d⟩ := o
      have h2 := SState.receiverChain_set (c' := { d with messageKeys := d.messageKeys.filter fun k => k.index ≠ c.counter }) hr rfl
      simp only [SState.takeMessageKeys, h2]
      have : ((d.messageKeys.filter fun k => k.index ≠ c.counter).filter fun k => k.index = c.counter) = [] := by
        rw [List.filter_filter, List.filter_eq_nil_iff]
        intro a _
        simp
      rw [this]
      exact ⟨_, rfl⟩
  obtain ⟨u, hu⟩ := hnone
  unfold decryptMessageSession at hp
  cases hs : t.senderChain with
  | none => simp [hs, M.throw] at hp
  | some d =>
    simp only [hs] at hp
    by_cases hver : c.version.toUInt32 ≠ t.version
    · rw [if_pos hver] at hp
      simp [M.throw] at hp
    · rw [if_neg hver] at hp
      have e1 : chainKeyFor C t c.senderRatchetKey random = (.ok (k, t), random) := by
        unfold chainKeyFor
        rw [hk]
        rfl
      rw [M.bind_ok_run e1] at hp
      have e2 : messageKeysFor C t c.senderRatchetKey k c.counter = .err .duplicateMessage := by
        unfold messageKeysFor
        rw [if_pos hlt, hu]
        rfl
      simp only [e2] at hp
      exact absurd hp (by intro h; cases h)

/-! ## Instances -/

namespace Ex

/-- Bob has received the second message of the session first, and then looks at the session. -/
def bobLooks : World := (decryptMessage copying alice m2 bob0).2
def looksState : SState := match bobLooks.sessions alice with
  | some r => r.current.getD {}
  | none => {}
def looksKey : PubKey := match m1 with
  | .preKey m => m.message.senderRatchetKey
  | .signal m => m.senderRatchetKey
  | _ => (pair 1).pub

/-- Bob's store with another session state in the record. -/
def bobWith (s : SState) : World := { bobLooks with sessions := fun a => if a = alice then some { current := some s } else bobLooks.sessions a }

/-- The late message can be read as long as Bob does not ask for its keys. -/
example : (decryptMessage copying alice m1 (bobWith looksState)).1 = .ok (some [1, 2, 3]) := by decide +kernel

/-- After asking for them it cannot. -/
example : (decryptMessage copying alice m1 (bobWith (StateVals.run { state := looksState } [.messageKeys looksKey 0]).2.state)).1 ≠ .ok (some [1, 2, 3]) := by
  decide +kernel

/-- The place of this message in its chain has been passed. -/
example : (match (StateVals.run { state := looksState } [.messageKeys looksKey 0]).2.state.receiverChainKey looksKey with
    | .ok (some k) => decide (0 < k.index)
    | _ => false) = true := by decide +kernel

end Ex

/-- C132, the first exception is real: asking for message keys changes the session. -/
theorem C132_message_keys_change_session : ∃ (s : SState) (k : PubKey) (n : UInt32),
    ((StateMem.start s [] []).run toy [.messageKeys k n]).2.seen ≠ s := by
  refine ⟨Ex.looksState, Ex.looksKey, 0, ?_⟩
  rw [(C132_as_values toy Ex.looksState [] [] (by simp) _).2]
  decide +kernel

/-- C132, the second exception is real: writing to the root key that was returned changes the session. -/
theorem C132_shared_bytes_change_session : ∃ (s : SState) (b : Bytes),
    ((StateMem.start s [] []).run toy [.shared .rootKey, .writeShared 0 0 b]).2.seen ≠ s := by
  refine ⟨Ex.looksState, [1, 2, 3], ?_⟩
  rw [(C132_as_values toy Ex.looksState [] [] (by simp) _).2]
  decide +kernel

/-- A state whose root key and sending chain key are the two halves of one array, as `CreateChain` makes them. -/
example : (StateOf.places (⟨3, ⟨0, 0, 33, 33⟩, ⟨1, 0, 33, 33⟩, ⟨2, 0, 32, 64⟩, 0, some ⟨⟨3, 0, 33, 33⟩, ⟨4, 0, 32, 32⟩, some ⟨0, ⟨2, 32, 32, 32⟩⟩, []⟩, [], none, 1, 2,
    ⟨5, 0, 33, 33⟩⟩ : StateOf Slice)).Pairwise NoOverlap := by
  simp [StateOf.places, ChainOf.places, ChainKeyOf.places, NoOverlap]

/-- A program that looks: it overwrites the local identity key it got and the serialised session. -/
example : ∀ op ∈ [StateOp.shared .rootKey, .copied .localIdentityKey, .copied .bytes, .write 0 0 [1, 2], .write 1 3 [0]], op.Looks := by
  simp [StateOp.Looks]

end Verif
