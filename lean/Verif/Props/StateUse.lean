import Verif.Proofs.StateUseAppend
import Verif.Spec.Example

/-!
# C133: looking at a session while it is used
-/

namespace Verif

/-- **C133**. A program has parsed a stored session. It calls the accessors of the state, holds and overwrites bytes they return, sends and receives with the
session, in any order. It gets the answers, and the library goes on with the session, that the program over values gives. There a write
to bytes of `AliceBaseKey`, `RootKey`, `SenderChainKey` or `ReceiverChainKey` replaces exactly that key in the session until the next
message is received; for `SenderChainKey` until the next message is sent or received; and after that such a write changes nothing. -/
theorem C133_as_values (C : Crypto) (s : SState) (heap : Heap) (own : List Slice) (hown : ∀ x ∈ own, heap.Valid x) (ops : List UseOp) :
    ((UseMem.start s heap own).run C ops).1 = (StateVals.uses C { state := s } ops).1 ∧
    ((UseMem.start s heap own).run C ops).2.seen = (StateVals.uses C { state := s } ops).2.state := by
  have i := (UseMem.Inv.start s heap own hown).run C ops
  exact ⟨i.1, i.2.looking.seen⟩

/-- The program writes to bytes it holds. -/
def UseOp.Writes : UseOp → Prop
  | .look (.write _ _ _) | .look (.writeShared _ _ _) => True
  | _ => False

theorem StateVals.writes_nothing (C : Crypto) (v : StateVals) (hv : v.shared = []) (ops : List UseOp) (h : ∀ op ∈ ops, op.Writes) :
    (v.uses C ops).2 = v := by
  induction ops with
  | nil => rfl
  | cons op ops ih =>
    have hs : (v.use C op).2 = v := by
      have := h op (by simp)
      cases op with
      | send p => exact this.elim
      | receive c r => exact this.elim
      | look op =>
        cases op with
        | shared f => exact this.elim
        | copied f => exact this.elim
        | messageKeys k n => exact this.elim
        | write n o b => rfl
        | writeShared n o b => simp [StateVals.use, StateVals.step, hv]
    simp only [StateVals.uses, hs]
    exact ih fun o ho => h o (by simp [ho])

/-- C133: once a message has been received, no write to any bytes that the program got before, from whatever accessor, changes the session. -/
theorem C133_received_ends_sharing (C : Crypto) (s : SState) (heap : Heap) (own : List Slice) (hown : ∀ x ∈ own, heap.Valid x) (ops : List UseOp)
    (c : Signal) (random : Bytes) (writes : List UseOp) (hw : ∀ op ∈ writes, op.Writes) :
    let m := ((UseMem.start s heap own).run C ops).2
    (∃ p, (m.step C (.receive c random)).1 = .ok p) →
    ((m.step C (.receive c random)).2.run C writes).2.seen = (m.step C (.receive c random)).2.seen := by
  intro m hok
  have i := ((UseMem.Inv.start s heap own hown).run C ops).2.step C (.receive c random)
  have j := (i.2.run C writes).2.looking.seen
  have hsh : ((StateVals.uses C { state := s } ops).2.use C (.receive c random)).2.shared = [] := by
    obtain ⟨p, hp⟩ := hok
    have hp' := i.1.symm.trans hp
    simp only [StateVals.use] at hp' ⊢
    generalize (decryptMessageSession C (StateVals.uses C { state := s } ops).2.state c random).1 = y at hp' ⊢
    cases y with
    | ok o => rfl
    | err e => cases hp'
    | panic => cases hp'
  rw [StateVals.writes_nothing C _ hsh writes hw] at j
  exact j.trans i.2.looking.seen.symm

/-- The program does not ask for keys other than the sending chain key. -/
def UseOp.OnlySendingKey : UseOp → Prop
  | .look (.shared f) => f = .senderChainKey
  | _ => True

theorem StateVals.only_sending (C : Crypto) (v : StateVals) (hv : ∀ f ∈ v.shared, f = .senderChainKey) (ops : List UseOp) (h : ∀ op ∈ ops, op.OnlySendingKey) :
    ∀ f ∈ (v.uses C ops).2.shared, f = .senderChainKey := by
  induction ops generalizing v with
  | nil => exact hv
  | cons op ops ih =>
    refine ih _ ?_ fun o ho => h o (by simp [ho])
    have hop := h op (by simp)
    cases op with
    | send p =>
      simp only [StateVals.use]
      split
      · intro f hf
        exact hv f (List.mem_filter.1 hf).1
      · exact hv
      · exact hv
    | receive c r =>
      simp only [StateVals.use]
      split
      · simp
      · exact hv
      · exact hv
    | look op =>
      cases op with
      | shared f =>
        simp only [StateVals.use, StateVals.step]
        split
        · intro g hg
          rcases List.mem_append.1 hg with hg | hg
          · exact hv g hg
          · simp only [List.mem_singleton] at hg
            rw [hg]
            exact hop
        · exact hv
      | copied f => exact hv
      | messageKeys k n => exact hv
      | write n o b => exact hv
      | writeShared n o b =>
        simp only [StateVals.use, StateVals.step]
        split
        · exact hv
        · split
          · split <;> exact hv
          · exact hv

/-- C133: once a message has been sent, no write to bytes of the sending chain key that the program got before changes the session. -/
theorem C133_sent_ends_sharing (C : Crypto) (s : SState) (heap : Heap) (own : List Slice) (hown : ∀ x ∈ own, heap.Valid x) (ops : List UseOp)
    (hops : ∀ op ∈ ops, op.OnlySendingKey) (plaintext : Bytes) (writes : List UseOp) (hw : ∀ op ∈ writes, op.Writes) :
    let m := ((UseMem.start s heap own).run C ops).2
    (∃ p, (m.step C (.send plaintext)).1 = .ok p) →
    ((m.step C (.send plaintext)).2.run C writes).2.seen = (m.step C (.send plaintext)).2.seen := by
  intro m hok
  have i := ((UseMem.Inv.start s heap own hown).run C ops).2.step C (.send plaintext)
  have j := (i.2.run C writes).2.looking.seen
  have only := StateVals.only_sending C { state := s } (by simp) ops hops
  have hsh : ((StateVals.uses C { state := s } ops).2.use C (.send plaintext)).2.shared = [] := by
    obtain ⟨p, hp⟩ := hok
    have hp' := i.1.symm.trans hp
    simp only [StateVals.use] at hp' ⊢
    generalize encryptState C (StateVals.uses C { state := s } ops).2.state plaintext = y at hp' ⊢
    cases y with
    | ok o =>
      simp only [List.filter_eq_nil_iff]
      intro f hf
      rw [only f hf]
      simp [SharedField.staysOnSend]
    | err e => cases hp'
    | panic => cases hp'
  rw [StateVals.writes_nothing C _ hsh writes hw] at j
  exact j.trans i.2.looking.seen.symm

/-- C133: sending or receiving that fails leaves the session as it was, whatever bytes the program holds and wrote before. -/
theorem C133_failure_changes_nothing (C : Crypto) (s : SState) (heap : Heap) (own : List Slice) (hown : ∀ x ∈ own, heap.Valid x) (ops : List UseOp)
    (op : UseOp) (hop : ∀ o, op ≠ .look o) :
    let m := ((UseMem.start s heap own).run C ops).2
    (∀ p, (m.step C op).1 ≠ .ok p) → (m.step C op).2.seen = m.seen := by
  intro m hok
  have i0 := ((UseMem.Inv.start s heap own hown).run C ops).2
  have i := i0.step C op
  refine i.2.looking.seen.trans (Eq.trans ?_ i0.looking.seen.symm)
  have hok' : ∀ p, ((StateVals.uses C { state := s } ops).2.use C op).1 ≠ .ok p := fun p hp => hok p (i.1.trans hp)
  cases op with
  | look o => exact absurd rfl (hop o)
  | send p =>
    simp only [StateVals.use] at hok' ⊢
    generalize encryptState C (StateVals.uses C { state := s } ops).2.state p = y at hok' ⊢
    cases y with
    | ok o => exact absurd rfl (hok' _)
    | err e => rfl
    | panic => rfl
  | receive c r =>
    simp only [StateVals.use] at hok' ⊢
    generalize (decryptMessageSession C (StateVals.uses C { state := s } ops).2.state c r).1 = y at hok' ⊢
    cases y with
    | ok o => exact absurd rfl (hok' _)
    | err e => rfl
    | panic => rfl

/-- C133, what the theorems above leave out: `append`. After a message with a new ratchet key was received, the root key is the first half of an array
whose second half is the sending chain key. `append(rootKey.Bytes(), b...)` has room in this array, and replaces the first bytes of the
sending chain key by `b`. -/
theorem C133_append_overwrites_chain_key (C : Crypto) (s : SState) (heap : Heap) (c : Signal) (random : Bytes)
    (hnew : s.receiverChain c.senderRatchetKey = none) (p : Bytes) (t : StateOf Slice) (m : RMem)
    (hd : decryptStateRef C (newStateBytes s heap).1 c ⟨(newStateBytes s heap).2, random⟩ = (.ok (p, t), m))
    (b : Bytes) (hb : b.length ≤ 32) (w : ChainKey) (hw : (t.seen m.heap).senderChainKey = .ok w) :
    t.rootKeySlice = .ok t.rootKey ∧
    (t.seen (goAppend m.heap t.rootKey b).2).senderChainKey = .ok ⟨overwrite w.key 0 b, w.index⟩ := by
  have hh := decryptStateRef_halves (o := (p, t)) (by
    dsimp only
    rw [(parses_state s heap).2]
    exact hnew) hd
  have hD := doesR_decrypt C c (m := ⟨(newStateBytes s heap).2, random⟩) (s := (newStateBytes s heap).1)
  have hv : m.heap.Valid t.rootKey := by
    obtain ⟨-, -, h3⟩ := hD
    rw [hd] at h3
    generalize (decryptMessageSession C (StateOf.seen (newStateBytes s heap).2 (newStateBytes s heap).1) c random).1 = y at h3
    cases y with
    | ok y => exact h3.2.valid _ (by simp [StateOf.places])
    | err e => exact h3.elim
    | panic => exact h3.elim
  refine ⟨?_, hh.append hv hb hw⟩
  obtain ⟨a, _, _, h1, _⟩ := hh
  have h1 : t.rootKey = ⟨a, 0, 32, 64⟩ := h1
  simp [StateOf.rootKeySlice, keySlice, h1]

/-! ## Instances -/

namespace Ex

/-- Alice's session after two messages, and Bob's reply, which has a new ratchet key. -/
def usesState : SState := match alice3.sessions bob with
  | some r => r.current.getD {}
  | none => {}
def usesReply : Signal := match r1 with
  | .signal m => m
  | .preKey m => m.message
  | _ => ⟨3, (pair 1).pub, 0, 0, [], []⟩

example : usesState.receiverChain usesReply.senderRatchetKey = none := by decide +kernel

/-- Over memory, the reply can be read. -/
example : (match (UseMem.start usesState [] []).step toy (.receive usesReply (randomness 3)) with
    | (.ok p, _) => decide (p = [[9]])
    | _ => false) = true := by decide +kernel

/-- A program that overwrites the root key before it receives cannot read the reply; one that overwrites these bytes afterwards can read it, and the next message
it sends is the one it would have sent. -/
example : (StateVals.uses toy { state := usesState } [.look (.shared .rootKey), .look (.writeShared 0 0 [1, 2, 3]), .receive usesReply (randomness 3)]).1 ≠
    [.ok [usesState.rootKey], .ok [], .ok [[9]]] := by decide +kernel
example : (StateVals.uses toy { state := usesState } [.look (.shared .rootKey), .receive usesReply (randomness 3), .look (.writeShared 0 0 [1, 2, 3])]).2.state =
    (StateVals.uses toy { state := usesState } [.receive usesReply (randomness 3)]).2.state := by decide +kernel

/-- Sending works. -/
example : (match (UseMem.start usesState [] []).step toy (.send [7]) with
    | (.ok _, _) => true
    | _ => false) = true := by decide +kernel

/-- `append` to the root key after the reply: the next chain key is another one. -/
example : (match decryptStateRef toy (newStateBytes usesState []).1 usesReply ⟨(newStateBytes usesState []).2, randomness 3⟩ with
    | (.ok (_, t), m) => decide ((t.seen m.heap).senderChainKey ≠ (t.seen (goAppend m.heap t.rootKey [1, 2, 3]).2).senderChainKey)
    | _ => false) = true := by decide +kernel

end Ex

end Verif
