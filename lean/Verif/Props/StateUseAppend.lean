import Verif.Proofs.StateUseTight
import Verif.Proofs.StateUseLate
import Verif.Props.StateUse

/-!
# C133: `append` to bytes of a session
-/

namespace Verif

/-- **C133, `append`.** After any program that has parsed a session, looked at it, overwritten bytes it holds, sent and received: `append` of any bytes to what
`AliceBaseKey`, `SenderChainKey` or `ReceiverChainKey` returns leaves the session as it was. For `RootKey` this holds as long as nothing
was received; `C133_append_overwrites_chain_key` shows what happens after that. -/
theorem C133_append (C : Crypto) (s : SState) (heap : Heap) (own : List Slice) (hown : ∀ x ∈ own, heap.Valid x) (ops : List UseOp)
    (f : SharedField) (hf : f ≠ .rootKey ∨ ∀ message random, UseOp.receive message random ∉ ops) (m : UseMem)
    (hm : ((UseMem.start s heap own).run C ops).2 = m) (x : Slice) (hx : f.slice m.heap m.state = .ok (some x)) (b : Bytes) :
    m.state.seen (goAppend m.heap x b).2 = m.seen := by
  have i := (UseMem.Inv.start s heap own hown).run C ops
  have full := UseMem.run_full C (m := UseMem.start s heap own) (newStateBytes_full s heap) ops
  have root : f ≠ .rootKey ∨ m.state.rootKey.Full := by
    rcases hf with h | h
    · exact .inl h
    · right
      rw [← hm, UseMem.run_root C _ ops h]
      exact newStateBytes_root_full s heap
  rw [hm] at i full
  have hfull := full.shared root hx
  exact StateOf.seen_congr _ _ _ fun p hp => read_append_full hfull (i.2.looking.valid p hp) b

/-- C133, `append` to bytes that the program got earlier: while they still are the key in the session, the same holds. -/
theorem C133_append_held (C : Crypto) (s : SState) (heap : Heap) (own : List Slice) (hown : ∀ x ∈ own, heap.Valid x) (ops : List UseOp)
    (m : UseMem) (hm : ((UseMem.start s heap own).run C ops).2 = m) (p : SharedField × Slice) (hp : p ∈ m.shared)
    (hf : p.1 ≠ .rootKey ∨ ∀ message random, UseOp.receive message random ∉ ops) (b : Bytes) :
    m.state.seen (goAppend m.heap p.2 b).2 = m.seen := by
  have i := (UseMem.Inv.start s heap own hown).run C ops
  rw [hm] at i
  exact C133_append C s heap own hown ops p.1 hf m hm p.2 (i.2.field p hp) b

/-- C133, `append` at any later time: bytes that `AliceBaseKey`, `SenderChainKey` or `ReceiverChainKey` returned at one time, or `RootKey` before anything was received,
can be appended to after anything else was done, and the session stays as it was. -/
theorem C133_append_later (C : Crypto) (s : SState) (heap : Heap) (own : List Slice) (hown : ∀ x ∈ own, heap.Valid x) (before after : List UseOp)
    (f : SharedField) (hf : f ≠ .rootKey ∨ ∀ message random, UseOp.receive message random ∉ before) (m m' : UseMem)
    (hm : ((UseMem.start s heap own).run C before).2 = m) (x : Slice) (hx : f.slice m.heap m.state = .ok (some x))
    (hm' : (m.run C after).2 = m') (b : Bytes) : m'.state.seen (goAppend m'.heap x b).2 = m'.seen := by
  have i := ((UseMem.Inv.start s heap own hown).run C before).2
  have full := UseMem.run_full C (m := UseMem.start s heap own) (newStateBytes_full s heap) before
  have root : f ≠ .rootKey ∨ m.state.rootKey.Full := by
    rcases hf with h | h
    · exact .inl h
    · right
      rw [← hm, UseMem.run_root C _ before h]
      exact newStateBytes_root_full s heap
  rw [hm] at i full
  have j := (i.run C after).2
  rw [hm'] at j
  exact StateOf.seen_congr _ _ _ fun p hp => read_append_full (full.shared root hx) (j.looking.valid p hp) b

/-- C133, `append` to bytes that are older than the last message received. A program has done anything, then a message was received, then it has done anything
again. `append` to any bytes that were there before the message was received, the root key's included, leaves the session as it was. -/
theorem C133_append_after_receiving (C : Crypto) (s : SState) (heap : Heap) (own : List Slice) (hown : ∀ x ∈ own, heap.Valid x) (before : List UseOp)
    (c : Signal) (random : Bytes) (after : List UseOp) (m m1 m2 : UseMem) (h0 : ((UseMem.start s heap own).run C before).2 = m)
    (p : List Bytes) (h1 : m.step C (.receive c random) = (.ok p, m1)) (h2 : (m1.run C after).2 = m2) (x : Slice) (hx : m.heap.Valid x) (b : Bytes) :
    m2.state.seen (goAppend m2.heap x b).2 = m2.seen := by
  have i := ((UseMem.Inv.start s heap own hown).run C before).2
  rw [h0] at i
  have i1 := (i.step C (.receive c random)).2
  have l1 := m.late_received C c random ⟨p, by rw [h1]⟩
  rw [h1] at i1 l1
  have i2 := (i1.run C after).2
  have l2 := i1.late_run C l1 after
  dsimp only at i2 l2
  rw [h2] at i2 l2
  refine StateOf.seen_congr _ _ _ fun q hq => read_append_other (i2.looking.valid q hq) (fun e => ?_) b
  have a1 := l2.2 q hq
  have a2 := hx.1
  omega

/-! ## Instances -/

namespace Ex

/-- After a message was sent and the reply with a new ratchet key was received, the three accessors return bytes, and so does `RootKey` before the reply. -/
example : (((UseMem.start usesState [] []).run toy [.send [7], .receive usesReply (randomness 3)]).2 |> fun m =>
    [SharedField.aliceBaseKey, .senderChainKey, .receiverChainKey usesReply.senderRatchetKey].all fun f =>
      match f.slice m.heap m.state with
      | .ok (some _) => true
      | _ => false) = true := by decide +kernel
example : (((UseMem.start usesState [] []).run toy [.send [7]]).2 |> fun m => match SharedField.rootKey.slice m.heap m.state with
    | .ok (some _) => true
    | _ => false) = true := by decide +kernel

/-- Bytes got before the reply are still held after a message was sent. -/
example : ((UseMem.start usesState [] []).run toy [.look (.shared .aliceBaseKey), .look (.shared .rootKey), .send [7]]).2.shared.length = 2 := by
  decide +kernel

/-- The root key was there before the reply was received, and the reply is received. -/
example : (((UseMem.start usesState [] []).run toy [.send [7]]).2 |> fun m =>
    decide (m.state.rootKey.arr < m.heap.length ∧ m.state.rootKey.len ≤ m.state.rootKey.cap ∧
      m.state.rootKey.off + m.state.rootKey.cap ≤ (m.heap.array m.state.rootKey.arr).length) &&
    match m.step toy (.receive usesReply (randomness 3)) with
    | (.ok _, _) => true
    | _ => false) = true := by decide +kernel

end Ex

end Verif
