import Verif.Proofs.StateUseSim

namespace Verif

/-- The memory has arrays up to number `n`, and the session uses only arrays from there on. -/
def UseMem.Late (n : Nat) (m : UseMem) : Prop := n ≤ m.heap.length ∧ ∀ p ∈ m.state.places, n ≤ p.arr

theorem messageKeySlices_places {s : StateOf Slice} (h : Heap) (k : PubKey) (n : UInt32) :
    ∀ p ∈ (s.messageKeySlices h k n).2.places, p ∈ s.places := by
  unfold StateOf.messageKeySlices
  split
  · exact fun p hp => hp
  · rename_i i c hf
    have hat : s.receiverChains[i]? = some c := by simpa using (findChainOf_at hf).2
    have : ∀ p ∈ (s.without i c n).places, p ∈ s.places := fun p h => (s.places_without n hat).mem_iff.2 (List.mem_append_left _ h)
    dsimp only
    split
    · exact this
    · split
      · exact this
      · split
        · exact this
        · split <;> exact this

theorem StateMem.writeTo_length (m : StateMem) (x : Slice) (o : Nat) (b : Bytes) : (m.writeTo x o b).heap.length = m.heap.length := by
  unfold StateMem.writeTo
  split
  · simp
  · rfl

theorem StateMem.writeTo_state (m : StateMem) (x : Slice) (o : Nat) (b : Bytes) : (m.writeTo x o b).state = m.state := by
  unfold StateMem.writeTo
  split <;> rfl

theorem UseMem.Inv.late (C : Crypto) {m : UseMem} {v : StateVals} (i : m.Inv v) {n : Nat} (hl : m.Late n) (op : UseOp) : (m.step C op).2.Late n := by
  obtain ⟨hn, hp⟩ := hl
  cases op with
  | look op =>
    show n ≤ (m.looking.step C op).2.heap.length ∧ ∀ p ∈ (m.looking.step C op).2.state.places, n ≤ p.arr
    cases op with
    | shared f => simp only [StateMem.step]; split <;> exact ⟨hn, hp⟩
    | copied f =>
      obtain ⟨g, -⟩ := copied_does C f m.heap m.state i.looking.valid
      have g' := Nat.le_trans hn g.1
      simp only [StateMem.step]
      split <;> (rename_i e; replace e : f.slice C m.state m.heap = _ := e; rw [e] at g'; exact ⟨g', hp⟩)
    | messageKeys k c =>
      have := messageKeySlices_places (s := m.state) m.heap k c
      simp only [StateMem.step]
      split <;> (rename_i e; replace e : m.state.messageKeySlices m.heap k c = _ := e; rw [e] at this; exact ⟨hn, fun p h => hp p (this p h)⟩)
    | write j o b =>
      simp only [StateMem.step]
      split
      · rw [StateMem.writeTo_length, StateMem.writeTo_state]
        exact ⟨hn, hp⟩
      · exact ⟨hn, hp⟩
    | writeShared j o b =>
      simp only [StateMem.step]
      split
      · rw [StateMem.writeTo_length, StateMem.writeTo_state]
        exact ⟨hn, hp⟩
      · exact ⟨hn, hp⟩
  | send plaintext =>
    have hs : UHolds n m.heap m.state v.state := ⟨i.looking.seen, i.looking.valid, hp, i.looking.apart⟩
    obtain ⟨g, hd⟩ := does_use_encrypt C plaintext hs hn
    simp only [UseMem.step]
    generalize encryptStateRef C m.state plaintext m.heap = z at g hd
    obtain ⟨r, h⟩ := z
    have g' : n ≤ h.length := Nat.le_trans hn g.1
    cases r with
    | err e => exact ⟨g', hp⟩
    | panic => exact ⟨g', hp⟩
    | ok o =>
      generalize encryptState C v.state plaintext = y at hd
      cases y with
      | err e => exact hd.elim
      | panic => exact hd.elim
      | ok y => exact ⟨by simp [newBytes]; omega, hd.2.1.fresh⟩
  | receive c random =>
    obtain ⟨g, -, hd⟩ := doesR_decrypt C c (m := ⟨m.heap, random⟩) (s := m.state)
    dsimp only at g hd
    simp only [UseMem.step]
    generalize decryptStateRef C m.state c ⟨m.heap, random⟩ = z at g hd
    obtain ⟨r, h⟩ := z
    have g' : n ≤ h.heap.length := Nat.le_trans hn g.1
    cases r with
    | err e => exact ⟨g', hp⟩
    | panic => exact ⟨g', hp⟩
    | ok o =>
      generalize (decryptMessageSession C (m.state.seen m.heap) c random).1 = y at hd
      cases y with
      | err e => exact hd.elim
      | panic => exact hd.elim
      | ok y => exact ⟨by simp [newBytes]; omega, fun p h => Nat.le_trans hn (hd.2.fresh p h)⟩

/-- A message that was received moves the whole session to new arrays. -/
theorem UseMem.late_received (C : Crypto) (m : UseMem) (c : Signal) (random : Bytes) (hok : ∃ p, (m.step C (.receive c random)).1 = .ok p) :
    (m.step C (.receive c random)).2.Late m.heap.length := by
  obtain ⟨g, -, hd⟩ := doesR_decrypt C c (m := ⟨m.heap, random⟩) (s := m.state)
  dsimp only at g hd
  simp only [UseMem.step] at hok ⊢
  generalize decryptStateRef C m.state c ⟨m.heap, random⟩ = z at g hd hok
  obtain ⟨r, h⟩ := z
  have g' : m.heap.length ≤ h.heap.length := g.1
  cases r with
  | err e => simp at hok
  | panic => simp at hok
  | ok o =>
    generalize (decryptMessageSession C (m.state.seen m.heap) c random).1 = y at hd
    cases y with
    | err e => exact hd.elim
    | panic => exact hd.elim
    | ok y => exact ⟨by simp [newBytes]; omega, hd.2.fresh⟩

theorem UseMem.Inv.late_run (C : Crypto) {m : UseMem} {v : StateVals} (i : m.Inv v) {n : Nat} (hl : m.Late n) (ops : List UseOp) :
    (m.run C ops).2.Late n := by
  induction ops generalizing m v with
  | nil => exact hl
  | cons op ops ih => exact ih (i.step C op).2 (i.late C hl op)

theorem read_append_other {h : Heap} {x y : Slice} (hy : h.Valid y) (ha : x.arr ≠ y.arr) (bs : Bytes) : (goAppend h x bs).2.read y = h.read y := by
  unfold goAppend
  split
  · show Heap.read (putAt h x x.len bs) y = h.read y
    unfold Heap.read
    rw [array_putAt, if_neg fun e => ha e.1]
  · exact (Grows.append h _).read hy

end Verif
