import Verif.Proofs.KeyHeap
import Verif.Spec.StateBytes

namespace Verif

/-! ## Places -/

theorem NoOverlap.symm {x y : Slice} (h : NoOverlap x y) : NoOverlap y x := by unfold NoOverlap at *; omega

theorem ChainKeyOf.seen_congr (c : ChainKeyOf Slice) (h h' : Heap) (e : ∀ p ∈ c.places, h.read p = h'.read p) : c.seen h = c.seen h' := by
  simp [ChainKeyOf.places] at e
  simp [ChainKeyOf.seen, e]

theorem MessageKeyOf.seen_congr (c : MessageKeyOf Slice) (h h' : Heap) (e : ∀ p ∈ c.places, h.read p = h'.read p) : c.seen h = c.seen h' := by
  simp [MessageKeyOf.places] at e
  simp [MessageKeyOf.seen, e]

theorem PendingOf.seen_congr (c : PendingOf Slice) (h h' : Heap) (e : ∀ p ∈ c.places, h.read p = h'.read p) : c.seen h = c.seen h' := by
  simp [PendingOf.places] at e
  simp [PendingOf.seen, e]

theorem map_seen_congr {α β} {seen : Heap → α → β} {places : α → List Slice}
    (hc : ∀ c h h', (∀ p ∈ places c, Heap.read h p = Heap.read h' p) → seen h c = seen h' c) (l : List α) (h h' : Heap)
    (e : ∀ p ∈ l.flatMap places, h.read p = h'.read p) : l.map (seen h) = l.map (seen h') := by
  refine List.map_congr_left fun c hcl => hc c h h' fun p hp => e p ?_
  exact List.mem_flatMap.2 ⟨c, hcl, hp⟩

theorem option_seen_congr {α β} {seen : Heap → α → β} {places : α → List Slice}
    (hc : ∀ c h h', (∀ p ∈ places c, Heap.read h p = Heap.read h' p) → seen h c = seen h' c) (l : Option α) (h h' : Heap)
    (e : ∀ p ∈ l.toList.flatMap places, h.read p = h'.read p) : l.map (seen h) = l.map (seen h') := by
  cases l with
  | none => rfl
  | some c =>
    simp only [Option.map_some]
    rw [hc c h h' fun p hp => e p (by simpa using hp)]

theorem ChainOf.seen_congr (c : ChainOf Slice) (h h' : Heap) (e : ∀ p ∈ c.places, h.read p = h'.read p) : c.seen h = c.seen h' := by
  unfold ChainOf.places at e
  simp only [ChainOf.seen]
  rw [e c.senderRatchetKey (by simp), e c.senderRatchetKeyPrivate (by simp),
    option_seen_congr ChainKeyOf.seen_congr c.chainKey h h' fun p hp => e p (by simp only [List.mem_append]; simp [hp]),
    map_seen_congr MessageKeyOf.seen_congr c.messageKeys h h' fun p hp => e p (by simp only [List.mem_append]; simp [hp])]

theorem StateOf.seen_congr (s : StateOf Slice) (h h' : Heap) (e : ∀ p ∈ s.places, h.read p = h'.read p) : s.seen h = s.seen h' := by
  unfold StateOf.places at e
  simp only [StateOf.seen]
  rw [e s.localIdentityPublic (by simp), e s.remoteIdentityPublic (by simp), e s.rootKey (by simp), e s.aliceBaseKey (by simp),
    option_seen_congr ChainOf.seen_congr s.senderChain h h' fun p hp => e p (by simp only [List.mem_append]; simp [hp]),
    map_seen_congr ChainOf.seen_congr s.receiverChains h h' fun p hp => e p (by simp only [List.mem_append]; simp [hp]),
    option_seen_congr PendingOf.seen_congr s.pendingPreKey h h' fun p hp => e p (by simp only [List.mem_append]; simp [hp])]

/-! ## Parsing -/

/-- The call made these slices, each in an array of its own. -/
structure Made (h h' : Heap) (ps : List Slice) : Prop where
  grows : Grows h h'
  fresh : ∀ p ∈ ps, h.length ≤ p.arr ∧ h'.Valid p
  apart : ps.Pairwise NoOverlap

theorem Grows.read {h h' : Heap} (g : Grows h h') {p : Slice} (hp : h.Valid p) : h'.read p = h.read p := by
  simp only [Heap.read, g.2 p.arr hp.1]

theorem Grows.valid {h h' : Heap} (g : Grows h h') {p : Slice} (hp : h.Valid p) : h'.Valid p := (At.grows g ⟨hp, rfl⟩).1

theorem Made.nil (h : Heap) : Made h h [] := ⟨.refl h, by simp, .nil⟩

theorem Made.append {h h1 h2 : Heap} {ps qs : List Slice} (a : Made h h1 ps) (b : Made h1 h2 qs) : Made h h2 (ps ++ qs) := by
  refine ⟨a.grows.trans b.grows, fun p hp => ?_, List.pairwise_append.2 ⟨a.apart, b.apart, fun x hx y hy => ?_⟩⟩
  · rcases List.mem_append.1 hp with hp | hp
    · exact ⟨(a.fresh p hp).1, b.grows.valid (a.fresh p hp).2⟩
    · exact ⟨Nat.le_trans a.grows.1 (b.fresh p hp).1, (b.fresh p hp).2⟩
  · have h1 := (a.fresh x hx).2.1
    have h2 := (b.fresh y hy).1
    exact .inl (by omega)

/-- A parser makes new slices that show the value. -/
def Parses {α β} (f : α → Heap → β × Heap) (seen : Heap → β → α) (places : β → List Slice) : Prop :=
  ∀ a h, Made h (f a h).2 (places (f a h).1) ∧ seen (f a h).2 (f a h).1 = a

theorem parses_bytes (b : Bytes) (h : Heap) : Made h (newBytes b h).2 [(newBytes b h).1] ∧ (newBytes b h).2.read (newBytes b h).1 = b := by
  have := At.last h b
  refine ⟨⟨.append h [b], ?_, by simp⟩, this.2⟩
  intro p hp
  simp only [List.mem_singleton] at hp
  subst hp
  exact ⟨Nat.le_refl _, this.1⟩

theorem parses_chainKey : Parses newChainKeyBytes ChainKeyOf.seen ChainKeyOf.places := by
  intro c h
  have h1 := parses_bytes c.key h
  refine ⟨h1.1, ?_⟩
  show ({ index := c.index, key := (newBytes c.key h).2.read (newBytes c.key h).1 } : PBChainKey) = c
  rw [h1.2]

theorem parses_pending : Parses newPendingBytes PendingOf.seen PendingOf.places := by
  intro c h
  have h1 := parses_bytes c.baseKey h
  refine ⟨h1.1, ?_⟩
  show ({ preKeyId := c.preKeyId, baseKey := (newBytes c.baseKey h).2.read (newBytes c.baseKey h).1, signedPreKeyId := c.signedPreKeyId } : PBPendingPreKey) = c
  rw [h1.2]

theorem parses_messageKey : Parses newMessageKeyBytes MessageKeyOf.seen MessageKeyOf.places := by
  intro c h
  have h1 := parses_bytes c.cipherKey h
  have h2 := parses_bytes c.macKey (newBytes c.cipherKey h).2
  have h3 := parses_bytes c.iv (newBytes c.macKey (newBytes c.cipherKey h).2).2
  refine ⟨h1.1.append (h2.1.append h3.1), ?_⟩
  simp only [newMessageKeyBytes, MessageKeyOf.seen]
  rw [h3.1.grows.read (h2.1.grows.valid (h1.1.fresh _ (by simp)).2), h2.1.grows.read (h1.1.fresh _ (by simp)).2, h1.2,
    h3.1.grows.read (h2.1.fresh _ (by simp)).2, h2.2, h3.2]

theorem parses_optional {α β} {f : α → Heap → β × Heap} {seen : Heap → β → α} {places : β → List Slice} (hf : Parses f seen places) :
    Parses (newOptional f) (fun h o => o.map (seen h)) (fun o => o.toList.flatMap places) := by
  intro a h
  cases a with
  | none => exact ⟨.nil h, rfl⟩
  | some a =>
    obtain ⟨h1, h2⟩ := hf a h
    refine ⟨by simpa [newOptional] using h1, ?_⟩
    show some (seen (f a h).2 (f a h).1) = some a
    rw [h2]

theorem parses_repeated {α β} {f : α → Heap → β × Heap} {seen : Heap → β → α} {places : β → List Slice} (hf : Parses f seen places)
    (hc : ∀ c h h', (∀ p ∈ places c, Heap.read h p = Heap.read h' p) → seen h c = seen h' c) :
    Parses (newRepeated f) (fun h l => l.map (seen h)) (fun l => l.flatMap places) := by
  intro a
  induction a with
  | nil => exact fun h => ⟨.nil h, rfl⟩
  | cons a as ih =>
    intro h
    obtain ⟨h1, h2⟩ := hf a h
    obtain ⟨h3, h4⟩ := ih (f a h).2
    refine ⟨by simpa [newRepeated] using h1.append h3, ?_⟩
    show seen (newRepeated f as (f a h).2).2 (f a h).1 :: _ = a :: as
    rw [hc _ _ (f a h).2 fun p hp => h3.grows.read (h1.fresh p hp).2, h2]
    congr 1

theorem parses_chain : Parses newChainBytes ChainOf.seen ChainOf.places := by
  intro c h
  have h1 := parses_bytes c.senderRatchetKey h
  have h2 := parses_bytes c.senderRatchetKeyPrivate (newBytes c.senderRatchetKey h).2
  have h3 := parses_optional parses_chainKey c.chainKey (newBytes c.senderRatchetKeyPrivate (newBytes c.senderRatchetKey h).2).2
  have h4 := parses_repeated parses_messageKey MessageKeyOf.seen_congr c.messageKeys
    (newOptional newChainKeyBytes c.chainKey (newBytes c.senderRatchetKeyPrivate (newBytes c.senderRatchetKey h).2).2).2
  refine ⟨h1.1.append (h2.1.append (h3.1.append h4.1)), ?_⟩
  simp only [newChainBytes, ChainOf.seen]
  have g34 := h3.1.grows.trans h4.1.grows
  have g24 := h2.1.grows.trans g34
  have e3 := h3.2
  have e4 := h4.2
  beta_reduce at e3 e4
  rw [e4, g24.read (h1.1.fresh _ (by simp)).2, h1.2, g34.read (h2.1.fresh _ (by simp)).2, h2.2,
    option_seen_congr ChainKeyOf.seen_congr _ _ _ fun p hp => h4.1.grows.read (h3.1.fresh p hp).2, e3]

theorem parses_state : Parses newStateBytes StateOf.seen StateOf.places := by
  intro s h
  have h1 := parses_bytes s.localIdentityPublic h
  have h2 := parses_bytes s.remoteIdentityPublic (newBytes s.localIdentityPublic h).2
  have h3 := parses_bytes s.rootKey (newBytes s.remoteIdentityPublic (newBytes s.localIdentityPublic h).2).2
  have h4 := parses_optional parses_chain s.senderChain (newBytes s.rootKey (newBytes s.remoteIdentityPublic (newBytes s.localIdentityPublic h).2).2).2
  have h5 := parses_repeated parses_chain ChainOf.seen_congr s.receiverChains
    (newOptional newChainBytes s.senderChain (newBytes s.rootKey (newBytes s.remoteIdentityPublic (newBytes s.localIdentityPublic h).2).2).2).2
  have h6 := parses_optional parses_pending s.pendingPreKey (newRepeated newChainBytes s.receiverChains
    (newOptional newChainBytes s.senderChain (newBytes s.rootKey (newBytes s.remoteIdentityPublic (newBytes s.localIdentityPublic h).2).2).2).2).2
  have h7 := parses_bytes s.aliceBaseKey (newOptional newPendingBytes s.pendingPreKey (newRepeated newChainBytes s.receiverChains
    (newOptional newChainBytes s.senderChain (newBytes s.rootKey (newBytes s.remoteIdentityPublic (newBytes s.localIdentityPublic h).2).2).2).2).2).2
  refine ⟨h1.1.append (h2.1.append (h3.1.append (h4.1.append (h5.1.append (h6.1.append h7.1))))), ?_⟩
  simp only [newStateBytes, StateOf.seen]
  have g67 := h6.1.grows.trans h7.1.grows
  have g57 := h5.1.grows.trans g67
  have g47 := h4.1.grows.trans g57
  have g37 := h3.1.grows.trans g47
  have g27 := h2.1.grows.trans g37
  have e4 := h4.2
  have e5 := h5.2
  have e6 := h6.2
  beta_reduce at e4 e5 e6
  rw [h7.2, g27.read (h1.1.fresh _ (by simp)).2, h1.2, g37.read (h2.1.fresh _ (by simp)).2, h2.2, g47.read (h3.1.fresh _ (by simp)).2, h3.2,
    option_seen_congr ChainOf.seen_congr _ _ _ fun p hp => g57.read (h4.1.fresh p hp).2, e4,
    map_seen_congr ChainOf.seen_congr _ _ _ fun p hp => g67.read (h5.1.fresh p hp).2, e5,
    option_seen_congr PendingOf.seen_congr _ _ _ fun p hp => h7.1.grows.read (h6.1.fresh p hp).2, e6]

end Verif
