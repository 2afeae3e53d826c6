import Mathlib.Data.List.Count
import Mathlib.Data.List.Perm.Subperm
import Verif.Model.StateUse
import Verif.Proofs.StateBytesSim
import Verif.Proofs.Cipher

/-! Helper lemmas for C133: the ratchet, over memory, makes new slices that do not overlap. -/

namespace Verif

/-! ## Counting places -/

theorem ChainOf.count_places (c : ChainOf Slice) (a : Slice) : c.places.count a =
    [c.senderRatchetKey].count a + [c.senderRatchetKeyPrivate].count a + (c.chainKey.toList.flatMap ChainKeyOf.places).count a +
      (c.messageKeys.flatMap MessageKeyOf.places).count a := by
  unfold ChainOf.places
  simp only [List.count_append]
  omega

theorem StateOf.count_places (s : StateOf Slice) (a : Slice) : s.places.count a =
    [s.localIdentityPublic].count a + [s.remoteIdentityPublic].count a + [s.rootKey].count a + (s.senderChain.toList.flatMap ChainOf.places).count a +
      (s.receiverChains.flatMap ChainOf.places).count a + (s.pendingPreKey.toList.flatMap PendingOf.places).count a + [s.aliceBaseKey].count a := by
  unfold StateOf.places
  simp only [List.count_append]
  omega

theorem count_set_chain (cs : List (ChainOf Slice)) (j : Nat) (c c' : ChainOf Slice) (hc : cs[j]? = some c) (a : Slice) :
    ((cs.set j c').flatMap ChainOf.places).count a + c.places.count a = (cs.flatMap ChainOf.places).count a + c'.places.count a := by
  induction cs generalizing j with
  | nil => simp at hc
  | cons d cs ih =>
    cases j with
    | zero =>
      simp only [List.getElem?_cons_zero, Option.some.injEq] at hc
      subst hc
      simp only [List.set_cons_zero, List.flatMap_cons, List.count_append]
      omega
    | succ j =>
      simp only [List.getElem?_cons_succ] at hc
      have := ih j hc
      simp only [List.set_cons_succ, List.flatMap_cons, List.count_append]
      omega

theorem count_drop {α} (f : α → List Slice) (l : List α) (n : Nat) (a : Slice) : ((l.drop n).flatMap f).count a ≤ (l.flatMap f).count a := by
  conv => rhs; rw [← List.take_append_drop n l]
  rw [List.flatMap_append, List.count_append]
  omega

theorem subperm_of_count {l1 l2 : List Slice} (h : ∀ a, l1.count a ≤ l2.count a) : l1.Subperm l2 := List.subperm_ext_iff.2 fun a _ => h a

/-! ## States in memory -/

/-- The state shows this value, its slices lie in arrays with number `n` or later, and no two of them overlap. -/
structure UHolds (n : Nat) (h : Heap) (s : StateOf Slice) (v : SState) : Prop where
  seen : s.seen h = v
  valid : ∀ p ∈ s.places, h.Valid p
  fresh : ∀ p ∈ s.places, n ≤ p.arr
  apart : s.places.Pairwise NoOverlap

theorem UHolds.grows {n : Nat} {h h' : Heap} {s : StateOf Slice} {v : SState} (hs : UHolds n h s v) (g : Grows h h') : UHolds n h' s v :=
  ⟨(s.seen_congr h' h fun p hp => g.read (hs.valid p hp)).trans hs.seen, fun p hp => g.valid (hs.valid p hp), hs.fresh, hs.apart⟩

theorem UHolds.made {n : Nat} {h h' : Heap} {s s' : StateOf Slice} {v v' : SState} {news : List Slice} (hs : UHolds n h s v) (hm : Made h h' news)
    (hn : n ≤ h.length) (sub : s'.places.Subperm (s.places ++ news)) (seen : s'.seen h' = v') : UHolds n h' s' v' := by
  refine ⟨seen, fun p hp => ?_, fun p hp => ?_, ?_⟩
  · rcases List.mem_append.1 (sub.subset hp) with hp | hp
    · exact hm.grows.valid (hs.valid p hp)
    · exact (hm.fresh p hp).2
  · rcases List.mem_append.1 (sub.subset hp) with hp | hp
    · exact hs.fresh p hp
    · exact Nat.le_trans hn (hm.fresh p hp).1
  · obtain ⟨l, hl, hsub⟩ := sub
    refine (hl.pairwise_iff fun h => NoOverlap.symm h).1 (List.Pairwise.sublist hsub ?_)
    refine List.pairwise_append.2 ⟨hs.apart, hm.apart, fun x hx y hy => .inl ?_⟩
    have a := (hs.valid x hx).1
    have b := (hm.fresh y hy).1
    omega

/-! ## Keys -/

def KeyIs (h : Heap) (c : ChainKeyRef) (v : ChainKey) : Prop := At h c.key v.key ∧ c.index = v.index

def KeysAre (h : Heap) (c : MessageKeysRef) (v : MessageKeys) : Prop :=
  At h c.cipherKey v.cipherKey ∧ At h c.macKey v.macKey ∧ At h c.iv v.iv ∧ c.counter = v.counter

theorem KeyIs.grows {h h' : Heap} (g : Grows h h') {c : ChainKeyRef} {v : ChainKey} (hk : KeyIs h c v) : KeyIs h' c v := ⟨hk.1.grows g, hk.2⟩

theorem KeysAre.grows {h h' : Heap} (g : Grows h h') {c : MessageKeysRef} {v : MessageKeys} (hk : KeysAre h c v) : KeysAre h' c v :=
  ⟨hk.1.grows g, hk.2.1.grows g, hk.2.2.1.grows g, hk.2.2.2⟩

theorem array_last (h : Heap) (b : Bytes) : Heap.array (h ++ [b]) h.length = b := by simp [Heap.array]

theorem At.window (h : Heap) (b : Bytes) (off len cap : Nat) (h1 : len ≤ cap) (h2 : off + cap ≤ b.length) :
    At (h ++ [b]) ⟨h.length, off, len, cap⟩ ((b.drop off).take len) :=
  ⟨⟨by simp, h1, by simp only [array_last]; exact h2⟩, by simp [Heap.read, array_last]⟩

theorem does_made (h : Heap) (b : Bytes) : Does h (allocBytes b) (.ok b) (fun h' x b => At h' x b ∧ Made h h' [x]) := by
  have := parses_bytes b h
  exact ⟨.append h [b], .last h b, this.1⟩

theorem does_use_next (C : Crypto) {h : Heap} {c : ChainKeyRef} {v : ChainKey} (hk : KeyIs h c v) :
    Does h (c.next C) (.ok (v.next C)) (fun h' k w => KeyIs h' k w ∧ Made h h' [k.key]) := by
  have e : c.next C h = (.ok ⟨⟨h.length, 0, (v.next C).key.length, (v.next C).key.length⟩, (v.next C).index⟩, h ++ [(v.next C).key]) := by
    unfold ChainKeyRef.next ChainKey.next
    rw [hk.1.2, hk.2]
    rfl
  unfold Does
  rw [e]
  exact ⟨.append h _, ⟨.last h _, rfl⟩, (parses_bytes _ h).1⟩

theorem does_messageKeys (C : Crypto) {h : Heap} {c : ChainKeyRef} {v : ChainKey} (hk : KeyIs h c v) :
    Does h (c.messageKeys C) (.ok (v.messageKeys C)) (fun h' k w => KeysAre h' k w ∧ Made h h' [k.cipherKey, k.macKey, k.iv]) := by
  have e : c.messageKeys C h = (.ok { cipherKey := ⟨h.length, 0, 32, 80⟩, macKey := ⟨h.length, 32, 32, 48⟩, iv := ⟨h.length, 64, 16, 16⟩, counter := c.index },
      h ++ [C.hkdf (chainHash C v.key [1]) [] messageKeysInfo 80]) := by
    unfold ChainKeyRef.messageKeys
    rw [hk.1.2]
    rfl
  unfold Does
  rw [e]
  have hl := C.hkdf_len (chainHash C v.key [1]) [] messageKeysInfo 80
  generalize hb : C.hkdf (chainHash C v.key [1]) [] messageKeysInfo 80 = b at hl
  have w1 := At.window h b 0 32 80 (by omega) (by omega)
  have w2 := At.window h b 32 32 48 (by omega) (by omega)
  have w3 := At.window h b 64 16 16 (by omega) (by omega)
  refine ⟨.append h _, ⟨?_, ?_, ?_, hk.2⟩, .append h _, ?_, ?_⟩
  · simp only [ChainKey.messageKeys, deriveMessageKeys, hb]
    exact w1
  · simp only [ChainKey.messageKeys, deriveMessageKeys, hb]
    exact w2
  · simp only [ChainKey.messageKeys, deriveMessageKeys, hb]
    rw [← List.take_of_length_le (l := b.drop 64) (i := 16) (by simp; omega)]
    exact w3
  · intro p hp
    simp only [List.mem_cons, List.not_mem_nil, or_false] at hp
    rcases hp with rfl | rfl | rfl
    · exact ⟨Nat.le_refl _, w1.1⟩
    · exact ⟨Nat.le_refl _, w2.1⟩
    · exact ⟨Nat.le_refl _, w3.1⟩
  · simp [NoOverlap]

theorem does_createChain (C : Crypto) {h : Heap} {x : Slice} {r : RootKey} (hx : At h x r.key) (ours : PrivKey) (theirs : PubKey) :
    Does h (createChainRef C x ours theirs) (r.createChain C ours theirs)
      (fun h' a b => At h' a.1 b.1.key ∧ KeyIs h' a.2 b.2 ∧ Made h h' [a.1, a.2.key]) := by
  unfold Does createChainRef RootKey.createChain
  rw [hx.2]
  cases ours.agreement C theirs with
  | err e => exact ⟨.refl h, rfl⟩
  | panic => exact ⟨.refl h, trivial⟩
  | ok secret =>
    have hl := C.hkdf_len secret r.key rootInfo 64
    simp only [Res.bind_ok]
    generalize C.hkdf secret r.key rootInfo 64 = b at hl
    have w1 := At.window h b 0 32 64 (by omega) (by omega)
    have w2 := At.window h b 32 32 32 (by omega) (by omega)
    have e1 : newRootKey (b.take 32) = .ok ⟨b.take 32⟩ := by
      unfold newRootKey
      rw [if_neg (by simp; omega)]
    have e2 : newChainKey (b.drop 32) 0 = .ok ⟨b.drop 32, 0⟩ := by
      unfold newChainKey
      rw [if_neg (by simp; omega)]
    rw [e1, e2]
    refine ⟨.append h [b], w1, ⟨?_, rfl⟩, .append h [b], ?_, ?_⟩
    · show At (h ++ [b]) _ (b.drop 32)
      rw [← List.take_of_length_le (l := b.drop 32) (i := 32) (by simp; omega)]
      exact w2
    · intro p hp
      replace hp : p ∈ [(⟨h.length, 0, 32, 64⟩ : Slice), ⟨h.length, 32, 32, 32⟩] := hp
      simp only [List.mem_cons, List.not_mem_nil, or_false] at hp
      rcases hp with rfl | rfl
      · exact ⟨Nat.le_refl _, w1.1⟩
      · exact ⟨Nat.le_refl _, w2.1⟩
    · show List.Pairwise NoOverlap [(⟨h.length, 0, 32, 64⟩ : Slice), ⟨h.length, 32, 32, 32⟩]
      simp [NoOverlap]

end Verif
