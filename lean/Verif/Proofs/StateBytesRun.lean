import Mathlib.Data.List.Forall2
import Verif.Proofs.StateBytes

namespace Verif

/-! ## Writing -/

/-- The memory after a write. -/
def putAt (h : Heap) (x : Slice) (offset : Nat) (bytes : Bytes) : Heap := h.modify x.arr fun a => overwrite a (x.off + offset) bytes

theorem array_putAt (h : Heap) (x : Slice) (offset : Nat) (bytes : Bytes) (i : Nat) :
    (putAt h x offset bytes).array i = if x.arr = i ∧ i < h.length then overwrite (h.array i) (x.off + offset) bytes else h.array i := by
  unfold putAt Heap.array
  rw [List.getElem?_modify]
  by_cases hi : i < h.length
  · by_cases e : x.arr = i <;> simp [hi, e]
  · simp [List.getElem?_eq_none (Nat.le_of_not_lt hi), hi]

theorem window_apart (a : Bytes) (i : Nat) (bs : Bytes) (off len : Nat) (hl : i + bs.length ≤ a.length)
    (h : i + bs.length ≤ off ∨ off + len ≤ i) : ((overwrite a i bs).drop off).take len = (a.drop off).take len := by
  apply List.ext_getElem?
  intro j
  unfold overwrite
  simp only [List.getElem?_take, List.getElem?_drop, List.getElem?_append, List.length_append, List.length_take]
  by_cases hj : j < len
  · simp only [hj, if_true]
    rw [Nat.min_eq_left (by omega)]
    rcases h with h | h
    · rw [if_neg (by omega)]
      congr 1
      omega
    · rw [if_pos (by omega), if_pos (by omega), if_pos (by omega)]
  · simp [hj]

theorem read_putAt_apart {h : Heap} {x p : Slice} {offset : Nat} {bytes : Bytes} (hx : h.Valid x) (fit : offset + bytes.length ≤ x.len)
    (ha : NoOverlap x p) : (putAt h x offset bytes).read p = h.read p := by
  unfold Heap.read
  rw [array_putAt]
  by_cases e : x.arr = p.arr ∧ p.arr < h.length
  · rw [if_pos e]
    obtain ⟨h1, h2, h3⟩ := hx
    rw [← e.1]
    refine window_apart _ _ _ _ _ (by omega) ?_
    rcases ha with ha | ha | ha
    · exact absurd e.1 ha
    · left; omega
    · right; omega
  · rw [if_neg e]

theorem read_putAt_self {h : Heap} {x : Slice} {offset : Nat} {bytes : Bytes} (hx : h.Valid x) (fit : offset + bytes.length ≤ x.len) :
    (putAt h x offset bytes).read x = overwrite (h.read x) offset bytes := by
  obtain ⟨h1, h2, h3⟩ := hx
  unfold Heap.read
  rw [array_putAt, if_pos ⟨rfl, h1⟩]
  exact overwrite_inside _ _ _ _ _ fit (by omega)

theorem valid_putAt {h : Heap} {x p : Slice} {offset : Nat} {bytes : Bytes} (hx : h.Valid x) (fit : offset + bytes.length ≤ x.len)
    (hp : h.Valid p) : (putAt h x offset bytes).Valid p := by
  obtain ⟨h1, h2, h3⟩ := hx
  refine ⟨by simpa [putAt] using hp.1, hp.2.1, ?_⟩
  rw [array_putAt]
  by_cases e : x.arr = p.arr ∧ p.arr < h.length
  · rw [if_pos e, overwrite_length _ _ _ (by rw [← e.1]; omega)]
    exact hp.2.2
  · rw [if_neg e]
    exact hp.2.2

theorem len_of_valid {h : Heap} {p : Slice} (hp : h.Valid p) : (h.read p).length = p.len := (At.len ⟨hp, rfl⟩).symm

/-! ## Chains -/

theorem findChain_seen (h : Heap) (key : Bytes) (cs : List (ChainOf Slice)) (i : Nat) :
    SState.findChain key (cs.map (ChainOf.seen h)) i = (StateOf.findChainOf h key cs i).map fun o => (o.1, o.2.seen h) := by
  induction cs generalizing i with
  | nil => rfl
  | cons c cs ih =>
    simp only [List.map_cons, SState.findChain, StateOf.findChainOf]
    by_cases e : h.read c.senderRatchetKey = key
    · rw [if_pos (by exact e), if_pos e]
      rfl
    · rw [if_neg (by exact e), if_neg e, ih]

theorem findChainOf_congr {h h' : Heap} (key : Bytes) (cs : List (ChainOf Slice)) (i : Nat)
    (e : cs.map (fun c => h.read c.senderRatchetKey) = cs.map fun c => h'.read c.senderRatchetKey) :
    StateOf.findChainOf h' key cs i = StateOf.findChainOf h key cs i := by
  induction cs generalizing i with
  | nil => rfl
  | cons c cs ih =>
    simp only [List.map_cons, List.cons.injEq] at e
    simp only [StateOf.findChainOf, e.1, ih _ e.2]

theorem findChainOf_at {h : Heap} {key : Bytes} {cs : List (ChainOf Slice)} {i j : Nat} {c : ChainOf Slice}
    (hf : StateOf.findChainOf h key cs i = some (j, c)) : i ≤ j ∧ cs[j - i]? = some c := by
  induction cs generalizing i with
  | nil => simp [StateOf.findChainOf] at hf
  | cons d cs ih =>
    unfold StateOf.findChainOf at hf
    by_cases e : h.read d.senderRatchetKey = key
    · rw [if_pos e] at hf
      simp only [Option.some.injEq, Prod.mk.injEq] at hf
      obtain ⟨rfl, rfl⟩ := hf
      simp
    · rw [if_neg e] at hf
      have := ih hf
      refine ⟨by omega, ?_⟩
      rw [show j - i = (j - (i + 1)) + 1 from by omega]
      simpa using this.2

/-- The chain key of the chain of a sender. -/
def chainKeyOf (h : Heap) (key : Bytes) (cs : List (ChainOf Slice)) (i : Nat) : Option (Option (ChainKeyOf Slice)) :=
  (StateOf.findChainOf h key cs i).map fun o => o.2.chainKey

theorem receiverSlice_eq (s : StateOf Slice) (h : Heap) (k : PubKey) :
    s.receiverChainKeySlice h k = match chainKeyOf h k.bytes s.receiverChains 0 with
      | none => .ok none
      | some none => .err (.invalidKeyLength 32 0)
      | some (some ck) => do return some (← keySlice ck.key) := by
  unfold StateOf.receiverChainKeySlice chainKeyOf
  cases StateOf.findChainOf h k.bytes s.receiverChains 0 with
  | none => rfl
  | some o =>
    obtain ⟨j, c⟩ := o
    simp only [Option.map_some]
    cases c.chainKey <;> rfl

theorem chainKeyOf_set (h : Heap) (key : Bytes) (cs : List (ChainOf Slice)) (n i : Nat) (c : ChainOf Slice) (ks : List (MessageKeyOf Slice))
    (hc : cs[n]? = some c) : chainKeyOf h key (cs.set n { c with messageKeys := ks }) i = chainKeyOf h key cs i := by
  induction cs generalizing n i with
  | nil => simp at hc
  | cons d cs ih =>
    cases n with
    | zero =>
      simp only [List.getElem?_cons_zero, Option.some.injEq] at hc
      subst hc
      simp only [List.set_cons_zero, chainKeyOf, StateOf.findChainOf]
      by_cases e : h.read d.senderRatchetKey = key <;> simp [e]
    | succ n =>
      simp only [List.getElem?_cons_succ] at hc
      have := ih n (i + 1) hc
      simp only [chainKeyOf] at this
      simp only [List.set_cons_succ, chainKeyOf, StateOf.findChainOf]
      by_cases e : h.read d.senderRatchetKey = key
      · simp [e]
      · simp only [if_neg e, this]

/-- Taking message keys out of one chain. -/
theorem places_without (cs : List (ChainOf Slice)) (n : Nat) (c : ChainOf Slice) (q : MessageKeyOf Slice → Bool) (hc : cs[n]? = some c) :
    (cs.flatMap ChainOf.places).Perm ((cs.set n { c with messageKeys := c.messageKeys.filter fun k => !q k }).flatMap ChainOf.places ++
      (c.messageKeys.filter q).flatMap MessageKeyOf.places) := by
  induction cs generalizing n with
  | nil => simp at hc
  | cons d cs ih =>
    cases n with
    | zero =>
      simp only [List.getElem?_cons_zero, Option.some.injEq] at hc
      subst hc
      simp only [List.set_cons_zero, List.flatMap_cons]
      have hp : (d.messageKeys.flatMap MessageKeyOf.places).Perm
          ((d.messageKeys.filter fun k => !q k).flatMap MessageKeyOf.places ++ (d.messageKeys.filter q).flatMap MessageKeyOf.places) := by
        rw [← List.flatMap_append]
        refine List.Perm.flatMap_right _ ?_
        exact ((List.filter_append_perm q d.messageKeys).symm).trans List.perm_append_comm
      unfold ChainOf.places
      simp only [List.append_assoc]
      refine List.Perm.append_left _ (List.Perm.append_left _ (List.Perm.append_left _ ?_))
      refine (hp.append_right _).trans ?_
      rw [List.append_assoc]
      exact List.Perm.append_left _ List.perm_append_comm
    | succ n =>
      simp only [List.getElem?_cons_succ] at hc
      simp only [List.set_cons_succ, List.flatMap_cons, List.append_assoc]
      exact List.Perm.append_left _ (ih n hc)

/-- Writing to the chain key of a chain. -/
theorem ChainOf.seen_put (c : ChainOf Slice) (ck : ChainKeyOf Slice) (hck : c.chainKey = some ck) {h : Heap} {offset : Nat} {bytes : Bytes}
    (hx : h.Valid ck.key) (fit : offset + bytes.length ≤ ck.key.len) (hp : c.places.Pairwise NoOverlap) :
    c.seen (putAt h ck.key offset bytes) =
      { c.seen h with chainKey := some { index := ck.index, key := overwrite (h.read ck.key) offset bytes } } := by
  unfold ChainOf.places at hp
  simp only [hck, Option.toList_some, List.flatMap_cons, List.flatMap_nil, List.append_nil, ChainKeyOf.places, List.cons_append, List.nil_append,
    List.pairwise_cons, List.mem_cons] at hp
  obtain ⟨p1, p2, p3, _⟩ := hp
  simp only [ChainOf.seen, hck, Option.map_some, ChainKeyOf.seen]
  rw [read_putAt_apart hx fit (p1 _ (by simp)).symm, read_putAt_apart hx fit (p2 _ (by simp)).symm, read_putAt_self hx fit,
    map_seen_congr MessageKeyOf.seen_congr c.messageKeys _ h fun p hp => read_putAt_apart hx fit (p3 p hp)]

theorem chains_seen_put (cs : List (ChainOf Slice)) (n : Nat) (c : ChainOf Slice) (ck : ChainKeyOf Slice) (hc : cs[n]? = some c)
    (hck : c.chainKey = some ck) {h : Heap} {offset : Nat} {bytes : Bytes} (hx : h.Valid ck.key) (fit : offset + bytes.length ≤ ck.key.len)
    (hp : (cs.flatMap ChainOf.places).Pairwise NoOverlap) :
    cs.map (ChainOf.seen (putAt h ck.key offset bytes)) = (cs.map (ChainOf.seen h)).set n
      { c.seen h with chainKey := some { index := ck.index, key := overwrite (h.read ck.key) offset bytes } } := by
  induction cs generalizing n with
  | nil => simp at hc
  | cons d cs ih =>
    simp only [List.flatMap_cons, List.pairwise_append] at hp
    obtain ⟨p1, p2, p3⟩ := hp
    cases n with
    | zero =>
      simp only [List.getElem?_cons_zero, Option.some.injEq] at hc
      subst hc
      simp only [List.map_cons, List.set_cons_zero]
      rw [d.seen_put ck hck hx fit p1, map_seen_congr ChainOf.seen_congr cs _ h fun p hp =>
        read_putAt_apart hx fit (p3 ck.key (by simp [ChainOf.places, hck, ChainKeyOf.places]) p hp)]
    | succ n =>
      simp only [List.getElem?_cons_succ] at hc
      simp only [List.map_cons, List.set_cons_succ]
      have hm : ck.key ∈ cs.flatMap ChainOf.places := List.mem_flatMap.2 ⟨c, List.mem_of_getElem? hc, by simp [ChainOf.places, hck, ChainKeyOf.places]⟩
      rw [ih n hc p2, d.seen_congr _ h fun p hp => read_putAt_apart hx fit (p3 p hp _ hm).symm]

end Verif
