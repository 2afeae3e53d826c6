import Verif.Proofs.GroupPlacesCalls
import Verif.Props.GroupBytes

/-!
# C131: how far, and for how long, the chain key of a distribution message is shared
-/

namespace Verif

/-- C131: what a write to `ChainKey` of the distribution message just made changes in the store. It is the chain key of the first state of
this sender's record for this distribution id, and nothing else: no other state, no kept message key, no other record. -/
theorem C131_only_this_key_changes (C : Crypto) (rand sysRand : Bytes) (before : List ByteOp) (sender : Address) (dist : DistId) (offset : Nat) (bytes : Bytes) :
    let s := ((ByteMem.start rand sysRand).run C before).2
    let d := s.step C (.newDistribution sender dist)
    let w := (d.2.step C (.writeChainKey s.chainKeys.length offset bytes)).2
    d.1 = .ok () → ∃ st rest, d.2.mem.seen.records (sender, dist) = some (st :: rest) ∧ (offset + bytes.length ≤ st.chainKey.seed.length →
      w.mem.seen.records (sender, dist) = some ({ st with chainKey := { st.chainKey with seed := overwrite st.chainKey.seed offset bytes } } :: rest) ∧
      ∀ k, k ≠ (sender, dist) → w.mem.seen.records k = d.2.mem.seen.records k) := by
  intro s d w hd
  obtain ⟨v, inv⟩ := ByteInv.reached C rand sysRand before
  obtain ⟨a, m, ha, hd2⟩ := ByteMem.call_ok (s := s) (x := newDistributionBytes C sender dist) (sl := fun d => [d.serialized]) (ck := fun d => [d.chainKey]) hd
  have hd2 : d.2 = ⟨m, s.slices ++ [a.serialized], s.chainKeys ++ [a.chainKey]⟩ := hd2
  obtain ⟨msg, h1, h2, h3, h4, h5, st, r, hrec, hseed⟩ := (sim_newDistribution C sender dist inv.ctx inv.ok).ok ha
  have hplaces : m.Places := by
    have := (ByteMem.stores C (places_reached C rand sysRand before) (.newDistribution sender dist)).places
    have e : d.2.mem = m := by rw [hd2]
    rw [← e]
    exact this
  have hk : d.2.chainKeys[s.chainKeys.length]? = some a.chainKey := by rw [hd2]; simp
  have hrecs : d.2.mem.seen.records = fun k => (m.records k).map (List.map (GStateRef.seen m.heap)) := by rw [hd2]; rfl
  refine ⟨st.seen m.heap, r.map (GStateRef.seen m.heap), by rw [hrecs]; simp only [hrec, Option.map_some, List.map_cons], fun hl => ?_⟩
  have hread : (st.seen m.heap).chainKey.seed = m.heap.read a.chainKey := by simp only [GStateRef.seen, ChainRef.seen, hseed]
  have hlen : a.chainKey.len = (st.seen m.heap).chainKey.seed.length := by rw [hread, h2.2, h2.len]
  have hw : w = d.2.writeTo a.chainKey offset bytes := by
    show (d.2.step C (.writeChainKey s.chainKeys.length offset bytes)).2 = _
    simp only [ByteMem.step, hk]
  have hwm : w.mem = { m with heap := m.heap.modify a.chainKey.arr fun c => overwrite c (a.chainKey.off + offset) bytes } := by
    rw [hw, hd2]
    unfold ByteMem.writeTo
    rw [if_pos (by omega)]
  have hdist := hplaces.distinct _ _ hrec
  have hnd := hdist.1
  simp only [placesOf_cons, GStateRef.arrays, List.cons_append, List.nodup_cons, List.mem_append, not_or, hseed] at hnd
  have hws : w.mem.seen.records = fun k => (m.records k).map
      (List.map (GStateRef.seen (m.heap.modify a.chainKey.arr fun c => overwrite c (a.chainKey.off + offset) bytes))) := by rw [hwm]; rfl
  constructor
  · rw [hws]
    simp only [hrec, Option.map_some, List.map_cons]
    rw [map_seen_modify_ne _ _ _ hnd.1.2]
    congr 2
    unfold GStateRef.seen
    simp only [GState.mk.injEq, true_and]
    refine ⟨?_, ?_⟩
    · simp only [ChainRef.seen, hseed, SKChainKey.mk.injEq, and_true]
      rw [(h2.write (by rw [hread, h2.2] at hl; exact hl)).2, h2.2]
    · refine List.map_congr_left fun c hc => ?_
      unfold ChainRef.seen
      rw [read_modify_ne]
      intro he
      exact hnd.1.1 (List.mem_map.2 ⟨c, hc, he⟩)
  · intro k hne
    rw [hws, hrecs]
    simp only
    cases hr : m.records k with
    | none => rfl
    | some r' =>
      refine congrArg some (map_seen_modify_ne _ _ _ ?_)
      refine hplaces.apart _ _ _ _ (Ne.symm hne) hrec hr _ ?_
      simp [placesOf, GStateRef.arrays, hseed]

/-- C131: the sharing ends with the next message. When the sender has sent a message after making the distribution message, with any
operations but calls for this sender in between, writing to `ChainKey` of the distribution message changes nothing in the store, then
or after any further operations. -/
theorem C131_shared_until_next_message (C : Crypto) (rand sysRand : Bytes) (before between later : List ByteOp) (sender : Address) (dist : DistId)
    (i offset : Nat) (bytes : Bytes) :
    let s := ((ByteMem.start rand sysRand).run C before).2
    let d := s.step C (.newDistribution sender dist)
    let b := (d.2.run C between).2
    let e := b.step C (.encrypt sender dist i)
    let t := (e.2.run C later).2
    d.1 = .ok () → (∀ op ∈ between, op.NotFor sender) → (i < b.slices.length ∧ e.1 = .ok ()) →
    (∃ x, t.chainKeys[s.chainKeys.length]? = some x) ∧ (t.step C (.writeChainKey s.chainKeys.length offset bytes)).2.mem.seen = t.mem.seen := by
  intro s d b e t hd hb ⟨hi, he⟩
  obtain ⟨v, inv⟩ := ByteInv.reached C rand sysRand before
  obtain ⟨a, m, ha, hd2⟩ := ByteMem.call_ok (s := s) (x := newDistributionBytes C sender dist) (sl := fun d => [d.serialized]) (ck := fun d => [d.chainKey]) hd
  have hd2 : d.2 = ⟨m, s.slices ++ [a.serialized], s.chainKeys ++ [a.chainKey]⟩ := hd2
  obtain ⟨msg, h1, h2, h3, h4, h5, st, r, hrec, hseed⟩ := (sim_newDistribution C sender dist inv.ctx inv.ok).ok ha
  have pd : d.2.mem.Places := (ByteMem.stores C (places_reached C rand sysRand before) (.newDistribution sender dist)).places
  have hkd : d.2.chainKeys[s.chainKeys.length]? = some a.chainKey := by rw [hd2]; simp
  have frame : ∀ (ops : List ByteOp) (q : ByteMem), (∀ op ∈ ops, op.NotFor sender) → (q.run C ops).2.mem.records (sender, dist) = q.mem.records (sender, dist) := by
    intro ops
    induction ops with
    | nil => exact fun q _ => rfl
    | cons op ops ih =>
      intro q hq
      refine (ih _ fun o ho => hq o (by simp [ho])).trans (ByteMem.frame C q op (sender, dist) ?_)
      have := hq op (by simp)
      cases op <;> exact this
  have hrecb : b.mem.records (sender, dist) = some (st :: r) := by rw [frame between d.2 hb, hd2]; exact hrec
  have pb : b.mem.Places := (ByteMem.stores_run C pd between).places
  have hget : b.slices[i]? = some b.slices[i] := List.getElem?_eq_getElem hi
  have hes : e = b.call (encryptBytes C sender dist b.slices[i]) (fun c => [c.serialized, c.ciphertext]) fun _ => [] := by
    show b.step C (.encrypt sender dist i) = _
    simp only [ByteMem.step, hget]
  have sb : Stores b.mem e.2.mem := ByteMem.stores C pb (.encrypt sender dist i)
  have free : ∀ k r', e.2.mem.records k = some r' → a.chainKey.arr ∉ placesOf r' := by
    rw [hes] at he ⊢
    obtain ⟨o, m', ho, he2⟩ := ByteMem.call_ok he
    rw [he2]
    rw [← hseed]
    exact encrypt_frees C pb ho hrecb
  have hlt : a.chainKey.arr < e.2.mem.heap.length := by
    refine Nat.lt_of_lt_of_le ?_ sb.grows
    rw [← hseed]
    exact (pb.distinct _ _ hrecb).2 _ (by simp [placesOf, GStateRef.arrays])
  have freet := (ByteMem.stores_run C sb.places later).unused hlt free
  have hkt : t.chainKeys[s.chainKeys.length]? = some a.chainKey := by
    refine getElem?_of_prefix ?_ hkd
    exact ((ByteMem.run_chainKeys C d.2 between).trans (ByteMem.step_chainKeys C b _)).trans (ByteMem.run_chainKeys C e.2 later)
  refine ⟨⟨_, hkt⟩, ?_⟩
  have hst : (t.step C (.writeChainKey s.chainKeys.length offset bytes)).2 = t.writeTo a.chainKey offset bytes := by
    simp only [ByteMem.step, hkt]
  rw [hst]
  unfold ByteMem.writeTo
  split
  · exact seen_unused freet _
  · rfl

/-! ## Instances -/

namespace Ex

/-- Bob's record is there too: Bob has read the first message and skipped none. -/
def earlier : List ByteOp := [.newDistribution alice dist, .make [] [1, 2, 3] [], .process bob 0, .encrypt alice dist 1, .decrypt bob 3]

end Ex

/-- A second distribution message, made after a message was sent: two records, and the write changes the chain key. -/
example : let s := ((ByteMem.start Ex.readers (Ex.randomness 9)).run toy Ex.earlier).2
    let d := s.step toy (.newDistribution Ex.alice Ex.dist)
    let w := (d.2.step toy (.writeChainKey s.chainKeys.length 3 [7, 7])).2
    ((ByteMem.start Ex.readers (Ex.randomness 9)).run toy Ex.earlier).1 = List.replicate 5 (.ok ()) ∧ d.1 = .ok () ∧
    (d.2.mem.seen.records (Ex.bob, Ex.dist)).isSome = true ∧ w.mem.seen.records (Ex.alice, Ex.dist) ≠ d.2.mem.seen.records (Ex.alice, Ex.dist) := by
  decide +kernel

/-- The hypotheses of `C131_shared_until_next_message`: Bob reads a message again, and Alice sends another one. -/
example : let s := ((ByteMem.start Ex.readers (Ex.randomness 9)).run toy Ex.earlier).2
    let d := s.step toy (.newDistribution Ex.alice Ex.dist)
    let b := (d.2.run toy [.make [] [4] [], .decrypt Ex.bob 3]).2
    d.1 = .ok () ∧ 1 < b.slices.length ∧ (b.step toy (.encrypt Ex.alice Ex.dist 1)).1 = .ok () := by
  decide +kernel

example : ∀ op ∈ [ByteOp.make [] [4] [], .decrypt Ex.bob 3], op.NotFor Ex.alice := by
  intro op h
  simp only [List.mem_cons, List.not_mem_nil, or_false] at h
  rcases h with h | h <;> subst h
  · exact trivial
  · show Ex.bob ≠ Ex.alice
    decide

end Verif
