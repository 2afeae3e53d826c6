import Verif.Proofs.GroupBytesRun
import Verif.Spec.GroupExample

/-!
# C131: group messages and the caller's bytes
-/

namespace Verif

/-- **C131** (partial: the program does not write to the chain key of a distribution message that `NewSenderKeyDistribution` made, see
`C131_chain_key_false`). A program that makes byte slices, writes to them, gets bytes from group messages, writes to these, and calls the
group functions over the in-memory store sees the same errors as if byte strings were values without a place in memory; and at the end
every slice it holds and every stored record shows the bytes of that value. Over values a write changes one byte string and no record. -/
theorem C131_as_values_partial (C : Crypto) (rand sysRand : Bytes) (ops : List ByteOp) (hops : ∀ op ∈ ops, op.Leaves) :
    ((ByteMem.start rand sysRand).run C ops).1 = ((ByteVals.start rand sysRand).run C ops).1 ∧
      ((ByteMem.start rand sysRand).run C ops).2.Shows ((ByteVals.start rand sysRand).run C ops).2 := by
  have h := (ByteInv.start rand sysRand).run C ops hops
  exact ⟨h.1, h.2.shows⟩

/-- C131: the bytes of a slice that the program holds change only when the program writes to this slice: no call changes them, and no
write to other bytes. (Of the chain keys of distribution messages that the library made this is not claimed.) -/
theorem C131_own_bytes (C : Crypto) (rand sysRand : Bytes) (before : List ByteOp) (op : ByteOp) (i : Nat) (x : Slice) :
    let s := ((ByteMem.start rand sysRand).run C before).2
    let t := (s.step C op).2
    s.slices[i]? = some x → (∀ offset bytes, op ≠ .write i offset bytes) → t.slices[i]? = some x ∧ t.mem.heap.read x = s.mem.heap.read x := by
  intro s t hx hop
  obtain ⟨v, inv⟩ := ByteInv.reached C rand sysRand before
  obtain ⟨v', j, hv⟩ := inv.any_step C op
  have hx' := getElem?_of_prefix (ByteMem.step_slices C s op) hx
  refine ⟨hx', ?_⟩
  obtain ⟨b, hb, e1⟩ := forall₂_some inv.shows.slices hx
  obtain ⟨c, hc, e2⟩ := forall₂_some j.shows.slices hx'
  rw [hv, ByteVals.step_slice C v op i hop hb] at hc
  cases hc
  exact e2.trans e1.symm

/-- C131: writing to a slice that the program holds changes nothing in the store: what the library would load is what it was. -/
theorem C131_store_is_apart (C : Crypto) (rand sysRand : Bytes) (before : List ByteOp) (i offset : Nat) (bytes : Bytes) :
    let s := ((ByteMem.start rand sysRand).run C before).2
    (s.step C (.write i offset bytes)).2.mem.seen = s.mem.seen := by
  intro s
  obtain ⟨v, inv⟩ := ByteInv.reached C rand sysRand before
  have j := (inv.step C (.write i offset bytes) trivial).2
  rw [← j.world, ← inv.world]
  simp only [ByteVals.step]
  (repeat' split) <;> rfl

/-- **C131** for the chain keys left out above, in general: whatever bytes the program writes over `ChainKey` of the distribution message
it has just made, for example to wipe it, the stored sender key then has this chain key, and the next group message is encrypted under
the key that follows from it. Whoever knows what was written can read that message. -/
theorem C131_written_key_is_used (C : Crypto) (rand sysRand : Bytes) (before : List ByteOp) (sender : Address) (dist : DistId) (b pt : Bytes) :
    let s := ((ByteMem.start rand sysRand).run C before).2
    let d := s.step C (.newDistribution sender dist)
    let w := (d.2.step C (.writeChainKey s.chainKeys.length 0 b)).2
    let p := (w.step C (.make [] pt [])).2
    let e := p.step C (.encrypt sender dist w.slices.length)
    d.1 = .ok () → (∀ x, d.2.chainKeys[s.chainKeys.length]? = some x → x.len = b.length) →
    (∃ st rest, w.mem.seen.records (sender, dist) = some (st :: rest) ∧ st.chainKey.seed = b) ∧
    (e.1 = .ok () → ∃ message ciphertext, e.2.slices = p.slices ++ [message, ciphertext] ∧
      cbcEncrypt C (deriveSKMessageKey C (chainHash C b [1]) 0).cipherKey (deriveSKMessageKey C (chainHash C b [1]) 0).iv pt =
        .ok (e.2.mem.heap.read ciphertext)) := by
  intro s d w p e hd hlen
  obtain ⟨v, inv⟩ := ByteInv.reached C rand sysRand before
  obtain ⟨a, m, ha, hd2⟩ := ByteMem.call_ok (s := s) (x := newDistributionBytes C sender dist) (sl := fun d => [d.serialized]) (ck := fun d => [d.chainKey]) hd
  have hd2 : d.2 = ⟨m, s.slices ++ [a.serialized], s.chainKeys ++ [a.chainKey]⟩ := hd2
  obtain ⟨msg, h1, h2, h3, h4, h5, st, r, hrec, hseed⟩ := (sim_newDistribution C sender dist inv.ctx inv.ok).ok ha
  have hk : d.2.chainKeys[s.chainKeys.length]? = some a.chainKey := by rw [hd2]; simp
  have hl := hlen _ hk
  have hw : w = d.2.writeTo a.chainKey 0 b := by
    show (d.2.step C (.writeChainKey s.chainKeys.length 0 b)).2 = _
    simp only [ByteMem.step, hk]
  have hwm : w.mem = { m with heap := m.heap.modify a.chainKey.arr fun c => overwrite c (a.chainKey.off + 0) b } := by
    rw [hw, hd2]
    unfold ByteMem.writeTo
    rw [if_pos (by omega)]
  have hread : w.mem.heap.read a.chainKey = b := by
    have ho := h2.write (offset := 0) (bytes := b) (by rw [← h2.len]; omega)
    rw [hwm]
    refine ho.2.trans (overwrite_whole _ _ ?_)
    rw [← h2.len]
    omega
  have hst : w.mem.seen.records (sender, dist) = some (st.seen w.mem.heap :: r.map (GStateRef.seen w.mem.heap)) := by
    have : w.mem.records (sender, dist) = some (st :: r) := by rw [hwm]; exact hrec
    simp only [GMem.seen, this, Option.map_some, List.map_cons]
  have hb : (st.seen w.mem.heap).chainKey.seed = b := by
    simp only [GStateRef.seen, ChainRef.seen, hseed]
    exact hread
  refine ⟨⟨_, _, hst, hb⟩, fun he => ?_⟩
  obtain ⟨v1, inv1, -⟩ := inv.any_step C (.newDistribution sender dist)
  obtain ⟨v2, inv2, -⟩ := inv1.any_step C (.writeChainKey s.chainKeys.length 0 b)
  have invw : ByteInv w v2 := inv2
  have inv3 : ByteInv p (v2.step C (.make [] pt [])).2 := (invw.step C (.make [] pt []) trivial).2
  have inv4 := inv3.step C (.encrypt sender dist w.slices.length) trivial
  have hn : v2.slices.length = w.slices.length := invw.slices.length_eq.symm
  have hv3 : (v2.step C (.make [] pt [])).2 = { v2 with slices := v2.slices ++ [pt] } := rfl
  rw [hv3] at inv4 inv3
  have hg : (v2.slices ++ [pt])[w.slices.length]? = some pt := by rw [← hn]; simp
  have hp : p.slices[w.slices.length]? = some ⟨w.mem.heap.length, 0, pt.length, pt.length + 0⟩ := by
    show (w.slices ++ [_])[w.slices.length]? = _
    simp
  have hestep : e = p.call (encryptBytes C sender dist ⟨w.mem.heap.length, 0, pt.length, pt.length + 0⟩) (fun c => [c.serialized, c.ciphertext]) fun _ => [] := by
    show p.step C (.encrypt sender dist w.slices.length) = _
    simp only [ByteMem.step, hp]
  rw [hestep] at he ⊢
  obtain ⟨c, m', hc, he2⟩ := ByteMem.call_ok he
  have hvs : ({ v2 with slices := v2.slices ++ [pt] } : ByteVals).step C (.encrypt sender dist w.slices.length) =
      ({ v2 with slices := v2.slices ++ [pt] } : ByteVals).call (groupEncrypt C true sender dist pt) (fun c => [c.serialized, c.ciphertext]) fun _ => [] := by
    simp only [ByteVals.step, hg]
  rw [hvs] at inv4
  have hes : p.step C (.encrypt sender dist w.slices.length) = _ := hestep
  rw [hes] at inv4
  obtain ⟨a1, a2⟩ := inv4
  rw [he] at a1
  obtain ⟨gm, gw, hgm, hv4⟩ := ByteVals.call_ok a1.symm
  rw [he2, hv4] at a2
  have hf := a2.slices
  have hlast : List.Forall₂ (At m'.heap) [c.serialized, c.ciphertext] [gm.serialized, gm.ciphertext] := by
    have := List.forall₂_drop p.slices.length hf
    have hpl : (v2.slices ++ [pt]).length = p.slices.length := inv3.slices.length_eq.symm
    simpa [← hpl] using this
  refine ⟨c.serialized, c.ciphertext, by rw [he2], ?_⟩
  rw [he2]
  cases hlast with
  | cons _ hlast =>
  cases hlast with
  | cons hct _ =>
  show _ = Res.ok (m'.heap.read c.ciphertext)
  rw [hct.2]
  have ho := groupEncrypt_outcome C true sender dist pt v2.world
  simp only at hgm
  rw [hgm] at ho
  cases ho with
  | early _ _ _ hr => simp at hr
  | stopped _ _ hr => simp at hr
  | done fs s' rest sk _ rd hbuilt =>
    obtain ⟨ct, hcbc, hmsg⟩ := hbuilt.built
    have hr' := hbuilt.record
    rw [invw.world, hst] at hr'
    simp only [Option.some.injEq, List.cons.injEq] at hr'
    have hs' : s'.chainKey.seed = b := by rw [← hr'.1]; exact hb
    rw [newSenderKey_ciphertext (by rw [hmsg]), ← hcbc]
    simp only [SKChainKey.messageKey, deriveSKMessageKey, hs']

/-! ## The chain keys left out -/

namespace Ex

/-- Enough random bytes for a sender key and two signatures. -/
def readers : Bytes := randomness 1 ++ randomness 3

/-- Alice makes a distribution message, wipes its chain key, and sends `[1, 2, 3]` to the group. -/
def wiping : List ByteOp := [.newDistribution alice dist, .writeChainKey 0 0 (List.replicate 32 0), .make [] [1, 2, 3] [], .encrypt alice dist 1]

end Ex

/-- **C131** fails for the chain key of a distribution message that `NewSenderKeyDistribution` made: a program that wipes it after
sending gets a message that is encrypted under the key of a chain of zeros, and a record that is not the one it would have over values. -/
theorem C131_chain_key_false :
    let s := ((ByteMem.start Ex.readers (Ex.randomness 9)).run toy Ex.wiping).2
    let v := ((ByteVals.start Ex.readers (Ex.randomness 9)).run toy Ex.wiping).2
    let key := deriveSKMessageKey toy (chainHash toy (List.replicate 32 0) [1]) 0
    ((ByteMem.start Ex.readers (Ex.randomness 9)).run toy Ex.wiping).1 = [.ok (), .ok (), .ok (), .ok ()] ∧
    (s.slices[3]?.map fun c => cbcDecrypt toy key.cipherKey key.iv (s.mem.heap.read c)) = some (.ok [1, 2, 3]) ∧
    s.slices.map s.mem.heap.read ≠ v.slices ∧
    s.mem.seen.records (Ex.alice, Ex.dist) ≠ v.world.records (Ex.alice, Ex.dist) := by decide +kernel

/-! ## Instances -/

namespace Ex

/-- Alice's distribution message is processed (under the name of Bob, whose record is another one in the same store); what `ChainKey` of the
parsed message returns is wiped; Alice sends bytes that have room behind them; Bob reads the message; the plaintext that Bob got, Alice's
bytes and `Message` of the message are wiped; Alice sends again. -/
def careful : List ByteOp := [.newDistribution alice dist, .make [9] [1, 2, 3] (List.replicate 20 7), .process bob 0, .write 2 0 (List.replicate 32 0),
  .encrypt alice dist 1, .decrypt bob 3, .write 6 0 [0, 0, 0], .write 1 0 [8, 8, 8], .write 4 0 (List.replicate 16 0), .encrypt alice dist 1,
  .decrypt bob 7, .decrypt bob 3]

end Ex

/-- It meets the hypothesis of `C131_as_values_partial`. -/
example : ∀ op ∈ Ex.careful, op.Leaves := by
  intro op h
  simp only [Ex.careful, List.mem_cons, List.not_mem_nil, or_false] at h
  rcases h with h | h | h | h | h | h | h | h | h | h | h | h <;> subst h <;> exact trivial

/-- The calls succeed, apart from the last, which repeats a message. -/
example : ((ByteVals.start Ex.readers (Ex.randomness 9)).run toy Ex.careful).1 =
    List.replicate 11 (.ok ()) ++ [.err .duplicateMessage] := by decide +kernel

/-- What Bob got, and Alice's bytes: over values and over memory. -/
example : let v := ((ByteVals.start Ex.readers (Ex.randomness 9)).run toy Ex.careful).2
    v.slices[6]? = some [0, 0, 0] ∧ v.slices[10]? = some [8, 8, 8] ∧ v.slices[1]? = some [8, 8, 8] := by decide +kernel

example : let s := ((ByteMem.start Ex.readers (Ex.randomness 9)).run toy Ex.careful).2
    s.slices[6]?.map s.mem.heap.read = some [0, 0, 0] ∧ s.slices[10]?.map s.mem.heap.read = some [8, 8, 8] ∧
      s.slices[1]?.map s.mem.heap.read = some [8, 8, 8] := by decide +kernel

/-- The hypotheses of `C131_written_key_is_used` are met with 32 bytes, from the beginning. -/
example : let s := ByteMem.start Ex.readers (Ex.randomness 9)
    let d := s.step toy (.newDistribution Ex.alice Ex.dist)
    let w := (d.2.step toy (.writeChainKey s.chainKeys.length 0 (List.replicate 32 0))).2
    let p := (w.step toy (.make [] [1, 2, 3] [])).2
    d.1 = .ok () ∧ d.2.chainKeys[s.chainKeys.length]?.map (·.len) = some 32 ∧ (p.step toy (.encrypt Ex.alice Ex.dist w.slices.length)).1 = .ok () := by
  decide +kernel

end Verif
