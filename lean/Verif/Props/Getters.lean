import Verif.Proofs.Getters
import Verif.Props.StateUse

/-!
# C134: writing to the bytes that getters of a message return
-/

namespace Verif

/-- **C134**, signal messages that were parsed: `Message()` and `Bytes()` are two byte strings, and a write to one changes what that
getter returns and nothing else about the message. The other getters keep their values. -/
theorem C134_signal_parsed (s : Slice) (h : Heap) (hv : h.Valid s) (r : SignalRef) (h' : Heap) (e : signalFromSlice s h = (.ok r, h')) (ws : List PartWrite) :
    ∃ m, newSignalFromBytes (h.read s) = .ok m ∧
      r.seen (h'.writeParts r.parts ws) = m.withParts (writeValues [m.ciphertext, m.serialized] ws) := by
  obtain ⟨m, hm, rfl, rfl⟩ := signalFromSlice_ok e
  obtain ⟨_, _, _, _, _, _, _, _, _, _, _, _, he⟩ := newSignalFromBytes_ok hm
  refine ⟨m, hm, ?_⟩
  have k := read_writeParts (h ++ [m.ciphertext]) [⟨h.length, 0, m.ciphertext.length, m.ciphertext.length⟩, s]
    (by simpa using ⟨valid_alloc h _, valid_grow h _ s hv⟩) (pair_apart (.inl (Nat.ne_of_gt hv.1))) ws
  simp only [List.map_cons, List.map_nil, read_alloc, read_append h _ s hv.1, ← he] at k
  simp only [SignalRef.parts, SignalRef.seen]
  rw [← k]
  rfl

/-- **C134**, group messages that were parsed. -/
theorem C134_senderKey_parsed (s : Slice) (h : Heap) (hv : h.Valid s) (r : SenderKeyRef) (h' : Heap) (e : senderKeyFromSlice s h = (.ok r, h'))
    (ws : List PartWrite) :
    ∃ m, newSenderKeyFromBytes (h.read s) = .ok m ∧
      r.seen (h'.writeParts r.parts ws) = m.withParts (writeValues [m.ciphertext, m.serialized] ws) := by
  obtain ⟨m, hm, rfl, rfl⟩ := senderKeyFromSlice_ok e
  obtain ⟨_, _, _, _, _, _, _, _, _, _, _, _, he⟩ := newSenderKeyFromBytes_ok hm
  refine ⟨m, hm, ?_⟩
  have k := read_writeParts (h ++ [m.ciphertext]) [⟨h.length, 0, m.ciphertext.length, m.ciphertext.length⟩, s]
    (by simpa using ⟨valid_alloc h _, valid_grow h _ s hv⟩) (pair_apart (.inl (Nat.ne_of_gt hv.1))) ws
  simp only [List.map_cons, List.map_nil, read_alloc, read_append h _ s hv.1, ← he] at k
  simp only [SenderKeyRef.parts, SenderKeyRef.seen]
  rw [← k]
  rfl

/-- **C134**, distribution messages that were parsed. -/
theorem C134_distribution_parsed (s : Slice) (h : Heap) (hv : h.Valid s) (r : DistributionRef) (h' : Heap)
    (e : distributionFromSlice s h = (.ok r, h')) (ws : List PartWrite) :
    ∃ m, newDistributionFromBytes (h.read s) = .ok m ∧
      r.seen (h'.writeParts r.parts ws) = m.withParts (writeValues [m.chainKey, m.serialized] ws) := by
  obtain ⟨m, hm, rfl, rfl⟩ := distributionFromSlice_ok e
  obtain ⟨_, _, _, _, _, _, _, _, _, _, _, _, _, _, he⟩ := newDistributionFromBytes_ok hm
  refine ⟨m, hm, ?_⟩
  have k := read_writeParts (h ++ [m.chainKey]) [⟨h.length, 0, m.chainKey.length, m.chainKey.length⟩, s]
    (by simpa using ⟨valid_alloc h _, valid_grow h _ s hv⟩) (pair_apart (.inl (Nat.ne_of_gt hv.1))) ws
  simp only [List.map_cons, List.map_nil, read_alloc, read_append h _ s hv.1, ← he] at k
  simp only [DistributionRef.parts, DistributionRef.seen]
  rw [← k]
  rfl

/-- **C134**, pre-key messages that were parsed: the two byte strings of the message inside, and its own. -/
theorem C134_preKey_parsed (s : Slice) (h : Heap) (hv : h.Valid s) (r : PreKeyRef) (h' : Heap) (e : preKeyFromSlice s h = (.ok r, h'))
    (ws : List PartWrite) :
    ∃ m, newPreKeyFromBytes (h.read s) = .ok m ∧
      r.seen (h'.writeParts r.parts ws) = m.withParts (writeValues [m.message.ciphertext, m.message.serialized, m.serialized] ws) := by
  obtain ⟨m, hm, rfl, rfl⟩ := preKeyFromSlice_ok e
  obtain ⟨_, _, pb, _, _, _, _, _, hi, _, _, _, _, he⟩ := newPreKeyFromBytes_ok hm
  refine ⟨m, hm, ?_⟩
  have a1 := valid_grow _ [m.message.ciphertext] _ (valid_alloc h m.message.serialized)
  have a2 := valid_alloc (h ++ [m.message.serialized]) m.message.ciphertext
  have a3 := valid_grow (h ++ [m.message.serialized]) [m.message.ciphertext] s (valid_grow h [m.message.serialized] s hv)
  have b1 := read_append (h ++ [m.message.serialized]) [m.message.ciphertext]
    ⟨h.length, 0, m.message.serialized.length, m.message.serialized.length⟩ (by simp)
  have b2 := read_alloc (h ++ [m.message.serialized]) m.message.ciphertext
  have b3 := read_append (h ++ [m.message.serialized]) [m.message.ciphertext] s (by simpa using Nat.lt_succ_of_lt hv.1)
  rw [read_alloc] at b1
  rw [read_append h _ s hv.1] at b3
  simp only [List.length_append, List.length_cons, List.length_nil, Nat.zero_add] at a2 b2
  have k := read_writeParts (h ++ [m.message.serialized] ++ [m.message.ciphertext])
    [⟨h.length + 1, 0, m.message.ciphertext.length, m.message.ciphertext.length⟩,
     ⟨h.length, 0, m.message.serialized.length, m.message.serialized.length⟩, s]
    (by simpa only [List.forall_mem_cons, List.not_mem_nil, false_imp_iff, implies_true, and_true] using ⟨a2, a1, a3⟩)
    (by
      have := hv.1
      simp only [List.pairwise_cons, List.mem_cons, List.not_mem_nil, or_false, forall_eq_or_imp, forall_eq, false_imp_iff, implies_true, and_true, List.Pairwise.nil]
      exact ⟨⟨.inl (by simp), .inl (by simp; omega)⟩, .inl (by simp; omega)⟩) ws
  simp only [List.map_cons, List.map_nil, b1, b2, b3, ← he] at k
  simp only [PreKeyRef.parts, PreKeyRef.seen, SignalRef.seen]
  rw [← k]
  rfl

/-- **C134**, signal messages that were made: `Bytes()` is what is sent, and no write to the ciphertext changes it. -/
theorem C134_signal_made (C : Crypto) (version : UInt8) (macKey : Bytes) (key : PubKey) (previous counter : UInt32) (c : Slice) (a b : PubKey)
    (h : Heap) (hv : h.Valid c) (r : SignalRef) (h' : Heap) (e : newSignalSlices C version macKey key previous counter c a b h = (.ok r, h'))
    (ws : List PartWrite) :
    ∃ m, newSignal C version macKey key previous counter (h.read c) a b = .ok m ∧
      r.seen (h'.writeParts r.parts ws) = m.withParts (writeValues [m.ciphertext, m.serialized] ws) := by
  cases hm : newSignal C version macKey key previous counter (h.read c) a b with
  | err x => simp [newSignalSlices, bind, M.bind, M.get, M.lift, hm] at e
  | panic => simp [newSignalSlices, bind, M.bind, M.get, M.lift, hm] at e
  | ok m =>
    refine ⟨m, rfl, ?_⟩
    simp [newSignalSlices, bind, M.bind, M.get, M.lift, hm, allocBytes, pure, M.pure] at e
    obtain ⟨rfl, rfl⟩ := e
    have hc : m.ciphertext = h.read c := by
      unfold newSignal at hm
      simp only [bind] at hm
      generalize messageMac C macKey a b _ = y at hm
      cases y with
      | ok y =>
        replace hm := Res.ok.inj hm
        rw [← hm]
      | err x => cases hm
      | panic => cases hm
    have k := read_writeParts (h ++ [m.serialized]) [c, ⟨h.length, 0, m.serialized.length, m.serialized.length⟩]
      (by simpa using ⟨valid_grow h _ c hv, valid_alloc h _⟩) (pair_apart (.inl (Nat.ne_of_lt hv.1))) ws
    simp only [List.map_cons, List.map_nil, read_alloc, read_append h _ c hv.1, ← hc] at k
    simp only [SignalRef.parts, SignalRef.seen]
    rw [← k]
    rfl

/-- **C134**, group messages that were made. -/
theorem C134_senderKey_made (C : Crypto) (version : UInt8) (dist : DistId) (chainID iteration : UInt32) (c : Slice) (key : PrivKey)
    (mem : RMem) (hv : mem.heap.Valid c) (r : SenderKeyRef) (mem' : RMem)
    (e : newSenderKeySlices C version dist chainID iteration c key mem = (.ok r, mem')) (ws : List PartWrite) :
    ∃ m, (newSenderKey C version dist chainID iteration (mem.heap.read c) key mem.rand).1 = .ok m ∧
      r.seen (mem'.heap.writeParts r.parts ws) = m.withParts (writeValues [m.ciphertext, m.serialized] ws) := by
  rcases hm : newSenderKey C version dist chainID iteration (mem.heap.read c) key mem.rand with ⟨x, rest⟩
  cases x with
  | err x => simp [newSenderKeySlices, bind, M.bind, M.get, onRand, hm] at e
  | panic => simp [newSenderKeySlices, bind, M.bind, M.get, onRand, hm] at e
  | ok m =>
    refine ⟨m, rfl, ?_⟩
    simp [newSenderKeySlices, bind, M.bind, M.get, onRand, onMem, hm, allocBytes, pure, M.pure] at e
    obtain ⟨rfl, rfl⟩ := e
    have hc : m.ciphertext = mem.heap.read c := by
      unfold newSenderKey at hm
      simp only [bind, M.bind] at hm
      generalize PrivKey.sign C key _ mem.rand = y at hm
      rcases y with ⟨_ | _ | _, z⟩
      · have := Res.ok.inj (Prod.ext_iff.mp hm).1
        rw [← this]
      · cases (Prod.ext_iff.mp hm).1
      · cases (Prod.ext_iff.mp hm).1
    have k := read_writeParts (mem.heap ++ [m.serialized]) [c, ⟨mem.heap.length, 0, m.serialized.length, m.serialized.length⟩]
      (by simpa using ⟨valid_grow mem.heap _ c hv, valid_alloc mem.heap _⟩) (pair_apart (.inl (Nat.ne_of_lt hv.1))) ws
    simp only [List.map_cons, List.map_nil, read_alloc, read_append mem.heap _ c hv.1, ← hc] at k
    simp only [SenderKeyRef.parts, SenderKeyRef.seen]
    rw [← k]
    rfl

/-- **C134**, pre-key messages that were made around a signal message whose two byte strings do not overlap: the bytes to be sent are a third one. -/
theorem C134_preKey_made (version : UInt8) (registrationID : UInt32) (preKeyID : Option UInt32) (signedPreKeyID : UInt32) (baseKey identityKey : PubKey)
    (i : SignalRef) (h : Heap) (hv : ∀ x ∈ i.parts, h.Valid x) (hp : NoOverlap i.ciphertext i.serialized) (r : PreKeyRef) (h' : Heap)
    (e : newPreKeySlices version registrationID preKeyID signedPreKeyID baseKey identityKey i h = (.ok r, h')) (ws : List PartWrite) :
    let m := newPreKey version registrationID preKeyID signedPreKeyID baseKey identityKey (i.seen h)
    r.seen (h'.writeParts r.parts ws) = m.withParts (writeValues [m.message.ciphertext, m.message.serialized, m.serialized] ws) := by
  intro m
  simp [newPreKeySlices, bind, M.bind, M.get, allocBytes, pure, M.pure] at e
  obtain ⟨rfl, rfl⟩ := e
  have v1 := hv i.ciphertext (by simp [SignalRef.parts])
  have v2 := hv i.serialized (by simp [SignalRef.parts])
  have k := read_writeParts (h ++ [m.serialized]) [i.ciphertext, i.serialized, ⟨h.length, 0, m.serialized.length, m.serialized.length⟩]
    (by simpa using ⟨valid_grow h _ _ v1, valid_grow h _ _ v2, valid_alloc h _⟩)
    (by
      simp only [List.pairwise_cons, List.mem_cons, List.not_mem_nil, or_false, forall_eq_or_imp, forall_eq, false_imp_iff, implies_true, and_true, List.Pairwise.nil]
      exact ⟨⟨hp, .inl (Nat.ne_of_lt v1.1)⟩, .inl (Nat.ne_of_lt v2.1)⟩) ws
  simp only [List.map_cons, List.map_nil, read_alloc, read_append h _ _ v1.1, read_append h _ _ v2.1] at k
  simp only [PreKeyRef.parts, PreKeyRef.seen, SignalRef.seen]
  have k' : writeValues [m.message.ciphertext, m.message.serialized, m.serialized] ws = _ := k.symm
  rw [k']
  rfl

/-- C134, plaintext messages: here `Message()` is a part of `Bytes()`. It never panics, shows `Bytes()` without the first byte, and a write to it is a
write to `Bytes()` one byte further on. -/
theorem C134_plaintext (s : Slice) (h : Heap) (hv : h.Valid s) (r : PlaintextRef) (h' : Heap) (e : plaintextFromSlice s h = (.ok r, h')) :
    ∃ x, r.message = .ok x ∧ h'.Valid x ∧ (r.seen h').message = .ok (h'.read x) ∧
      ∀ offset bytes, offset + bytes.length ≤ x.len →
        r.seen (putAt h' x offset bytes) = ⟨overwrite (h.read s) (1 + offset) bytes⟩ ∧
        (r.seen (putAt h' x offset bytes)).message = .ok (overwrite (h.read x) offset bytes) := by
  cases hm : newPlaintextFromBytes (h.read s) with
  | err x => simp [plaintextFromSlice, bind, M.bind, M.get, M.lift, hm] at e
  | panic => simp [plaintextFromSlice, bind, M.bind, M.get, M.lift, hm] at e
  | ok m =>
    simp [plaintextFromSlice, bind, M.bind, M.get, M.lift, hm, pure, M.pure] at e
    obtain ⟨rfl, rfl⟩ := e
    have hlen := len_of_valid hv
    have hpos : s.len ≠ 0 := by
      intro h0
      rw [h0] at hlen
      rw [List.length_eq_zero_iff.mp hlen] at hm
      cases hm
    obtain ⟨v1, v2, v3⟩ := hv
    have hx : h.Valid ⟨s.arr, s.off + 1, s.len - 1, s.cap - 1⟩ := ⟨v1, by simp; omega, by simp; omega⟩
    have hmsg : ∀ g : Heap, (g.read s).length = s.len →
        (PlaintextRef.seen ⟨s⟩ g).message = .ok (g.read ⟨s.arr, s.off + 1, s.len - 1, s.cap - 1⟩) := by
      intro g hg
      have ht : g.read ⟨s.arr, s.off + 1, s.len - 1, s.cap - 1⟩ = (g.read s).tail := by
        simp only [Heap.read]
        rw [← List.drop_one, List.drop_take, List.drop_drop]
      rw [ht]
      simp only [PlaintextRef.seen, PlaintextMsg.message]
      cases hb : g.read s with
      | nil => rw [hb] at hg; exact absurd hg.symm hpos
      | cons a t => rfl
    refine ⟨⟨s.arr, s.off + 1, s.len - 1, s.cap - 1⟩, by simp [PlaintextRef.message, hpos], hx, hmsg h hlen, fun offset bytes fit => ?_⟩
    have fit' : offset + bytes.length ≤ s.len - 1 := fit
    have hput : putAt h ⟨s.arr, s.off + 1, s.len - 1, s.cap - 1⟩ offset bytes = putAt h s (1 + offset) bytes := by
      simp [putAt, Nat.add_assoc]
    have hs : (putAt h s (1 + offset) bytes).read s = overwrite (h.read s) (1 + offset) bytes := read_putAt_self ⟨v1, v2, v3⟩ (by omega)
    refine ⟨?_, ?_⟩
    · rw [hput]
      simp only [PlaintextRef.seen, hs]
    · rw [hmsg _ (by rw [hput]; exact len_of_valid (valid_putAt ⟨v1, v2, v3⟩ (by omega) ⟨v1, v2, v3⟩))]
      rw [read_putAt_self hx fit]

/-- C134: making and parsing messages with their slices gives the messages, and the errors, of making and parsing them as values. -/
theorem C134_as_values (C : Crypto) (version : UInt8) (macKey : Bytes) (key : PubKey) (previous counter : UInt32) (a b : PubKey) (dist : DistId)
    (chainID iteration : UInt32) (priv : PrivKey) (random : Bytes) (registrationID : UInt32) (preKeyID : Option UInt32) (signedPreKeyID : UInt32)
    (i : SignalRef) (h : Heap) (c : Slice) (hc : h.Valid c) (hi : ∀ x ∈ i.parts, h.Valid x) :
    let signal := newSignalSlices C version macKey key previous counter c a b h
    let preKey := newPreKeySlices version registrationID preKeyID signedPreKeyID a b i h
    let group := newSenderKeySlices C version dist chainID iteration c priv ⟨h, random⟩
    let plain := plaintextFromSlice c h
    (fun r : SignalRef => r.seen signal.2) <$> signal.1 = newSignal C version macKey key previous counter (h.read c) a b ∧
    (fun r : PreKeyRef => r.seen preKey.2) <$> preKey.1 = .ok (newPreKey version registrationID preKeyID signedPreKeyID a b (i.seen h)) ∧
    (fun r : SenderKeyRef => r.seen group.2.heap) <$> group.1 = (newSenderKey C version dist chainID iteration (h.read c) priv random).1 ∧
    group.2.rand = (newSenderKey C version dist chainID iteration (h.read c) priv random).2 ∧
    (fun r : PlaintextRef => r.seen plain.2) <$> plain.1 = newPlaintextFromBytes (h.read c) := by
  intro signal preKey group plain
  refine ⟨?_, ?_, ?_, ?_, ?_⟩
  · rcases hs : signal with ⟨r, h'⟩
    cases r with
    | ok r =>
      obtain ⟨m, hm, hr⟩ := C134_signal_made C version macKey key previous counter c a b h hc r h' hs []
      rw [hm]
      exact congrArg Res.ok hr
    | err x =>
      cases hm : newSignal C version macKey key previous counter (h.read c) a b with
      | ok m => simp [signal, newSignalSlices, bind, M.bind, M.get, M.lift, hm, allocBytes, pure, M.pure] at hs
      | err y =>
        simp [signal, newSignalSlices, bind, M.bind, M.get, M.lift, hm] at hs
        exact congrArg Res.err hs.1.symm
      | panic => simp [signal, newSignalSlices, bind, M.bind, M.get, M.lift, hm] at hs
    | panic =>
      cases hm : newSignal C version macKey key previous counter (h.read c) a b with
      | ok m => simp [signal, newSignalSlices, bind, M.bind, M.get, M.lift, hm, allocBytes, pure, M.pure] at hs
      | err y => simp [signal, newSignalSlices, bind, M.bind, M.get, M.lift, hm] at hs
      | panic => rfl
  · have v1 := hi i.ciphertext (by simp [SignalRef.parts])
    have v2 := hi i.serialized (by simp [SignalRef.parts])
    simp [preKey, newPreKeySlices, bind, M.bind, M.get, allocBytes, pure, M.pure, Res.map_eq, Res.bind, PreKeyRef.seen, SignalRef.seen, read_alloc,
      read_append _ _ _ v1.1, read_append _ _ _ v2.1]
    rfl
  · rcases hs : group with ⟨r, h'⟩
    rcases hm : newSenderKey C version dist chainID iteration (h.read c) priv random with ⟨x, rest⟩
    cases r with
    | ok r =>
      obtain ⟨m, hm', hr⟩ := C134_senderKey_made C version dist chainID iteration c priv ⟨h, random⟩ hc r h' hs []
      dsimp only at hm'
      rw [hm] at hm'
      rw [hm']
      exact congrArg Res.ok hr
    | err e =>
      cases x with
      | ok m => simp [group, newSenderKeySlices, bind, M.bind, M.get, onRand, onMem, hm, allocBytes, pure, M.pure] at hs
      | err y =>
        simp [group, newSenderKeySlices, bind, M.bind, M.get, onRand, hm] at hs
        exact congrArg Res.err hs.1.symm
      | panic => simp [group, newSenderKeySlices, bind, M.bind, M.get, onRand, hm] at hs
    | panic =>
      cases x with
      | ok m => simp [group, newSenderKeySlices, bind, M.bind, M.get, onRand, onMem, hm, allocBytes, pure, M.pure] at hs
      | err y => simp [group, newSenderKeySlices, bind, M.bind, M.get, onRand, hm] at hs
      | panic => rfl
  · rcases hm : newSenderKey C version dist chainID iteration (h.read c) priv random with ⟨_ | _ | _, rest⟩ <;>
      simp [group, newSenderKeySlices, bind, M.bind, M.get, onRand, onMem, hm, allocBytes, pure, M.pure]
  · cases hm : newPlaintextFromBytes (h.read c) with
    | ok m =>
      have : m = ⟨h.read c⟩ := by
        unfold newPlaintextFromBytes at hm
        cases hb : h.read c with
        | nil => rw [hb] at hm; cases hm
        | cons x t =>
          rw [hb] at hm
          by_cases hx : x ≠ 0xC0
          · simp [hx] at hm
          · simp [hx] at hm
            exact hm.symm
      simp [plain, plaintextFromSlice, bind, M.bind, M.get, M.lift, hm, pure, M.pure, Res.map_eq, Res.bind, PlaintextRef.seen, this]
    | err x => simp [plain, plaintextFromSlice, bind, M.bind, M.get, M.lift, hm, Res.map_eq, Res.bind]
    | panic => simp [plain, plaintextFromSlice, bind, M.bind, M.get, M.lift, hm, Res.map_eq, Res.bind]

/-- C134: `append` to what a getter of a parsed message returned changes nothing about the message, whatever spare room the caller's buffer has. -/
theorem C134_append_parsed (s : Slice) (h h' : Heap) (hv : h.Valid s) (bs : Bytes) :
    (∀ r, signalFromSlice s h = (.ok r, h') → ∀ x ∈ r.parts, r.seen (goAppend h' x bs).2 = r.seen h') ∧
    (∀ r, preKeyFromSlice s h = (.ok r, h') → ∀ x ∈ r.parts, r.seen (goAppend h' x bs).2 = r.seen h') ∧
    (∀ r, senderKeyFromSlice s h = (.ok r, h') → ∀ x ∈ r.parts, r.seen (goAppend h' x bs).2 = r.seen h') ∧
    (∀ r, distributionFromSlice s h = (.ok r, h') → ∀ x ∈ r.parts, r.seen (goAppend h' x bs).2 = r.seen h') := by
  have hs := hv.1
  have two : ∀ b : Bytes, ∀ x ∈ [⟨h.length, 0, b.length, b.length⟩, s], ∀ y ∈ [⟨h.length, 0, b.length, b.length⟩, s],
      (goAppend (h ++ [b]) x bs).2.read y = Heap.read (h ++ [b]) y := by
    intro b x hx y hy
    have v1 := valid_alloc h b
    have v2 := valid_grow h [b] s hv
    simp only [List.mem_cons, List.not_mem_nil, or_false] at hx hy
    rcases hx with rfl | rfl <;> rcases hy with rfl | rfl
    · exact read_goAppend v1 v1 (.inl rfl) bs
    · exact read_goAppend v1 v2 (.inr (Nat.ne_of_gt hs)) bs
    · exact read_goAppend v2 v1 (.inr (Nat.ne_of_lt hs)) bs
    · exact read_goAppend v2 v2 (.inl rfl) bs
  refine ⟨fun r e x hx => ?_, fun r e x hx => ?_, fun r e x hx => ?_, fun r e x hx => ?_⟩
  · obtain ⟨m, _, rfl, rfl⟩ := signalFromSlice_ok e
    have k := two m.ciphertext x hx
    simp only [SignalRef.seen]
    rw [k _ (by simp), k _ (by simp)]
  · obtain ⟨m, _, rfl, rfl⟩ := preKeyFromSlice_ok e
    have v1 := valid_grow _ [m.message.ciphertext] _ (valid_alloc h m.message.serialized)
    have v2 := valid_alloc (h ++ [m.message.serialized]) m.message.ciphertext
    have v3 := valid_grow (h ++ [m.message.serialized]) [m.message.ciphertext] s (valid_grow h [m.message.serialized] s hv)
    simp only [List.length_append, List.length_cons, List.length_nil, Nat.zero_add] at v2
    simp only [PreKeyRef.parts, List.mem_cons, List.not_mem_nil, or_false] at hx
    simp only [PreKeyRef.seen, SignalRef.seen]
    rcases hx with rfl | rfl | rfl
    · rw [read_goAppend v2 v2 (.inl rfl), read_goAppend v2 v1 (.inr (by simp)), read_goAppend v2 v3 (.inr (by simp; omega))]
    · rw [read_goAppend v1 v2 (.inr (by simp)), read_goAppend v1 v1 (.inl rfl), read_goAppend v1 v3 (.inr (by simp; omega))]
    · rw [read_goAppend v3 v2 (.inr (by simp; omega)), read_goAppend v3 v1 (.inr (by simp; omega)), read_goAppend v3 v3 (.inl rfl)]
  · obtain ⟨m, _, rfl, rfl⟩ := senderKeyFromSlice_ok e
    have k := two m.ciphertext x hx
    simp only [SenderKeyRef.seen]
    rw [k _ (by simp), k _ (by simp)]
  · obtain ⟨m, _, rfl, rfl⟩ := distributionFromSlice_ok e
    have k := two m.chainKey x hx
    simp only [DistributionRef.seen]
    rw [k _ (by simp), k _ (by simp)]

/-- C134: the same for messages that were made. The new array has no spare room (`make` with the exact length). -/
theorem C134_append_made (C : Crypto) (version : UInt8) (macKey : Bytes) (key : PubKey) (previous counter : UInt32) (a b : PubKey) (dist : DistId)
    (chainID iteration : UInt32) (priv : PrivKey) (random : Bytes) (c : Slice) (h : Heap) (hv : h.Valid c) (bs : Bytes) :
    (∀ r h', newSignalSlices C version macKey key previous counter c a b h = (.ok r, h') → ∀ x ∈ r.parts, r.seen (goAppend h' x bs).2 = r.seen h') ∧
    (∀ r mem, newSenderKeySlices C version dist chainID iteration c priv ⟨h, random⟩ = (.ok r, mem) →
      ∀ x ∈ r.parts, r.seen (goAppend mem.heap x bs).2 = r.seen mem.heap) := by
  have hs := hv.1
  have two : ∀ b : Bytes, ∀ x ∈ [c, ⟨h.length, 0, b.length, b.length⟩], ∀ y ∈ [c, ⟨h.length, 0, b.length, b.length⟩],
      (goAppend (h ++ [b]) x bs).2.read y = Heap.read (h ++ [b]) y := by
    intro b x hx y hy
    have v1 := valid_alloc h b
    have v2 := valid_grow h [b] c hv
    simp only [List.mem_cons, List.not_mem_nil, or_false] at hx hy
    rcases hx with rfl | rfl <;> rcases hy with rfl | rfl
    · exact read_goAppend v2 v2 (.inl rfl) bs
    · exact read_goAppend v2 v1 (.inr (Nat.ne_of_lt hs)) bs
    · exact read_goAppend v1 v2 (.inr (Nat.ne_of_gt hs)) bs
    · exact read_goAppend v1 v1 (.inl rfl) bs
  refine ⟨fun r h' e x hx => ?_, fun r mem e x hx => ?_⟩
  · cases hm : newSignal C version macKey key previous counter (h.read c) a b with
    | err x => simp [newSignalSlices, bind, M.bind, M.get, M.lift, hm] at e
    | panic => simp [newSignalSlices, bind, M.bind, M.get, M.lift, hm] at e
    | ok m =>
      simp [newSignalSlices, bind, M.bind, M.get, M.lift, hm, allocBytes, pure, M.pure] at e
      obtain ⟨rfl, rfl⟩ := e
      have k := two m.serialized x hx
      simp only [SignalRef.seen]
      rw [k _ (by simp), k _ (by simp)]
  · rcases hm : newSenderKey C version dist chainID iteration (h.read c) priv random with ⟨m | _ | _, rest⟩
    · simp [newSenderKeySlices, bind, M.bind, M.get, onRand, onMem, hm, allocBytes, pure, M.pure] at e
      obtain ⟨rfl, rfl⟩ := e
      have k := two m.serialized x hx
      simp only [SenderKeyRef.seen]
      rw [k _ (by simp), k _ (by simp)]
    · simp [newSenderKeySlices, bind, M.bind, M.get, onRand, hm] at e
    · simp [newSenderKeySlices, bind, M.bind, M.get, onRand, hm] at e

/-- C134: what a write to `Message()` means for decryption. If a session reads a message, then it reads this message with any other ciphertext too, as far as
decryption of this ciphertext goes: the MAC is computed over `Bytes()`. The session that results is the same. -/
theorem C134_written_is_decrypted (C : Crypto) (s : SState) (m : Signal) (random rest p : Bytes) (s' : SState)
    (e : decryptMessageSession C s m random = (.ok (p, s'), rest)) :
    ∃ key iv, cbcDecrypt C key iv m.ciphertext = .ok p ∧
      ∀ c, decryptMessageSession C s { m with ciphertext := c } random =
        ((fun q => (q, s')) <$> cbcDecrypt C key iv c, rest) := by
  unfold decryptMessageSession at e ⊢
  cases hs : s.senderChain with
  | none => rw [hs] at e; cases (Prod.ext_iff.mp e).1
  | some chain =>
    rw [hs] at e
    dsimp only at e ⊢
    by_cases hver : m.version.toUInt32 ≠ s.version
    · rw [if_pos hver] at e; cases (Prod.ext_iff.mp e).1
    rw [if_neg hver] at e
    simp only [if_neg hver]
    simp only [bind, M.bind, M.lift, Res.bind] at e ⊢
    rcases hc : chainKeyFor C s m.senderRatchetKey random with ⟨_ | _ | _, z⟩ <;> rw [hc] at e
    rotate_left
    · cases (Prod.ext_iff.mp e).1
    · cases (Prod.ext_iff.mp e).1
    rename_i ck
    dsimp only at e ⊢
    rcases hk : messageKeysFor C ck.2 m.senderRatchetKey ck.1 m.counter with k | _ | _ <;> rw [hk] at e
    rotate_left
    · cases (Prod.ext_iff.mp e).1
    · cases (Prod.ext_iff.mp e).1
    dsimp only at e ⊢
    rcases hr : k.2.remoteIdentityKey with o | _ | _ <;> rw [hr] at e
    rotate_left
    · cases (Prod.ext_iff.mp e).1
    · cases (Prod.ext_iff.mp e).1
    dsimp only at e ⊢
    cases o with
    | none => cases (Prod.ext_iff.mp e).1
    | some theirs =>
      dsimp only at e ⊢
      rcases hl : k.2.localIdentityKey with l | _ | _ <;> rw [hl] at e
      rotate_left
      · cases (Prod.ext_iff.mp e).1
      · cases (Prod.ext_iff.mp e).1
      dsimp only at e ⊢
      have hmac : ∀ c, Signal.verifyMAC C { m with ciphertext := c } k.1.macKey theirs l = m.verifyMAC C k.1.macKey theirs l := fun _ => rfl
      rcases hv : m.verifyMAC C k.1.macKey theirs l with b | _ | _ <;> rw [hv] at e
      rotate_left
      · cases (Prod.ext_iff.mp e).1
      · cases (Prod.ext_iff.mp e).1
      dsimp only at e ⊢
      cases b with
      | false => cases (Prod.ext_iff.mp e).1
      | true =>
        simp only [if_true] at e
        rcases hd : cbcDecrypt C k.1.cipherKey k.1.iv m.ciphertext with q | _ | _ <;> rw [hd] at e
        rotate_left
        · cases (Prod.ext_iff.mp e).1
        · cases (Prod.ext_iff.mp e).1
        have e1 := Res.ok.inj (Prod.ext_iff.mp e).1
        have e2 := (Prod.ext_iff.mp e).2
        have e3 : q = p := (Prod.ext_iff.mp e1).1
        have e4 := (Prod.ext_iff.mp e1).2
        refine ⟨k.1.cipherKey, k.1.iv, by rw [hd, e3], fun c => ?_⟩
        rw [hmac c, hv]
        simp only [if_true]
        dsimp only at e2 e4
        subst e2
        rw [← e4]
        cases cbcDecrypt C k.1.cipherKey k.1.iv c <;> rfl

/-- C134, the whole call: a plain message that DecryptMessage reads with the current session of the peer. After a write to `Message()` it returns the decryption of
what was written, and everything else is as if the message had been left alone: stores, trust, random bytes. -/
theorem C134_call (E : Env) (a : Address) (m : Signal) (w w1 w' : World) (record : Record) (st st' : SState) (p rest : Bytes) (out : Option Bytes)
    (hl : loadSession a w = (.ok (some record), w1)) (hc : record.current = some st)
    (hd : decryptMessageSession E.C st m w1.rand = (.ok (p, st'), rest))
    (e : decryptMessage E a (.signal m) w = (.ok out, w')) :
    out = some p ∧ ∃ key iv, cbcDecrypt E.C key iv m.ciphertext = .ok p ∧
      ∀ c q, cbcDecrypt E.C key iv c = .ok q → decryptMessage E a (.signal { m with ciphertext := c }) w = (.ok (some q), w') := by
  obtain ⟨key, iv, hk, hall⟩ := C134_written_is_decrypted E.C st m w1.rand rest p st' hd
  have hrec : ∀ (n : Signal) (x : Bytes), decryptMessageSession E.C st n w1.rand = (.ok (x, st'), rest) →
      M.attempt (withRand (decryptRecord E.C record n)) w1 = (.ok (.ok (x, record.setSessionState st')), { w1 with rand := rest }) := by
    intro n x hx
    simp [M.attempt, withRand, decryptRecord, hc, bind, M.bind, hx, pure, M.pure]
  have hstart : ∀ (n : Signal) (x : Bytes), decryptMessageSession E.C st n w1.rand = (.ok (x, st'), rest) →
      decryptMessage E a (.signal n) w = signalEnd E a (record.setSessionState st') (some x) { w1 with rand := rest } := by
    intro n x hx
    show decryptSignal E a n w = _
    unfold decryptSignal signalEnd
    simp only [bind, M.bind, hl]
    rw [hrec n x hx]
    rfl
  rw [hstart m p hd] at e
  refine ⟨(signalEnd_ok E a _ _ none _ _ _ e).1, key, iv, hk, fun c q hq => ?_⟩
  rw [hstart _ q (by rw [hall c, hq]; rfl)]
  exact (signalEnd_ok E a _ _ (some q) _ _ _ e).2

/-- C134, the whole call for a pre-key message, where `Message().Message()` is the ciphertext. After `ProcessPreKey` the current session of the record reads it. -/
theorem C134_preKey_call (E : Env) (a : Address) (m : PreKeyMsg) (w w1 w2 w' : World) (stored : Option Record) (id : Option UInt32) (record : Record)
    (st st' : SState) (p rest : Bytes) (out : Option Bytes) (hl : loadSession a w = (.ok stored, w1))
    (hp : processPreKey E a stored.isSome (stored.getD {}) m w1 = (.ok (id, record), w2)) (hc : record.current = some st)
    (hd : decryptMessageSession E.C st m.message w2.rand = (.ok (p, st'), rest))
    (e : decryptMessage E a (.preKey m) w = (.ok out, w')) :
    out = some p ∧ ∃ key iv, cbcDecrypt E.C key iv m.message.ciphertext = .ok p ∧
      ∀ c q, cbcDecrypt E.C key iv c = .ok q →
        decryptMessage E a (.preKey { m with message := { m.message with ciphertext := c } }) w = (.ok (some q), w') := by
  obtain ⟨key, iv, hk, hall⟩ := C134_written_is_decrypted E.C st m.message w2.rand rest p st' hd
  have hrec : ∀ (n : Signal) (x : Bytes), decryptMessageSession E.C st n w2.rand = (.ok (x, st'), rest) →
      withRand (decryptRecord E.C record n) w2 = (.ok (x, record.setSessionState st'), { w2 with rand := rest }) := by
    intro n x hx
    simp [M.attempt, withRand, decryptRecord, hc, bind, M.bind, hx, pure, M.pure]
  have hstart : ∀ (n : Signal) (x : Bytes), decryptMessageSession E.C st n w2.rand = (.ok (x, st'), rest) →
      decryptMessage E a (.preKey { m with message := n }) w = preKeyEnd E a stored.isSome id (record.setSessionState st') x { w2 with rand := rest } := by
    intro n x hx
    have hp' : processPreKey E a stored.isSome (stored.getD {}) { m with message := n } w1 = (.ok (id, record), w2) := hp
    unfold decryptMessage decryptPreKey preKeyEnd
    simp only [bind, M.bind, hl]
    rw [hp']
    dsimp only
    rw [hrec n x hx]
    dsimp only
    rcases touch E a stored.isSome (record.setSessionState st') { w2 with rand := rest } with ⟨_ | _ | _, w3⟩ <;> try rfl
    dsimp only
    rcases storeSession a (record.setSessionState st') w3 with ⟨_ | _ | _, w4⟩ <;> try rfl
    cases id with
    | none => rfl
    | some i =>
      simp only [M.bind]
      rcases deletePreKey i w4 with ⟨_ | _ | _, w5⟩ <;> rfl
  have e' : decryptMessage E a (.preKey { m with message := m.message }) w = (.ok out, w') := e
  rw [hstart m.message p hd] at e'
  refine ⟨(preKeyEnd_ok E a _ _ _ _ [] _ _ _ e').1, key, iv, hk, fun c q hq => ?_⟩
  rw [hstart _ q (by rw [hall c, hq]; rfl)]
  exact (preKeyEnd_ok E a _ _ _ _ q _ _ _ e').2

/-- C134, the same for group messages, where the signature is over `Bytes()`. -/
theorem C134_group_written_is_decrypted (C : Crypto) (aliased : Bool) (sender : Address) (m : SenderKeyMsg) (w w' : GWorld) (p : Bytes)
    (e : groupDecrypt C aliased sender m w = (.ok p, w')) :
    ∃ key iv, cbcDecrypt C key iv m.ciphertext = .ok p ∧
      ∀ c q, cbcDecrypt C key iv c = .ok q → groupDecrypt C aliased sender { m with ciphertext := c } w = (.ok q, w') := by
  unfold groupDecrypt at e ⊢
  simp only [bind, M.bind] at e ⊢
  rcases hg : gLoad (sender, m.distID) w with ⟨_ | _ | _, w1⟩ <;> rw [hg] at e
  rotate_left
  · cases (Prod.ext_iff.mp e).1
  · cases (Prod.ext_iff.mp e).1
  rename_i o
  dsimp only at e ⊢
  cases o with
  | none => cases (Prod.ext_iff.mp e).1
  | some record =>
    dsimp only at e ⊢
    cases hst : GRecord.stateForChainID record m.chainID with
    | none => rw [hst] at e; cases (Prod.ext_iff.mp e).1
    | some state =>
      rw [hst] at e
      dsimp only at e ⊢
      by_cases hver : m.version.toUInt32 ≠ state.version
      · rw [if_pos hver] at e; cases (Prod.ext_iff.mp e).1
      rw [if_neg hver] at e
      simp only [if_neg hver]
      rcases hk : state.publicSigningKey with k | _ | _ <;> rw [hk] at e
      rotate_left
      · cases (Prod.ext_iff.mp e).1
      · cases (Prod.ext_iff.mp e).1
      simp only [M.bind, M.lift] at e
      have hsig : ∀ c, SenderKeyMsg.verifySignature C { m with ciphertext := c } k = m.verifySignature C k := fun _ => rfl
      rcases hv : m.verifySignature C k with b | _ | _ <;> rw [hv] at e
      rotate_left
      · cases (Prod.ext_iff.mp e).1
      · cases (Prod.ext_iff.mp e).1
      dsimp only at e
      cases b with
      | false => cases (Prod.ext_iff.mp e).1
      | true =>
        simp only [if_true, M.bind, M.lift] at e
        rcases hmk : groupMessageKey C state m.iteration with mk | _ | _ <;> rw [hmk] at e
        rotate_left
        · cases (Prod.ext_iff.mp e).1
        · cases (Prod.ext_iff.mp e).1
        dsimp only at e
        rcases ht : gTouch aliased (sender, m.distID) true (GRecord.setStateForChainID record m.chainID mk.2) w1 with ⟨_ | _ | _, w2⟩ <;> rw [ht] at e
        rotate_left
        · cases (Prod.ext_iff.mp e).1
        · cases (Prod.ext_iff.mp e).1
        dsimp only at e
        rcases hd : cbcDecrypt C mk.1.cipherKey mk.1.iv m.ciphertext with q | _ | _ <;> rw [hd] at e
        rotate_left
        · cases (Prod.ext_iff.mp e).1
        · cases (Prod.ext_iff.mp e).1
        dsimp only at e
        rcases hsto : gStore (sender, m.distID) (GRecord.setStateForChainID record m.chainID mk.2) w2 with ⟨_ | _ | _, w3⟩ <;> rw [hsto] at e
        rotate_left
        · cases (Prod.ext_iff.mp e).1
        · cases (Prod.ext_iff.mp e).1
        dsimp only at e
        have e1 : q = p := Res.ok.inj (Prod.ext_iff.mp e).1
        have e2 : w3 = w' := (Prod.ext_iff.mp e).2
        refine ⟨mk.1.cipherKey, mk.1.iv, by rw [hd, e1], fun c q' hq => ?_⟩
        simp only [M.bind, M.lift, hsig c, hv, if_true, hmk, ht, hq, hsto]
        rw [← e2]
        rfl

namespace Ex

/-- Another first byte of a ciphertext. -/
def otherFirst (c : Bytes) : PartWrite := ⟨0, 0, [(c.head?.getD 0) ^^^ 8]⟩

/-- Bob parses `g1` from a buffer. -/
def g1Ref : SenderKeyRef :=
  parsedAs ⟨0, dist, 0, 0, front 0, front 0⟩ (senderKeyFromSlice (front g1.serialized.length) [buffer g1.serialized])
def g1Parsed : Heap := (senderKeyFromSlice (front g1.serialized.length) [buffer g1.serialized]).2

end Ex

open Ex in
/-- C134, a run of this kind: the receiver parses a genuine message and writes one byte of what `Message()` returned. `Bytes()` is as it was, and DecryptMessage
returns a plaintext that the sender never sent, and no error. -/
theorem C134_altered_message_accepted :
    (decryptMessage copying alice (.signal (m3Ref.seen m3Parsed)) bob2).1 = .ok (some [5, 5]) ∧
    ((m3Ref.seen (m3Parsed.writeParts m3Ref.parts [otherFirst (m3Ref.seen m3Parsed).ciphertext])).serialized = m3.bytes) ∧
    (decryptMessage copying alice (.signal (m3Ref.seen (m3Parsed.writeParts m3Ref.parts [otherFirst (m3Ref.seen m3Parsed).ciphertext]))) bob2).1 =
      .ok (some [13, 5]) ∧
    (groupDecrypt toy false alice (g1Ref.seen g1Parsed) gbob1).1 = .ok [1, 2, 3] ∧
    (groupDecrypt toy false alice (g1Ref.seen (g1Parsed.writeParts g1Ref.parts [otherFirst g1.ciphertext])) gbob1).1 = .ok [9, 2, 3] := by
  refine ⟨?_, ?_, ?_, ?_, ?_⟩ <;> decide +kernel

/-! ## Instances -/

section
open Ex

/-- The messages of the theorems can be parsed and made. -/
example : (signalFromSlice (front m3.bytes.length) [buffer m3.bytes]).1 = .ok m3Ref := by decide +kernel
example : Heap.Valid [buffer m3.bytes] (front m3.bytes.length) := ⟨by decide +kernel, by decide +kernel, by decide +kernel⟩
example : (senderKeyFromSlice (front g1.serialized.length) [buffer g1.serialized]).1 = .ok g1Ref := by decide +kernel
example : (match distributionFromSlice (front d1.serialized.length) [buffer d1.serialized] with | (.ok _, _) => true | _ => false) = true := by decide +kernel
example : (match preKeyFromSlice ⟨0, 0, m1.bytes.length, m1.bytes.length⟩ [m1.bytes] with | (.ok _, _) => true | _ => false) = true := by decide +kernel
example : (match newSignalSlices toy 3 (List.replicate 32 7) (pair 1).pub 0 0 ⟨0, 0, 3, 3⟩ (pair 1).pub (pair 2).pub [[1, 2, 3]] with
    | (.ok _, _) => true | _ => false) = true := by decide +kernel
example : (match newSenderKeySlices toy 3 dist 0 0 ⟨0, 0, 3, 3⟩ (pair 1).priv ⟨[[1, 2, 3]], randomness 3⟩ with
    | (.ok _, _) => true | _ => false) = true := by decide +kernel
example : (match newPreKeySlices 3 0 none 0 (pair 1).pub (pair 2).pub m3Ref m3Parsed with | (.ok _, _) => true | _ => false) = true := by decide +kernel
example : NoOverlap m3Ref.ciphertext m3Ref.serialized := .inl (by decide +kernel)
example : (plaintextFromSlice ⟨0, 0, 3, 4⟩ [[0xC0, 1, 2, 9]]).1 = .ok ⟨⟨0, 0, 3, 4⟩⟩ := by decide +kernel

/-- The current session reads the message. -/
example : (match loadSession alice bob2 with
    | (.ok (some r), w1) => match r.current with
      | some st => match decryptMessageSession copying.C st (m3Ref.seen m3Parsed) w1.rand with
        | (.ok (p, _), _) => decide (p = [5, 5])
        | _ => false
      | none => false
    | _ => false) = true := by decide +kernel

/-- A pre-key message for which the hypotheses of `C134_preKey_call` hold. -/
example : (match m1, loadSession alice bob0 with
    | .preKey m, (.ok stored, w1) => match processPreKey copying alice stored.isSome (stored.getD {}) m w1 with
      | (.ok (_, record), w2) => match record.current with
        | some st => match decryptMessageSession copying.C st m.message w2.rand, decryptMessage copying alice (.preKey m) bob0 with
          | (.ok (p, _), _), (.ok out, _) => decide (out = some p)
          | _, _ => false
        | none => false
      | _ => false
    | _, _ => false) = true := by decide +kernel

/-- Two writes, one to each byte string. -/
example : writeValues [[1, 2, 3], [4, 5]] [⟨0, 1, [9]⟩, ⟨1, 0, [8, 8]⟩, ⟨1, 1, [7, 7]⟩] = [[1, 9, 3], [8, 8]] := by decide

end

end Verif
