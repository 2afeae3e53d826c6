import Verif.Model.Buffer
import Verif.Proofs.Slice
import Verif.Proofs.Encoding
import Verif.Spec.GroupExample

/-!
# Parsed messages and the caller's buffer: C83

An application reads bytes from the network into a buffer, parses a message from a slice of it, and uses the buffer
again for the next message.
-/

namespace Verif

/-- Memory before parsing, after parsing, and at some later time: the arrays that parsing made are as parsing left them.
Everything else may have changed in any way: the caller's own arrays, and arrays made later. -/
structure LaterMemory (before parsed later : Heap) : Prop where
  kept : parsed.length ≤ later.length
  own : ∀ i, before.length ≤ i → i < parsed.length → later.array i = parsed.array i

theorem read_alloc (h : Heap) (b : Bytes) : Heap.read (h ++ [b]) ⟨h.length, 0, b.length, b.length⟩ = b := by
  simp [Heap.read, Heap.array]

theorem read_append (h t : Heap) (s : Slice) (hs : s.arr < h.length) : Heap.read (h ++ t) s = h.read s := by
  simp [Heap.read, array_append h t s.arr hs]

theorem LaterMemory.read {before parsed later : Heap} (hl : LaterMemory before parsed later) {s : Slice}
    (h1 : before.length ≤ s.arr) (h2 : s.arr < parsed.length) : later.read s = parsed.read s := by
  simp [Heap.read, hl.own s.arr h1 h2]

theorem signalFromSlice_ok {s : Slice} {h h' : Heap} {r : SignalRef} (e : signalFromSlice s h = (.ok r, h')) :
    ∃ m, newSignalFromBytes (h.read s) = .ok m ∧ h' = h ++ [m.ciphertext] ∧
      r = ⟨m.version, m.senderRatchetKey, m.previousCounter, m.counter,
        ⟨h.length, 0, m.ciphertext.length, m.ciphertext.length⟩, s⟩ := by
  cases hm : newSignalFromBytes (h.read s) with
  | ok m =>
    refine ⟨m, rfl, ?_⟩
    simp [signalFromSlice, bind, M.bind, M.get, M.lift, hm, allocBytes, pure, M.pure] at e
    exact ⟨e.2.symm, e.1.symm⟩
  | err x => simp [signalFromSlice, bind, M.bind, M.get, M.lift, hm] at e
  | panic => simp [signalFromSlice, bind, M.bind, M.get, M.lift, hm] at e

theorem senderKeyFromSlice_ok {s : Slice} {h h' : Heap} {r : SenderKeyRef} (e : senderKeyFromSlice s h = (.ok r, h')) :
    ∃ m, newSenderKeyFromBytes (h.read s) = .ok m ∧ h' = h ++ [m.ciphertext] ∧
      r = ⟨m.version, m.distID, m.chainID, m.iteration,
        ⟨h.length, 0, m.ciphertext.length, m.ciphertext.length⟩, s⟩ := by
  cases hm : newSenderKeyFromBytes (h.read s) with
  | ok m =>
    refine ⟨m, rfl, ?_⟩
    simp [senderKeyFromSlice, bind, M.bind, M.get, M.lift, hm, allocBytes, pure, M.pure] at e
    exact ⟨e.2.symm, e.1.symm⟩
  | err x => simp [senderKeyFromSlice, bind, M.bind, M.get, M.lift, hm] at e
  | panic => simp [senderKeyFromSlice, bind, M.bind, M.get, M.lift, hm] at e

theorem distributionFromSlice_ok {s : Slice} {h h' : Heap} {r : DistributionRef} (e : distributionFromSlice s h = (.ok r, h')) :
    ∃ m, newDistributionFromBytes (h.read s) = .ok m ∧ h' = h ++ [m.chainKey] ∧
      r = ⟨m.version, m.distID, m.chainID, m.iteration,
        ⟨h.length, 0, m.chainKey.length, m.chainKey.length⟩, m.signingKey, s⟩ := by
  cases hm : newDistributionFromBytes (h.read s) with
  | ok m =>
    refine ⟨m, rfl, ?_⟩
    simp [distributionFromSlice, bind, M.bind, M.get, M.lift, hm, allocBytes, pure, M.pure] at e
    exact ⟨e.2.symm, e.1.symm⟩
  | err x => simp [distributionFromSlice, bind, M.bind, M.get, M.lift, hm] at e
  | panic => simp [distributionFromSlice, bind, M.bind, M.get, M.lift, hm] at e

theorem preKeyFromSlice_ok {s : Slice} {h h' : Heap} {r : PreKeyRef} (e : preKeyFromSlice s h = (.ok r, h')) :
    ∃ m, newPreKeyFromBytes (h.read s) = .ok m ∧ h' = h ++ [m.message.serialized] ++ [m.message.ciphertext] ∧
      r = ⟨m.version, m.registrationID, m.preKeyID, m.signedPreKeyID, m.baseKey, m.identityKey,
        ⟨m.message.version, m.message.senderRatchetKey, m.message.previousCounter, m.message.counter,
          ⟨h.length + 1, 0, m.message.ciphertext.length, m.message.ciphertext.length⟩,
          ⟨h.length, 0, m.message.serialized.length, m.message.serialized.length⟩⟩, s⟩ := by
  cases hm : newPreKeyFromBytes (h.read s) with
  | ok m =>
    refine ⟨m, rfl, ?_⟩
    obtain ⟨_, _, pb, _, _, _, _, _, hi, _⟩ := newPreKeyFromBytes_ok hm
    obtain ⟨_, _, _, _, _, _, _, _, _, _, _, _, hs⟩ := newSignalFromBytes_ok hi
    have hr := read_alloc h m.message.serialized
    rw [← hs] at hi
    simp [preKeyFromSlice, signalFromSlice, bind, M.bind, M.get, M.lift, hm, allocBytes, pure, M.pure, hr, hi] at e
    simp [← e.1, ← e.2]
  | err x => simp [preKeyFromSlice, bind, M.bind, M.get, M.lift, hm] at e
  | panic => simp [preKeyFromSlice, bind, M.bind, M.get, M.lift, hm] at e

/-- **C83**, parsing from a slice of a buffer and parsing the bytes agree: same success, same error, same message, for all
four kinds of message. -/
theorem C83_parsing (h : Heap) (s : Slice) (hv : h.Valid s) :
    (fun r : SignalRef => r.seen (signalFromSlice s h).2) <$> (signalFromSlice s h).1 = newSignalFromBytes (h.read s) ∧
    (fun r : PreKeyRef => r.seen (preKeyFromSlice s h).2) <$> (preKeyFromSlice s h).1 = newPreKeyFromBytes (h.read s) ∧
    (fun r : SenderKeyRef => r.seen (senderKeyFromSlice s h).2) <$> (senderKeyFromSlice s h).1 =
      newSenderKeyFromBytes (h.read s) ∧
    (fun r : DistributionRef => r.seen (distributionFromSlice s h).2) <$> (distributionFromSlice s h).1 =
      newDistributionFromBytes (h.read s) := by
  have hs : s.arr < h.length := hv.1
  refine ⟨?_, ?_, ?_, ?_⟩
  · cases hm : newSignalFromBytes (h.read s) with
    | ok m =>
      obtain ⟨_, _, _, _, _, _, _, _, _, _, _, _, he⟩ := newSignalFromBytes_ok hm
      simp [signalFromSlice, bind, M.bind, M.get, M.lift, hm, allocBytes, pure, M.pure, Res.map_eq, SignalRef.seen, read_alloc,
        read_append _ _ _ hs, Res.bind]
      simp [← he]
    | err x => simp [signalFromSlice, bind, M.bind, M.get, M.lift, hm, Res.map_eq, Res.bind]
    | panic => simp [signalFromSlice, bind, M.bind, M.get, M.lift, hm, Res.map_eq, Res.bind]
  · cases hm : newPreKeyFromBytes (h.read s) with
    | ok m =>
      rcases hp : preKeyFromSlice s h with ⟨r, h'⟩
      obtain ⟨_, _, pb, _, _, _, _, _, hi, _, _, _, _, he⟩ := newPreKeyFromBytes_ok hm
      obtain ⟨_, _, _, _, _, _, _, _, _, _, _, _, hse⟩ := newSignalFromBytes_ok hi
      have hr := read_alloc h m.message.serialized
      rw [← hse] at hi
      have hp' := hp
      simp [preKeyFromSlice, signalFromSlice, bind, M.bind, M.get, M.lift, hm, allocBytes, pure, M.pure, hr, hi] at hp'
      obtain ⟨rfl, rfl⟩ := hp'
      have e1 : Heap.read (h ++ [m.message.serialized, m.message.ciphertext]) s = h.read s := read_append _ _ _ hs
      have e2 := read_alloc (h ++ [m.message.serialized]) m.message.ciphertext
      have e3 : Heap.read (h ++ [m.message.serialized] ++ [m.message.ciphertext]) _ = _ :=
        (read_append _ [m.message.ciphertext] ⟨h.length, 0, m.message.serialized.length, m.message.serialized.length⟩ (by simp)).trans hr
      simp only [List.append_assoc, List.cons_append, List.nil_append, List.length_append, List.length_cons, List.length_nil,
        Nat.zero_add] at e2 e3
      simp [Res.map_eq, PreKeyRef.seen, SignalRef.seen, e1, e2, e3, ← he]
    | err x => simp [preKeyFromSlice, bind, M.bind, M.get, M.lift, hm, Res.map_eq, Res.bind]
    | panic => simp [preKeyFromSlice, bind, M.bind, M.get, M.lift, hm, Res.map_eq, Res.bind]
  · cases hm : newSenderKeyFromBytes (h.read s) with
    | ok m =>
      obtain ⟨_, _, _, _, _, _, _, _, _, _, _, _, he⟩ := newSenderKeyFromBytes_ok hm
      simp [senderKeyFromSlice, bind, M.bind, M.get, M.lift, hm, allocBytes, pure, M.pure, Res.map_eq, SenderKeyRef.seen,
        read_alloc, read_append _ _ _ hs, Res.bind]
      simp [← he]
    | err x => simp [senderKeyFromSlice, bind, M.bind, M.get, M.lift, hm, Res.map_eq, Res.bind]
    | panic => simp [senderKeyFromSlice, bind, M.bind, M.get, M.lift, hm, Res.map_eq, Res.bind]
  · cases hm : newDistributionFromBytes (h.read s) with
    | ok m =>
      obtain ⟨_, _, _, _, _, _, _, _, _, _, _, _, _, _, he⟩ := newDistributionFromBytes_ok hm
      simp [distributionFromSlice, bind, M.bind, M.get, M.lift, hm, allocBytes, pure, M.pure, Res.map_eq, DistributionRef.seen,
        read_alloc, read_append _ _ _ hs, Res.bind]
      simp [← he]
    | err x => simp [distributionFromSlice, bind, M.bind, M.get, M.lift, hm, Res.map_eq, Res.bind]
    | panic => simp [distributionFromSlice, bind, M.bind, M.get, M.lift, hm, Res.map_eq, Res.bind]

/-- **C83**, what holds of a signal message: whatever happens to the buffer later, every field keeps the value that was
parsed; only the bytes that `Bytes` returns, and over which the MAC is computed, are those now in the buffer. As long
as these are left alone the message is the one parsed. -/
theorem C83_signal_partial (before parsed later : Heap) (s : Slice) (r : SignalRef)
    (hp : signalFromSlice s before = (.ok r, parsed)) (hl : LaterMemory before parsed later) :
    ∃ m, newSignalFromBytes (before.read s) = .ok m ∧ r.seen later = { m with serialized := later.read s } ∧
      (later.read s = before.read s → r.seen later = m) := by
  obtain ⟨m, hm, rfl, rfl⟩ := signalFromSlice_ok hp
  obtain ⟨_, _, _, _, _, _, _, _, _, _, _, _, he⟩ := newSignalFromBytes_ok hm
  have h1 := hl.read (s := ⟨before.length, 0, m.ciphertext.length, m.ciphertext.length⟩) (by simp) (by simp)
  rw [read_alloc] at h1
  refine ⟨m, hm, by simp [SignalRef.seen, h1], fun hr => ?_⟩
  simp [SignalRef.seen, h1, hr, ← he]

/-- **C83**, what holds of a group message: as for a signal message, with the signature in place of the MAC. -/
theorem C83_senderKey_partial (before parsed later : Heap) (s : Slice) (r : SenderKeyRef)
    (hp : senderKeyFromSlice s before = (.ok r, parsed)) (hl : LaterMemory before parsed later) :
    ∃ m, newSenderKeyFromBytes (before.read s) = .ok m ∧ r.seen later = { m with serialized := later.read s } ∧
      (later.read s = before.read s → r.seen later = m) := by
  obtain ⟨m, hm, rfl, rfl⟩ := senderKeyFromSlice_ok hp
  obtain ⟨_, _, _, _, _, _, _, _, _, _, _, _, he⟩ := newSenderKeyFromBytes_ok hm
  have h1 := hl.read (s := ⟨before.length, 0, m.ciphertext.length, m.ciphertext.length⟩) (by simp) (by simp)
  rw [read_alloc] at h1
  refine ⟨m, hm, by simp [SenderKeyRef.seen, h1], fun hr => ?_⟩
  simp [SenderKeyRef.seen, h1, hr, ← he]

/-- **C83** holds for pre-key messages: whatever happens to the buffer after parsing, DecryptMessage does what it
would have done at once, with the same result and the same effect on the stores; only `Bytes` differs. -/
theorem C83_preKey_partial (before parsed later : Heap) (s : Slice) (r : PreKeyRef)
    (hp : preKeyFromSlice s before = (.ok r, parsed)) (hl : LaterMemory before parsed later) :
    ∃ m, newPreKeyFromBytes (before.read s) = .ok m ∧ r.seen later = { m with serialized := later.read s } ∧
      ∀ (E : Env) (a : Address) (w : World), decryptMessage E a (.preKey (r.seen later)) w = decryptMessage E a (.preKey m) w := by
  obtain ⟨m, hm, rfl, hr⟩ := preKeyFromSlice_ok hp
  have h1 := hl.read (s := ⟨before.length, 0, m.message.serialized.length, m.message.serialized.length⟩) (by simp) (by simp)
  have h2 := hl.read (s := ⟨before.length + 1, 0, m.message.ciphertext.length, m.message.ciphertext.length⟩) (by simp) (by simp)
  have e2 := read_alloc (before ++ [m.message.serialized]) m.message.ciphertext
  simp only [List.length_append, List.length_cons, List.length_nil, Nat.zero_add] at e2
  rw [read_append _ _ _ (by simp), read_alloc] at h1
  rw [e2] at h2
  have e : r.seen later = { m with serialized := later.read s } := by simp only [hr, PreKeyRef.seen, SignalRef.seen, h1, h2]
  refine ⟨m, hm, e, fun E a w => ?_⟩
  rw [e]
  rfl

/-- **C83** holds for distribution messages: whatever happens to the buffer after parsing, ProcessSenderKeyDistribution
does what it would have done at once. -/
theorem C83_distribution_partial (before parsed later : Heap) (s : Slice) (r : DistributionRef)
    (hp : distributionFromSlice s before = (.ok r, parsed)) (hl : LaterMemory before parsed later) :
    ∃ m, newDistributionFromBytes (before.read s) = .ok m ∧ r.seen later = { m with serialized := later.read s } ∧
      ∀ (aliased : Bool) (a : Address) (w : GWorld),
        processDistribution aliased a (r.seen later) w = processDistribution aliased a m w := by
  obtain ⟨m, hm, rfl, hr⟩ := distributionFromSlice_ok hp
  have h1 := hl.read (s := ⟨before.length, 0, m.chainKey.length, m.chainKey.length⟩) (by simp) (by simp)
  rw [read_alloc] at h1
  have e : r.seen later = { m with serialized := later.read s } := by simp only [hr, DistributionRef.seen, h1]
  refine ⟨m, hm, e, fun al a w => ?_⟩
  rw [e]
  rfl

namespace Ex

/-- A buffer of 200 bytes that starts with the given bytes, and the slice of its first `n` bytes. -/
def buffer (b : Bytes) : Bytes := b ++ List.replicate (200 - b.length) 0
def front (n : Nat) : Slice := ⟨0, 0, n, 200⟩

/-- The group message `g1` with its first ciphertext byte changed and 64 zero bytes for a signature: nobody signed it. -/
def forgedBytes : Bytes :=
  versionPrefix 3 :: PBSenderKey.marshal { distributionUuid := some g1.distID.string, chainId := some g1.chainID, iteration := some g1.iteration, ciphertext := some (modifyAt g1.ciphertext 0 (· ^^^ 8)) } ++ List.replicate 64 0

def parsedAs {α} (d : α) (x : Res α × Heap) : α :=
  match x.1 with
  | .ok r => r
  | _ => d

/-- Bob parses the forged message from their buffer and then receives the genuine `g1` into the same buffer. -/
def forgedRef : SenderKeyRef :=
  parsedAs ⟨0, dist, 0, 0, front 0, front 0⟩ (senderKeyFromSlice (front forgedBytes.length) [buffer forgedBytes])
def forgedParsed : Heap := (senderKeyFromSlice (front forgedBytes.length) [buffer forgedBytes]).2
def overwritten : Heap := forgedParsed.modify 0 fun _ => buffer g1.serialized

/-- Bob parses `m3` from their buffer and then receives something else into the same buffer. -/
def m3Ref : SignalRef :=
  parsedAs ⟨0, (pair 1).pub, 0, 0, front 0, front 0⟩ (signalFromSlice (front m3.bytes.length) [buffer m3.bytes])
def m3Parsed : Heap := (signalFromSlice (front m3.bytes.length) [buffer m3.bytes]).2
def reused : Heap := m3Parsed.modify 0 fun _ => List.replicate 200 1

end Ex

open Ex in
/-- C83 does not hold: a message that the sender never sent and that carries no valid signature is rejected when
it is decrypted at once, and is accepted as the sender's when the receiver reads a genuine message into the
buffer before decrypting it; and a genuine message is delivered when decrypted at once, and lost when the buffer has been
used again. -/
theorem C83_independent_false :
    (senderKeyFromSlice (front forgedBytes.length) [buffer forgedBytes]).1 = .ok forgedRef ∧
    LaterMemory [buffer forgedBytes] forgedParsed overwritten ∧
    (groupDecrypt toy false alice (forgedRef.seen forgedParsed) gbob1).1 = .err .badSignature ∧
    (groupDecrypt toy false alice (forgedRef.seen overwritten) gbob1).1 = .ok [9, 2, 3] ∧
    (groupDecrypt toy false alice g1 gbob1).1 = .ok [1, 2, 3] ∧
    (signalFromSlice (front m3.bytes.length) [buffer m3.bytes]).1 = .ok m3Ref ∧
    LaterMemory [buffer m3.bytes] m3Parsed reused ∧
    (decryptMessage copying alice (.signal (m3Ref.seen m3Parsed)) bob2).1 = .ok (some [5, 5]) ∧
    (decryptMessage copying alice (.signal (m3Ref.seen reused)) bob2).1 = .ok none := by
  have hmod : ∀ (b : Bytes) (p : Heap) (f : Bytes → Bytes), LaterMemory [b] p (p.modify 0 f) := fun b p f =>
    ⟨by simp, fun i hi _ => array_modify_ne p 0 i f (by simp at hi; omega)⟩
  refine ⟨?_, hmod _ _ _, ?_, ?_, ?_, ?_, hmod _ _ _, ?_, ?_⟩ <;> decide +kernel

open Ex in
/-- The hypotheses of the other theorems can be met: a pre-key message and a distribution message are parsed from a buffer
that is overwritten afterwards. -/
example :
    (∃ r p, preKeyFromSlice ⟨0, 0, m1.bytes.length, 300⟩ [m1.bytes ++ List.replicate (300 - m1.bytes.length) 0] = (.ok r, p) ∧
      LaterMemory [m1.bytes ++ List.replicate (300 - m1.bytes.length) 0] p (p.modify 0 fun _ => [])) ∧
    (∃ r p, distributionFromSlice (front d1.serialized.length) [buffer d1.serialized] = (.ok r, p) ∧
      LaterMemory [buffer d1.serialized] p (p.modify 0 fun _ => [])) := by
  have hmod : ∀ (b : Bytes) (p : Heap) (f : Bytes → Bytes), LaterMemory [b] p (p.modify 0 f) := fun b p f =>
    ⟨by simp, fun i hi _ => array_modify_ne p 0 i f (by simp at hi; omega)⟩
  have hok : ∀ {α : Type} (x : Res α × Heap), (match x.1 with | .ok _ => true | _ => false) = true → ∃ r p, x = (.ok r, p) := by
    intro α x hx
    rcases x with ⟨_ | _ | _, p⟩ <;> simp at hx
    exact ⟨_, p, rfl⟩
  obtain ⟨r1, p1, h1⟩ := hok (preKeyFromSlice ⟨0, 0, m1.bytes.length, 300⟩ [m1.bytes ++ List.replicate (300 - m1.bytes.length) 0])
    (by decide +kernel)
  obtain ⟨r2, p2, h2⟩ := hok (distributionFromSlice (front d1.serialized.length) [buffer d1.serialized]) (by decide +kernel)
  exact ⟨⟨r1, p1, h1, hmod _ _ _⟩, ⟨r2, p2, h2, hmod _ _ _⟩⟩

end Verif
