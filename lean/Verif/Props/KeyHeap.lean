import Verif.Proofs.KeyHeap
import Verif.Model.Toy

/-!
# C130: keys and the caller's bytes stay apart
-/

namespace Verif

/-- **C130**. A program that makes byte slices, writes to them, makes keys from them and calls the functions of keys and pre-keys sees the
same errors and answers as if keys and byte strings were values without a place in memory; and at the end every slice, key and pre-key
shows the bytes of that value. Over values a write changes one byte string and no key. -/
theorem C130_as_values (C : Crypto) (ops : List KeyOp) :
    (KeyMem.run C {} ops).1 = (KeyVals.run C {} ops).1 ∧ (KeyMem.run C {} ops).2.Shows C (KeyVals.run C {} ops).2 := by
  have h := KeyInv.start (C := C).run ops
  exact ⟨h.1, h.2.shows⟩

/-- C130: a key object never changes, whatever the program does afterwards: writing to the bytes a key was made from, or to bytes that a
call returned, does not reach it. -/
theorem C130_keys_never_change (C : Crypto) (before after : List KeyOp) :
    let s := (KeyMem.run C {} before).2
    let t := (s.run C after).2
    (∀ (i : Nat) (p : PubRef), s.pubs[i]? = some p → t.pubs[i]? = some p ∧ t.heap.read p.key = s.heap.read p.key) ∧
    (∀ (i : Nat) (p : PrivRef), s.privs[i]? = some p → t.privs[i]? = some p ∧ t.heap.read p.privateKey = s.heap.read p.privateKey ∧
      t.heap.read p.publicKey = s.heap.read p.publicKey ∧ clamp (t.heap.read p.ecdhKey) = clamp (s.heap.read p.ecdhKey)) ∧
    (∀ (i : Nat) (p : PreKeyRecRef), s.preKeys[i]? = some p → t.preKeys[i]? = some p ∧ t.heap.read p.publicKey = s.heap.read p.publicKey ∧
      t.heap.read p.privateKey = s.heap.read p.privateKey) := by
  intro s t
  have i := (KeyInv.start (C := C).run before).2
  have j := (i.run after).2
  have k := KeyMem.run_prefix C s after
  have l := KeyVals.run_prefix C (KeyVals.run C {} before).2 after
  refine ⟨fun n p hp => ?_, fun n p hp => ?_, fun n p hp => ?_⟩
  · have hp' := getElem?_of_prefix k.1 hp
    refine ⟨hp', ?_⟩
    obtain ⟨w, hw, e1⟩ := forall₂_some i.shows.pubs hp
    obtain ⟨w', hw', e2⟩ := forall₂_some j.shows.pubs hp'
    rw [getElem?_of_prefix l.1 hw] at hw'
    cases hw'
    exact e2.trans e1.symm
  · have hp' := getElem?_of_prefix k.2.1 hp
    refine ⟨hp', ?_⟩
    obtain ⟨w, hw, e1⟩ := forall₂_some i.shows.privs hp
    obtain ⟨w', hw', e2⟩ := forall₂_some j.shows.privs hp'
    rw [getElem?_of_prefix l.2.1 hw] at hw'
    cases hw'
    exact ⟨e2.1.trans e1.1.symm, e2.2.1.trans e1.2.1.symm, e2.2.2.2.trans e1.2.2.2.symm⟩
  · have hp' := getElem?_of_prefix k.2.2 hp
    refine ⟨hp', ?_⟩
    obtain ⟨w, hw, e1⟩ := forall₂_some i.shows.preKeys hp
    obtain ⟨w', hw', e2⟩ := forall₂_some j.shows.preKeys hp'
    rw [getElem?_of_prefix l.2.2 hw] at hw'
    cases hw'
    exact ⟨e2.1.trans e1.1.symm, e2.2.trans e1.2.symm⟩

/-- C130: the bytes of a slice that the program holds change only when the program writes to this slice. -/
theorem C130_own_bytes (C : Crypto) (before : List KeyOp) (op : KeyOp) (i : Nat) (x : Slice) :
    let s := (KeyMem.run C {} before).2
    let t := (s.step C op).2
    s.slices[i]? = some x → (∀ offset bytes, op ≠ .write i offset bytes) → t.slices[i]? = some x ∧ t.heap.read x = s.heap.read x := by
  intro s t hx hop
  have inv := (KeyInv.start (C := C).run before).2
  have j := (inv.step op).2
  have hx' := getElem?_of_prefix (KeyMem.step_slices C s op) hx
  refine ⟨hx', ?_⟩
  obtain ⟨b, hb, e1⟩ := forall₂_some inv.shows.slices hx
  obtain ⟨c, hc, e2⟩ := forall₂_some j.shows.slices hx'
  rw [KeyVals.step_slice C _ op i hop hb] at hc
  cases hc
  exact e2.trans e1.symm

/-! ## Instances -/

/-- A program that makes a public key from bytes, overwrites these bytes, asks for the bytes of the key, overwrites the answer and asks
again: the key it made is still the one. -/
example : (KeyVals.run toy {} [.make [9] (5 :: List.replicate 32 1) [7, 7], .newPublicKey 0, .write 0 1 (List.replicate 32 2), .publicBytes 0,
    .write 1 0 [0, 0, 0], .publicBytes 0]).2.slices =
    [5 :: List.replicate 32 2, 0 :: 0 :: 0 :: List.replicate 30 1, 5 :: List.replicate 32 1] := by decide +kernel

/-- The same over memory: what the three slices show at the end. -/
example : (let s := (KeyMem.run toy {} [.make [9] (5 :: List.replicate 32 1) [7, 7], .newPublicKey 0, .write 0 1 (List.replicate 32 2), .publicBytes 0,
    .write 1 0 [0, 0, 0], .publicBytes 0]).2; s.slices.map s.heap.read) =
    [5 :: List.replicate 32 2, 0 :: 0 :: 0 :: List.replicate 30 1, 5 :: List.replicate 32 1] := by decide +kernel

/-- Programs get errors too, and reach all kinds of objects. -/
example : (KeyMem.run toy {} [.make [] [5] [], .newPublicKey 0, .newPrivateKey 0, .generate (List.replicate 32 1), .publicKey 0, .newPreKey 0 0,
    .keyPair 0, .agreement 1 0, .sign 0 (List.replicate 64 3) [0], .verify 1 2 [0]]).1 =
    [.ok none, .err (.invalidKeyLength 33 1), .err (.invalidKeyLength 32 1), .ok none, .ok none, .ok none, .ok none, .ok none, .ok none,
      .ok (some true)] := by decide +kernel

end Verif
