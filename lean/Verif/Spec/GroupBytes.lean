import Mathlib.Data.List.Forall2
import Verif.Model.GroupBytes

/-!
# Programs that use group sessions and hold bytes

A program holds byte slices: those it made, and those it got from messages and from decryption. It writes to them and calls the group
functions over the in-memory store. The same program is run twice: over memory, and over values, where byte strings have no place
in memory and a write changes one byte string only. The chain keys of distribution messages that the library made are kept in a list
of their own. A call with a slice that does not exist does nothing.
-/

namespace Verif

/-- What a program can do. -/
inductive ByteOp where
  /-- make an array with these bytes and hold the window `shown` of it -/
  | make (before shown after : Bytes)
  /-- write to a held slice, from this offset -/
  | write (slice offset : Nat) (bytes : Bytes)
  /-- write to the bytes that `ChainKey` of a distribution message made by `newDistribution` returns -/
  | writeChainKey (index offset : Nat) (bytes : Bytes)
  /-- `NewSenderKeyDistribution`; the program then holds `Bytes` and `ChainKey` of the message -/
  | newDistribution (sender : Address) (dist : DistId)
  /-- `NewSenderKeyDistributionFromBytes` and `ProcessSenderKeyDistribution`; the program then holds `ChainKey` of the message -/
  | process (sender : Address) (slice : Nat)
  /-- `EncryptMessage`; the program then holds `Bytes` and `Message` of the message -/
  | encrypt (sender : Address) (dist : DistId) (slice : Nat)
  /-- `NewSenderKeyFromBytes` and `DecryptMessage`; the program then holds `Message` of the message and the plaintext -/
  | decrypt (sender : Address) (slice : Nat)

/-- The operation does not write to the chain key of a distribution message that the library made. -/
def ByteOp.Leaves : ByteOp → Prop
  | .writeChainKey _ _ _ => False
  | _ => True

/-- The operation is no call for this sender. -/
def ByteOp.NotFor (sender : Address) : ByteOp → Prop
  | .newDistribution a _ | .process a _ | .encrypt a _ _ | .decrypt a _ => a ≠ sender
  | _ => True

/-! ## Over memory -/

structure ByteMem where
  mem : GMem
  slices : List Slice := []
  chainKeys : List Slice := []

/-- An empty store, and the two random readers. -/
def ByteMem.start (rand sysRand : Bytes) : ByteMem := { mem := { heap := [], records := fun _ => none, rand := rand, sysRand := sysRand } }

/-- A call: on success the program holds more slices. -/
def ByteMem.call {α} (s : ByteMem) (x : M GMem α) (slices chainKeys : α → List Slice) : Res Unit × ByteMem :=
  match x s.mem with
  | (.ok a, m) => (.ok (), { mem := m, slices := s.slices ++ slices a, chainKeys := s.chainKeys ++ chainKeys a })
  | (.err e, m) => (.err e, { s with mem := m })
  | (.panic, m) => (.panic, { s with mem := m })

/-- Writing to a slice, if the bytes fit. -/
def ByteMem.writeTo (s : ByteMem) (x : Slice) (offset : Nat) (bytes : Bytes) : ByteMem :=
  if offset + bytes.length ≤ x.len then
    { s with mem := { s.mem with heap := s.mem.heap.modify x.arr fun a => overwrite a (x.off + offset) bytes } }
  else s

def ByteMem.step (C : Crypto) (s : ByteMem) : ByteOp → Res Unit × ByteMem
  | .make before shown after =>
    (.ok (), { s with mem := { s.mem with heap := s.mem.heap ++ [before ++ shown ++ after] },
                      slices := s.slices ++ [⟨s.mem.heap.length, before.length, shown.length, shown.length + after.length⟩] })
  | .write i offset bytes => match s.slices[i]? with
    | some x => (.ok (), s.writeTo x offset bytes)
    | none => (.ok (), s)
  | .writeChainKey i offset bytes => match s.chainKeys[i]? with
    | some x => (.ok (), s.writeTo x offset bytes)
    | none => (.ok (), s)
  | .newDistribution sender dist => s.call (newDistributionBytes C sender dist) (fun d => [d.serialized]) fun d => [d.chainKey]
  | .process sender i => match s.slices[i]? with
    | some x => s.call (do
        let d ← onHeap (distributionFromSlice x)
        processBytes sender d
        return d) (fun d => [d.chainKey]) fun _ => []
    | none => (.ok (), s)
  | .encrypt sender dist i => match s.slices[i]? with
    | some x => s.call (encryptBytes C sender dist x) (fun c => [c.serialized, c.ciphertext]) fun _ => []
    | none => (.ok (), s)
  | .decrypt sender i => match s.slices[i]? with
    | some x => s.call (do
        let c ← onHeap (senderKeyFromSlice x)
        let p ← decryptBytes C sender c
        return (c, p)) (fun o => [o.1.ciphertext, o.2]) fun _ => []
    | none => (.ok (), s)

/-- A program over memory: the results of the calls, and what is there at the end. -/
def ByteMem.run (C : Crypto) (s : ByteMem) : List ByteOp → List (Res Unit) × ByteMem
  | [] => ([], s)
  | op :: ops =>
    let (out, s') := s.step C op
    let (outs, t) := s'.run C ops
    (out :: outs, t)

/-! ## Over values -/

structure ByteVals where
  world : GWorld
  slices : List Bytes := []
  chainKeys : List Bytes := []

/-- An empty store, and the two random readers. -/
def ByteVals.start (rand sysRand : Bytes) : ByteVals := { world := { records := fun _ => none, rand := rand, sysRand := sysRand, faults := [] } }

/-- A call: on success the program holds more byte strings. -/
def ByteVals.call {α} (s : ByteVals) (x : M GWorld α) (slices chainKeys : α → List Bytes) : Res Unit × ByteVals :=
  match x s.world with
  | (.ok a, w) => (.ok (), { world := w, slices := s.slices ++ slices a, chainKeys := s.chainKeys ++ chainKeys a })
  | (.err e, w) => (.err e, { s with world := w })
  | (.panic, w) => (.panic, { s with world := w })

def ByteVals.step (C : Crypto) (s : ByteVals) : ByteOp → Res Unit × ByteVals
  | .make _ shown _ => (.ok (), { s with slices := s.slices ++ [shown] })
  | .write i offset bytes => match s.slices[i]? with
    | some x => (.ok (), if offset + bytes.length ≤ x.length then { s with slices := s.slices.set i (overwrite x offset bytes) } else s)
    | none => (.ok (), s)
  | .writeChainKey i offset bytes => match s.chainKeys[i]? with
    | some x => (.ok (), if offset + bytes.length ≤ x.length then { s with chainKeys := s.chainKeys.set i (overwrite x offset bytes) } else s)
    | none => (.ok (), s)
  | .newDistribution sender dist => s.call (newSenderKeyDistribution C sender dist) (fun d => [d.serialized]) fun d => [d.chainKey]
  | .process sender i => match s.slices[i]? with
    | some x => s.call (do
        let d ← M.lift (newDistributionFromBytes x)
        processDistribution true sender d
        return d) (fun d => [d.chainKey]) fun _ => []
    | none => (.ok (), s)
  | .encrypt sender dist i => match s.slices[i]? with
    | some x => s.call (groupEncrypt C true sender dist x) (fun c => [c.serialized, c.ciphertext]) fun _ => []
    | none => (.ok (), s)
  | .decrypt sender i => match s.slices[i]? with
    | some x => s.call (do
        let c ← M.lift (newSenderKeyFromBytes x)
        let p ← groupDecrypt C true sender c
        return (c, p)) (fun o => [o.1.ciphertext, o.2]) fun _ => []
    | none => (.ok (), s)

/-- A program over values. -/
def ByteVals.run (C : Crypto) (s : ByteVals) : List ByteOp → List (Res Unit) × ByteVals
  | [] => ([], s)
  | op :: ops =>
    let (out, s') := s.step C op
    let (outs, t) := s'.run C ops
    (out :: outs, t)

/-- Everything the program holds, and everything in the store, shows the values. -/
structure ByteMem.Shows (s : ByteMem) (v : ByteVals) : Prop where
  slices : List.Forall₂ (fun x b => s.mem.heap.read x = b) s.slices v.slices
  chainKeys : List.Forall₂ (fun x b => s.mem.heap.read x = b) s.chainKeys v.chainKeys
  records : s.mem.seen.records = v.world.records

end Verif
