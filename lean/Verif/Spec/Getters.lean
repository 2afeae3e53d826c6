import Verif.Model.Getters
import Verif.Spec.StateBytes

/-!
# Programs that write to the bytes that getters of a message return

A program holds what `Message()` (for a distribution message `ChainKey()`) and `Bytes()` returned, and writes to it.
-/

namespace Verif

/-- A write to one of the byte strings that the program holds, if the bytes fit. -/
structure PartWrite where
  part : Nat
  offset : Nat
  bytes : Bytes

/-- The slices of a message, in the order `Message()`, `Bytes()`. -/
def SignalRef.parts (r : SignalRef) : List Slice := [r.ciphertext, r.serialized]
def SenderKeyRef.parts (r : SenderKeyRef) : List Slice := [r.ciphertext, r.serialized]
def DistributionRef.parts (r : DistributionRef) : List Slice := [r.chainKey, r.serialized]
/-- Those of the message inside come first. -/
def PreKeyRef.parts (r : PreKeyRef) : List Slice := [r.message.ciphertext, r.message.serialized, r.serialized]

/-- Writing over memory. -/
def Heap.writeParts (h : Heap) (parts : List Slice) : List PartWrite → Heap
  | [] => h
  | w :: ws => Heap.writeParts (match parts[w.part]? with
      | some x => if w.offset + w.bytes.length ≤ x.len then h.modify x.arr fun a => overwrite a (x.off + w.offset) w.bytes else h
      | none => h) parts ws

/-- Writing over values: byte strings that have nothing to do with each other. -/
def writeValues (vs : List Bytes) : List PartWrite → List Bytes
  | [] => vs
  | w :: ws => writeValues (vs.modify w.part fun v => if w.offset + w.bytes.length ≤ v.length then overwrite v w.offset w.bytes else v) ws

/-- The message with other byte strings. -/
def Signal.withParts (m : Signal) : List Bytes → Signal
  | [c, s] => { m with ciphertext := c, serialized := s }
  | _ => m
def SenderKeyMsg.withParts (m : SenderKeyMsg) : List Bytes → SenderKeyMsg
  | [c, s] => { m with ciphertext := c, serialized := s }
  | _ => m
def DistributionMsg.withParts (m : DistributionMsg) : List Bytes → DistributionMsg
  | [c, s] => { m with chainKey := c, serialized := s }
  | _ => m
def PreKeyMsg.withParts (m : PreKeyMsg) : List Bytes → PreKeyMsg
  | [c, i, s] => { m with message := { m.message with ciphertext := c, serialized := i }, serialized := s }
  | _ => m

end Verif
