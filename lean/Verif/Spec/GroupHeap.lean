import Verif.Model.GroupHeap
import Verif.Spec.Group

/-!
# Vocabulary for C93 to C96: group histories in which objects and arrays are shared
-/

namespace Verif

/-- What the functions on values need to know. -/
def GHEnv.toGEnv (E : GHEnv) : GEnv := ⟨E.C, E.aliased⟩

/-- A process that has just started, with an empty store. -/
def GHWorld.start (rand sysRand : Bytes) (faults : List Fault) : GHWorld :=
  { store := fun _ => none, records := fun _ => {}, states := fun _ => {}, nextRecord := 0, nextState := 0, rand := rand, sysRand := sysRand, faults := faults }

/-- Run one call. -/
def GCall.heapRun (E : GHEnv) (c : GCall) (h0 : GHWorld) : GOut × GHWorld :=
  let h := { h0 with rand := c.rand, sysRand := c.sysRand, faults := c.faults }
  match c.op with
  | .encrypt a d pt => let (r, h') := hgEncrypt E a d pt h; (GOut.of (.ciphertext a d) r, h')
  | .decrypt a m => let (r, h') := hgDecrypt E a m h; (GOut.of (.plaintext a m) r, h')
  | .process a d => let (r, h') := hgProcessDistribution E a d h; (GOut.of (fun _ => .done) r, h')
  | .distribute a d => let (r, h') := hgNewSenderKeyDistribution E a d h; (GOut.of (.distribution a d) r, h')

/-- The application itself loads a record: the pointer it gets. -/
def gAppLoad (E : GHEnv) (k : Address × DistId) (h : GHWorld) : Option Nat × GHWorld :=
  match hgLoad E k { h with faults := [] } with
  | (.ok o, h') => (o, { h' with faults := h.faults })
  | (_, h') => (none, { h' with faults := h.faults })

/-- A call, or the application loads a record. -/
inductive GHeapEvent where
  | call (c : GCall)
  | load (k : Address × DistId)

/-- Run a history; the outputs of the calls are in order. -/
def gHeapRun (E : GHEnv) : List GHeapEvent → GHWorld → List GOut × GHWorld
  | [], h => ([], h)
  | .call c :: evs, h =>
    let (o, h1) := c.heapRun E h
    let (os, h2) := gHeapRun E evs h1
    (o :: os, h2)
  | .load k :: evs, h => gHeapRun E evs (gAppLoad E k h).2

/-- The calls of a history. -/
def gCalls (evs : List GHeapEvent) : List GCall := evs.filterMap fun
  | .call c => some c
  | .load _ => none

/-- No call of the history is about this sender and group. -/
def GNotAbout (k : Address × DistId) (evs : List GHeapEvent) : Prop := ∀ c ∈ gCalls evs, c.op.key ≠ k

/-- Everything that the array of a slice points to is shown by the slice. Memory that the array points to cannot be reused. -/
def PtrSlice.NothingHidden {α : Type} (s : PtrSlice α) : Prop := ∀ x, some x ∈ s.array → x ∈ s.live

/-- A call reads a message late only with the key that was kept last. -/
def GCall.UsesLastKept (c : GCall) (w : GWorld) : Prop :=
  match c.op with
  | .decrypt a m => ∀ rec s, w.records (a, m.distID) = some rec → s ∈ rec → s.chainId = m.chainID →
      ∀ before k after, s.messageKeys = before ++ k :: after → k.iteration = m.iteration → after = []
  | _ => True

/-- So does every call of the history. -/
def LastKeptFirst (E : GEnv) : List GCall → GWorld → Prop
  | [], _ => True
  | c :: cs, w => c.UsesLastKept w ∧ LastKeptFirst E cs (c.run E w).2

end Verif
