import Verif.Model.Heap
import Verif.Spec.Session

/-!
# Vocabulary for C85 and C86: histories in which objects are shared
-/

namespace Verif

/-- A process that has just started with these stores, and no session. -/
def HWorld.start (w : World) : HWorld :=
  { rest := w, store := fun _ => none, records := fun _ => {}, states := fun _ => {}, nextRecord := 0, nextState := 0 }

/-- Run one call. -/
def Call.heapRun (E : HEnv) (c : Call) (h0 : HWorld) : Out × HWorld :=
  let h := { h0 with rest := { h0.rest with rand := c.rand, faults := c.faults } }
  match c.op with
  | .encrypt a pt => let (r, h') := hEncryptMessage E a pt h; (Out.of (.ciphertext a) r, h')
  | .decrypt a m => let (r, h') := hDecryptMessage E a m h; (Out.of (.plaintext a) r, h')
  | .bundle a b => let (r, h') := hProcessPreKeyBundle E a b h; (Out.of (fun _ => .done) r, h')
  | .addPreKey id k => (.done, { h with rest := { h.rest with preKeys := upd h.rest.preKeys id (some k) } })
  | .addSignedPreKey id k => (.done, { h with rest := { h.rest with signedPreKeys := upd h.rest.signedPreKeys id (some k) } })

/-- The application itself loads a session: the pointer it gets. -/
def appLoad (E : HEnv) (a : Address) (h : HWorld) : Option Nat × HWorld :=
  match hLoadSession E a { h with rest := { h.rest with faults := [] } } with
  | (.ok o, h') => (o, { h' with rest := h.rest })
  | (_, h') => (none, { h' with rest := h.rest })

/-- A call, or the application loads a session. -/
inductive HeapEvent where
  | call (c : Call)
  | load (a : Address)

/-- Run a history; the outputs of the calls are in order. -/
def heapRun (E : HEnv) : List HeapEvent → HWorld → List Out × HWorld
  | [], h => ([], h)
  | .call c :: evs, h =>
    let (o, h1) := c.heapRun E h
    let (os, h2) := heapRun E evs h1
    (o :: os, h2)
  | .load a :: evs, h => heapRun E evs (appLoad E a h).2

/-- The calls of a history. -/
def calls (evs : List HeapEvent) : List Call := evs.filterMap fun
  | .call c => some c
  | .load _ => none

/-- No call of the history is about this address. -/
def NotAbout (a : Address) (evs : List HeapEvent) : Prop := ∀ c ∈ calls evs, c.op.address ≠ some a

end Verif
