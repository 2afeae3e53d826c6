import Verif.Model.SessionHeap
import Verif.Spec.Heap
import Verif.Spec.GroupHeap

/-!
# Vocabulary for C99 to C102: session histories in which objects and arrays are shared
-/

namespace Verif

/-- A process that has just started with these stores, and no session. `grow` is how much room for more the runtime gives new arrays. -/
def ZWorld.start (grow : Nat → Nat) (w : World) : ZWorld :=
  { rest := w, store := fun _ => none, records := fun _ => {}, states := fun _ => {}, nextRecord := 0, nextState := 0, grow := grow }

/-- Run one call. -/
def Call.sliceRun (E : HEnv) (c : Call) (h0 : ZWorld) : Out × ZWorld :=
  let h := { h0 with rest := { h0.rest with rand := c.rand, faults := c.faults } }
  match c.op with
  | .encrypt a pt => let (r, h') := zEncryptMessage E a pt h; (Out.of (.ciphertext a) r, h')
  | .decrypt a m => let (r, h') := zDecryptMessage E a m h; (Out.of (.plaintext a) r, h')
  | .bundle a b => let (r, h') := zProcessPreKeyBundle E a b h; (Out.of (fun _ => .done) r, h')
  | .addPreKey id k => (.done, { h with rest := { h.rest with preKeys := upd h.rest.preKeys id (some k) } })
  | .addSignedPreKey id k => (.done, { h with rest := { h.rest with signedPreKeys := upd h.rest.signedPreKeys id (some k) } })

/-- Run a history; the outputs of the calls are in order. -/
def sliceRun (E : HEnv) : List Call → ZWorld → List Out × ZWorld
  | [], h => ([], h)
  | c :: cs, h =>
    let (o, h1) := c.sliceRun E h
    let (os, h2) := sliceRun E cs h1
    (o :: os, h2)

/-- What the array of a slice still points to, outside of the slice. This memory cannot be reused. -/
def PtrSlice.hidden {α : Type} (s : PtrSlice α) : List α := (s.array.take s.off ++ s.array.drop (s.off + s.len)).filterMap id

/-- The message keys that the receiving chains of a state still point to, although they are no longer in any chain. -/
def SCell.hiddenKeys (c : SCell) : List PBMessageKey := c.chains.live.flatMap fun d => d.keys.hidden

/-- The session has kept a key for this message: the message was skipped earlier. -/
def SState.KeepsKeyFor (s : SState) (m : Signal) : Prop :=
  ∃ c ∈ s.receiverChains, c.senderRatchetKey = m.senderRatchetKey.bytes ∧ ∃ k ∈ c.messageKeys, k.index = m.counter

/-- The current session or an archived one has kept a key for this message. -/
def Record.KeepsKeyFor (r : Record) (m : Signal) : Prop :=
  (∃ s, r.current = some s ∧ s.KeepsKeyFor m) ∨ ∃ b ∈ r.previous, ∃ s, SState.unmarshal b = .ok s ∧ s.KeepsKeyFor m

/-- The store keeps serialised records: what `Load` returns and what `Store` is given are copies of what is stored. -/
def HEnv.Serialises (E : HEnv) : Prop := E.aliased = false ∧ E.copies = true

end Verif
