import Verif.Model.StateUse
import Verif.Spec.StateBytes

/-!
# Programs that look at a session, write to bytes they hold, send and receive

`Spec/StateBytes.lean`, with sending and receiving between the looks. Over values, a slice that one of the four `shared` accessors
returned stands for the key in the session only until the library puts another key in its place: after a message was sent, slices
of the sending chain key are bytes of the program's own; after a message was received, all of them are.
-/

namespace Verif

/-- What a program can do. -/
inductive UseOp where
  | look (op : StateOp)
  /-- send a message -/
  | send (plaintext : Bytes)
  /-- receive a message in this session, with these random bytes -/
  | receive (message : Signal) (random : Bytes)

/-- Slices of this accessor stay the stored key when a message is sent. -/
def SharedField.staysOnSend : SharedField → Bool
  | .senderChainKey => false
  | _ => true

/-! ## Over memory -/

structure UseMem where
  heap : Heap
  state : StateOf Slice
  own : List Slice := []
  /-- slices of the `shared` accessors, with the accessor they came from -/
  shared : List (SharedField × Slice) := []

/-- The program of `Spec/StateBytes.lean` at this point. -/
def UseMem.looking (m : UseMem) : StateMem := { heap := m.heap, state := m.state, own := m.own, shared := m.shared.map (·.2) }

/-- The program has parsed a stored session, and holds slices from before. -/
def UseMem.start (s : SState) (heap : Heap) (own : List Slice) : UseMem :=
  { heap := (newStateBytes s heap).2, state := (newStateBytes s heap).1, own := own }

/-- One operation. The bytes of a message that was sent, and the plaintext of one that was received, are in a new array that the program holds. -/
def UseMem.step (C : Crypto) (m : UseMem) : UseOp → Res (List Bytes) × UseMem
  | .look op =>
    let (r, n) := m.looking.step C op
    (r, { heap := n.heap, state := n.state, own := n.own, shared := match op with
      | .shared f => m.shared ++ (n.shared.drop m.shared.length).map fun x => (f, x)
      | _ => m.shared })
  | .send plaintext => match encryptStateRef C m.state plaintext m.heap with
    | (.ok (c, s), h) =>
      let (x, h) := newBytes c.bytes h
      (.ok [c.bytes], { heap := h, state := s, own := m.own ++ (m.shared.filter fun p => !p.1.staysOnSend).map (·.2) ++ [x],
                        shared := m.shared.filter fun p => p.1.staysOnSend })
    | (.err e, h) => (.err e, { m with heap := h })
    | (.panic, h) => (.panic, { m with heap := h })
  | .receive message random => match decryptStateRef C m.state message ⟨m.heap, random⟩ with
    | (.ok (p, s), n) =>
      let (x, h) := newBytes p n.heap
      (.ok [p], { heap := h, state := s, own := m.own ++ m.shared.map (·.2) ++ [x] })
    | (.err e, n) => (.err e, { m with heap := n.heap })
    | (.panic, n) => (.panic, { m with heap := n.heap })

def UseMem.run (C : Crypto) (m : UseMem) : List UseOp → List (Res (List Bytes)) × UseMem
  | [] => ([], m)
  | op :: ops => ((m.step C op).1 :: ((m.step C op).2.run C ops).1, ((m.step C op).2.run C ops).2)

/-- The session that the library would go on with. -/
def UseMem.seen (m : UseMem) : SState := m.state.seen m.heap

/-! ## Over values -/

def StateVals.use (C : Crypto) (v : StateVals) : UseOp → Res (List Bytes) × StateVals
  | .look op => v.step op
  | .send plaintext => match encryptState C v.state plaintext with
    | .ok (c, s, _) => (.ok [c.bytes], { state := s, shared := v.shared.filter fun f => f.staysOnSend })
    | .err e => (.err e, v)
    | .panic => (.panic, v)
  | .receive message random => match (decryptMessageSession C v.state message random).1 with
    | .ok (p, s) => (.ok [p], { state := s })
    | .err e => (.err e, v)
    | .panic => (.panic, v)

def StateVals.uses (C : Crypto) (v : StateVals) : List UseOp → List (Res (List Bytes)) × StateVals
  | [] => ([], v)
  | op :: ops => ((v.use C op).1 :: ((v.use C op).2.uses C ops).1, ((v.use C op).2.uses C ops).2)

end Verif
