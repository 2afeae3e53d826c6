import Mathlib.Data.List.Forall2
import Verif.Model.KeyHeap

/-!
# Programs that use keys

A program holds byte slices and keys. It makes slices, writes to the slices it holds and calls the functions of the library. The same
program is run twice: over memory, with the slices and objects of Model/KeyHeap, and over plain values, where byte strings and keys
have no place in memory and a write changes one byte string only. A key or slice is named by its place in the list; a call with a name
that does not exist does nothing.
-/

namespace Verif

/-- What a program can do. -/
inductive KeyOp where
  /-- make an array with these bytes and hold the window `shown` of it -/
  | make (before shown after : Bytes)
  /-- write to a held slice, from this offset -/
  | write (slice offset : Nat) (bytes : Bytes)
  | newPublicKey (slice : Nat)
  | newPrivateKey (slice : Nat)
  | newKeyPair (privateSlice publicSlice : Nat)
  | generate (random : Bytes)
  | publicBytes (pub : Nat)
  | publicKeyBytes (pub : Nat)
  | privateBytes (priv : Nat)
  | publicKey (priv : Nat)
  | agreement (priv pub : Nat)
  | sign (priv : Nat) (random : Bytes) (slices : List Nat)
  | verify (pub signature : Nat) (slices : List Nat)
  | newPreKey (priv pub : Nat)
  | keyPair (preKey : Nat)

/-- What a call tells the program: nothing special, an error, a panic, or the answer of VerifySignature. -/
abbrev KeyOut := Res (Option Bool)

/-! ## Over memory -/

/-- What the program holds, and the memory. -/
structure KeyMem where
  heap : Heap := []
  slices : List Slice := []
  pubs : List PubRef := []
  privs : List PrivRef := []
  preKeys : List PreKeyRecRef := []

/-- A call: on success the program holds the result too. -/
def KeyMem.call {α} (s : KeyMem) (x : M Heap α) (keep : α → KeyMem → KeyMem) : KeyOut × KeyMem :=
  match x s.heap with
  | (.ok a, h) => (.ok none, keep a { s with heap := h })
  | (.err e, h) => (.err e, { s with heap := h })
  | (.panic, h) => (.panic, { s with heap := h })

def KeyMem.keepSlice (x : Slice) (s : KeyMem) : KeyMem := { s with slices := s.slices ++ [x] }
def KeyMem.keepPub (x : PubRef) (s : KeyMem) : KeyMem := { s with pubs := s.pubs ++ [x] }
def KeyMem.keepPriv (x : PrivRef) (s : KeyMem) : KeyMem := { s with privs := s.privs ++ [x] }
def KeyMem.keepPair (x : PrivRef × PubRef) (s : KeyMem) : KeyMem := { s with privs := s.privs ++ [x.1], pubs := s.pubs ++ [x.2] }
def KeyMem.keepPreKey (x : PreKeyRecRef) (s : KeyMem) : KeyMem := { s with preKeys := s.preKeys ++ [x] }

/-- One step over memory. -/
def KeyMem.step (C : Crypto) (s : KeyMem) : KeyOp → KeyOut × KeyMem
  | .make before shown after =>
    (.ok none, { s with heap := s.heap ++ [before ++ shown ++ after],
                        slices := s.slices ++ [⟨s.heap.length, before.length, shown.length, shown.length + after.length⟩] })
  | .write i offset bytes => match s.slices[i]? with
    | some x =>
      if offset + bytes.length ≤ x.len then
        (.ok none, { s with heap := s.heap.modify x.arr fun a => overwrite a (x.off + offset) bytes })
      else (.ok none, s)
    | none => (.ok none, s)
  | .newPublicKey i => match s.slices[i]? with
    | some x => s.call (pubFromSlice x) KeyMem.keepPub
    | none => (.ok none, s)
  | .newPrivateKey i => match s.slices[i]? with
    | some x => s.call (privFromSlice C x) KeyMem.keepPriv
    | none => (.ok none, s)
  | .newKeyPair i j => match s.slices[i]?, s.slices[j]? with
    | some x, some y => s.call (pairFromSlices C x y) KeyMem.keepPair
    | _, _ => (.ok none, s)
  | .generate random => s.call (generateRef C random) KeyMem.keepPriv
  | .publicBytes i => match s.pubs[i]? with
    | some p => s.call p.bytes KeyMem.keepSlice
    | none => (.ok none, s)
  | .publicKeyBytes i => match s.pubs[i]? with
    | some p => s.call p.keyBytes KeyMem.keepSlice
    | none => (.ok none, s)
  | .privateBytes i => match s.privs[i]? with
    | some p => s.call p.bytes KeyMem.keepSlice
    | none => (.ok none, s)
  | .publicKey i => match s.privs[i]? with
    | some p => s.call p.pub KeyMem.keepPub
    | none => (.ok none, s)
  | .agreement i j => match s.privs[i]?, s.pubs[j]? with
    | some p, some q => s.call (p.agreement C q) KeyMem.keepSlice
    | _, _ => (.ok none, s)
  | .sign i random l => match s.privs[i]? with
    | some p => s.call (p.sign C random (l.filterMap (s.slices[·]?))) KeyMem.keepSlice
    | none => (.ok none, s)
  | .verify i j l => match s.pubs[i]?, s.slices[j]? with
    | some p, some x => match p.verifySignature C x (l.filterMap (s.slices[·]?)) s.heap with
      | (.ok b, h) => (.ok (some b), { s with heap := h })
      | (.err e, h) => (.err e, { s with heap := h })
      | (.panic, h) => (.panic, { s with heap := h })
    | _, _ => (.ok none, s)
  | .newPreKey i j => match s.privs[i]?, s.pubs[j]? with
    | some p, some q => s.call (PreKeyRecRef.make p q) KeyMem.keepPreKey
    | _, _ => (.ok none, s)
  | .keyPair i => match s.preKeys[i]? with
    | some p => s.call (p.keyPair C) KeyMem.keepPair
    | none => (.ok none, s)

/-- A program over memory: what the calls told it, and what is there at the end. -/
def KeyMem.run (C : Crypto) (s : KeyMem) : List KeyOp → List KeyOut × KeyMem
  | [] => ([], s)
  | op :: ops =>
    let (out, s') := s.step C op
    let (outs, t) := s'.run C ops
    (out :: outs, t)

/-! ## Over values -/

/-- What the program holds, as values. -/
structure KeyVals where
  slices : List Bytes := []
  pubs : List PubKey := []
  privs : List PrivKey := []
  preKeys : List PreKeyRec := []
deriving DecidableEq

/-- A call: on success the program holds the result too. -/
def KeyVals.call {α} (s : KeyVals) (x : Res α) (keep : α → KeyVals → KeyVals) : KeyOut × KeyVals :=
  match x with
  | .ok a => (.ok none, keep a s)
  | .err e => (.err e, s)
  | .panic => (.panic, s)

def KeyVals.keepSlice (x : Bytes) (s : KeyVals) : KeyVals := { s with slices := s.slices ++ [x] }
def KeyVals.keepPub (x : PubKey) (s : KeyVals) : KeyVals := { s with pubs := s.pubs ++ [x] }
def KeyVals.keepPriv (x : PrivKey) (s : KeyVals) : KeyVals := { s with privs := s.privs ++ [x] }
def KeyVals.keepPair (x : KeyPair) (s : KeyVals) : KeyVals := { s with privs := s.privs ++ [x.priv], pubs := s.pubs ++ [x.pub] }
def KeyVals.keepPreKey (x : PreKeyRec) (s : KeyVals) : KeyVals := { s with preKeys := s.preKeys ++ [x] }

/-- One step over values. -/
def KeyVals.step (C : Crypto) (s : KeyVals) : KeyOp → KeyOut × KeyVals
  | .make _ shown _ => (.ok none, s.keepSlice shown)
  | .write i offset bytes => match s.slices[i]? with
    | some x => if offset + bytes.length ≤ x.length then (.ok none, { s with slices := s.slices.set i (overwrite x offset bytes) })
      else (.ok none, s)
    | none => (.ok none, s)
  | .newPublicKey i => match s.slices[i]? with
    | some x => s.call (Verif.newPublicKey x) KeyVals.keepPub
    | none => (.ok none, s)
  | .newPrivateKey i => match s.slices[i]? with
    | some x => s.call (Verif.newPrivateKey x) KeyVals.keepPriv
    | none => (.ok none, s)
  | .newKeyPair i j => match s.slices[i]?, s.slices[j]? with
    | some x, some y => s.call (Verif.newKeyPair x y) KeyVals.keepPair
    | _, _ => (.ok none, s)
  | .generate random => s.call (generatePrivateKey random).1 KeyVals.keepPriv
  | .publicBytes i => match s.pubs[i]? with
    | some p => s.call (.ok p.bytes) KeyVals.keepSlice
    | none => (.ok none, s)
  | .publicKeyBytes i => match s.pubs[i]? with
    | some p => s.call (.ok p.keyBytes) KeyVals.keepSlice
    | none => (.ok none, s)
  | .privateBytes i => match s.privs[i]? with
    | some p => s.call (.ok p.bytes) KeyVals.keepSlice
    | none => (.ok none, s)
  | .publicKey i => match s.privs[i]? with
    | some p => s.call (.ok (p.pub C)) KeyVals.keepPub
    | none => (.ok none, s)
  | .agreement i j => match s.privs[i]?, s.pubs[j]? with
    | some p, some q => s.call (p.agreement C q) KeyVals.keepSlice
    | _, _ => (.ok none, s)
  | .sign i random l => match s.privs[i]? with
    | some p => s.call (p.sign C (l.filterMap (s.slices[·]?)) random).1 KeyVals.keepSlice
    | none => (.ok none, s)
  | .verify i j l => match s.pubs[i]?, s.slices[j]? with
    | some p, some x => match p.verifySignature C x (l.filterMap (s.slices[·]?)) with
      | .ok b => (.ok (some b), s)
      | .err e => (.err e, s)
      | .panic => (.panic, s)
    | _, _ => (.ok none, s)
  | .newPreKey i j => match s.privs[i]?, s.pubs[j]? with
    | some p, some q => s.call (.ok (PreKeyRec.new ⟨p, q⟩)) KeyVals.keepPreKey
    | _, _ => (.ok none, s)
  | .keyPair i => match s.preKeys[i]? with
    | some p => s.call p.keyPair KeyVals.keepPair
    | none => (.ok none, s)

/-- A program over values. -/
def KeyVals.run (C : Crypto) (s : KeyVals) : List KeyOp → List KeyOut × KeyVals
  | [] => ([], s)
  | op :: ops =>
    let (out, s') := s.step C op
    let (outs, t) := s'.run C ops
    (out :: outs, t)

/-! ## The two runs look the same -/

/-- The key object shows this key: its bytes in memory are the key's. -/
def PubRef.Shows (h : Heap) (p : PubRef) (v : PubKey) : Prop := h.read p.key = v.key

/-- The key object shows this key: the private bytes, the public bytes, the scalar and the copy inside `crypto/ecdh`. -/
def PrivRef.Shows (C : Crypto) (h : Heap) (p : PrivRef) (v : PrivKey) : Prop :=
  h.read p.privateKey = v.key ∧ h.read p.publicKey = (v.pub C).key ∧ p.scalarKey = v.key ∧ clamp (h.read p.ecdhKey) = v.key

/-- The pre-key shows these bytes. -/
def PreKeyRecRef.Shows (h : Heap) (p : PreKeyRecRef) (v : PreKeyRec) : Prop :=
  h.read p.publicKey = v.publicKey ∧ h.read p.privateKey = v.privateKey

/-- Everything the program holds in memory shows the values. -/
structure KeyMem.Shows (C : Crypto) (s : KeyMem) (v : KeyVals) : Prop where
  slices : List.Forall₂ (fun x b => s.heap.read x = b) s.slices v.slices
  pubs : List.Forall₂ (PubRef.Shows s.heap) s.pubs v.pubs
  privs : List.Forall₂ (PrivRef.Shows C s.heap) s.privs v.privs
  preKeys : List.Forall₂ (PreKeyRecRef.Shows s.heap) s.preKeys v.preKeys

end Verif
