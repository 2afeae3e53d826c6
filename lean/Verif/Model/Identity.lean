import Verif.Model.Keys

/-!
# The in-memory identity store (`protocol/identity/store_inmem.go`)

An `identity.Key` is a struct holding a `curve.PublicKey` interface, whose value is a `*DJBPublicKey` pointer. Go's
`==` on two `identity.Key`s therefore compares pointers, `Key.Equal` compares contents. To keep that difference a
key object is a pointer here, and `mem` gives the (immutable) key it points to.
-/

namespace Verif

/-- A `*DJBPublicKey`. (protocol/curve/djb_public.go, held by `identity.Key` (protocol/identity/keys.go:19-22).) -/
abbrev Ptr := Nat

/-- protocol/identity/store_inmem.go:13-17 — the mutable part of `inMemStore`. -/
structure IdStore where
  knownKeys : Address → Option Ptr

/-- protocol/identity/store_inmem.go:20-26 — `NewInMemStore`. -/
def IdStore.new : IdStore := ⟨fun _ => none⟩

/-- protocol/identity/store_inmem.go:36-39 — `Load`. -/
def IdStore.load (s : IdStore) (a : Address) : Option Ptr := s.knownKeys a

/-- protocol/identity/store_inmem.go:41-46 — `Store`; `identity != knownIdentity` compares pointers. -/
def IdStore.store (s : IdStore) (a : Address) (k : Ptr) : Bool × IdStore :=
  let replaced := match s.knownKeys a with
    | none => false
    | some known => k ≠ known
  (replaced, ⟨fun b => if b = a then some k else s.knownKeys b⟩)

/-- protocol/identity/store_inmem.go:48-59 — `Clear`. The goroutine only empties the map that was just dropped,
which nothing can reach any more, so it is left out; `IdHeap` of `Model.Races` has it, and C111 proves that it does not show. -/
def IdStore.clear (_ : IdStore) : IdStore := ⟨fun _ => none⟩

/-- protocol/identity/keys.go:58-61 — `Key.Equal`: equality of contents. -/
def keyEqual (mem : Ptr → PubKey) (k l : Ptr) : Bool := (mem k).equal (mem l)

/-- protocol/identity/store_inmem.go:61-68 — `IsTrustedIdentity`; the direction is ignored. -/
def IdStore.isTrusted (mem : Ptr → PubKey) (s : IdStore) (a : Address) (k : Ptr) (_ : Direction) : Bool :=
  match s.knownKeys a with
  | none => true
  | some known => keyEqual mem k known

/-- A mutating call on the store. (protocol/identity/store_inmem.go:41-59.) -/
inductive IdOp where
  | store (a : Address) (k : Ptr)
  | clear

/-- The store after one call. (protocol/identity/store_inmem.go:41-59.) -/
def IdStore.step (s : IdStore) : IdOp → IdStore
  | .store a k => (s.store a k).2
  | .clear => s.clear

/-- The store after a sequence of calls on a new store. (protocol/identity/store_inmem.go:20-59.) -/
def IdStore.run (ops : List IdOp) : IdStore := ops.foldl IdStore.step IdStore.new

end Verif
