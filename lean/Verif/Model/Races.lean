import Verif.Model.Threads
import Verif.Model.Identity

/-!
# What the in-memory stores do to their Go maps

The in-memory stores are plain Go maps without a lock. Here is which map each store call reads or writes, and the identity store
once more, this time with `Clear`'s goroutine.
-/

namespace Verif

/-- The Go maps of the in-memory stores. (protocol/session/store_inmem.go:13-15, 39-41, protocol/prekey/store_inmem.go:8-10, 38-40,
protocol/identity/store_inmem.go:13-17.) -/
inductive GoMap where
  | sessions
  | knownKeys
  | preKeys
  | signedPreKeys
  | senderKeys
deriving DecidableEq

/-- One access to a map: an index expression reads it, an assignment to an element or `delete` writes it.
(e.g. protocol/session/store_inmem.go:25, 30.) -/
structure MapAccess where
  map : GoMap
  write : Bool
deriving DecidableEq

/-- The accesses of a store call, in order. `KeyPair` and `LocalRegistrationID` read fields that nothing writes.
(protocol/session/store_inmem.go:24-32, protocol/prekey/store_inmem.go:19-56, protocol/identity/store_inmem.go:28-46, 61-68.) -/
def StoreOp.accesses : {β : Type} → StoreOp β → List MapAccess
  | _, .loadSession _ => [⟨.sessions, false⟩]
  | _, .storeSession _ _ => [⟨.sessions, true⟩]
  | _, .loadPreKey _ => [⟨.preKeys, false⟩]
  | _, .storePreKey _ _ => [⟨.preKeys, true⟩]
  | _, .deletePreKey _ => [⟨.preKeys, true⟩]
  | _, .loadSignedPreKey _ => [⟨.signedPreKeys, false⟩]
  | _, .storeSignedPreKey _ _ => [⟨.signedPreKeys, true⟩]
  | _, .isTrusted _ _ _ => [⟨.knownKeys, false⟩]
  | _, .storeIdentity _ _ => [⟨.knownKeys, false⟩, ⟨.knownKeys, true⟩]
  | _, .keyPair => []
  | _, .registrationID => []

/-- The accesses of a group store call. (protocol/session/store_inmem.go:49-63.) -/
def GStoreOp.accesses : {β : Type} → GStoreOp β → List MapAccess
  | _, .load _ => [⟨.senderKeys, false⟩]
  | _, .store _ _ => [⟨.senderKeys, true⟩]

/-- The accesses of the next step of a thread. (the store calls of protocol/session/cipher.go, session.go, group_cipher.go and
group_session.go.) -/
def Prog.nextAccesses {Op : Type → Type} {L α : Type} (acc : ∀ {β}, Op β → List MapAccess) : Prog Op L α → List MapAccess
  | .call _ op _ => acc op
  | _ => []

/-- Every access, with the thread that makes it, of threads that run under a schedule; `act` is what the store calls answer.
(goroutines that share the stores of protocol/protocol/store.go:9-15.) -/
def accessLog {Op : Type → Type} {L α S : Type} (act : ∀ {β}, Op β → S → β × S) (acc : ∀ {β}, Op β → List MapAccess) :
    List Nat → (Nat → Thread Op L α) → S → List (Nat × MapAccess)
  | [], _, _ => []
  | i :: is, ts, w =>
    ((ts i).prog.nextAccesses acc).map (fun a => (i, a)) ++
      accessLog act acc is (upd ts i ((ts i).step act w).1) ((ts i).step act w).2

/-! ## `Clear` -/

/-- The in-memory identity store with its maps: `field` is the map that the field `knownKeys` refers to, and for each map in `emptying` there
is a goroutine that deletes its entries. (protocol/identity/store_inmem.go:13-17, 48-57.) -/
structure IdHeap where
  maps : Nat → Address → Option Ptr
  next : Nat
  field : Nat
  emptying : List Nat

/-- protocol/identity/store_inmem.go:20-26 — `NewInMemStore`. -/
def IdHeap.new : IdHeap := ⟨fun _ _ => none, 1, 0, []⟩

/-- What the store holds. (protocol/identity/store_inmem.go:16.) -/
def IdHeap.knownKeys (h : IdHeap) : Address → Option Ptr := h.maps h.field

/-- A call, or one `delete` of a goroutine that `Clear` started. (protocol/identity/store_inmem.go:41-57.) -/
inductive IdEvent where
  | call (op : IdOp)
  | deletes (g : Nat) (a : Address)

/-- protocol/identity/store_inmem.go:41-57 — `Store` and `Clear`, where `make` gives a new map and `tmp` goes to a goroutine that deletes
its entries in any order, at any time. -/
def IdHeap.step (h : IdHeap) : IdEvent → IdHeap
  | .call (.store a k) => { h with maps := upd h.maps h.field (upd (h.maps h.field) a (some k)) }
  | .call .clear =>
    { maps := upd h.maps h.next fun _ => none, next := h.next + 1, field := h.next, emptying := h.field :: h.emptying }
  | .deletes g a => if g ∈ h.emptying then { h with maps := upd h.maps g (upd (h.maps g) a none) } else h

/-- The store after these events. (protocol/identity/store_inmem.go:20-57.) -/
def IdHeap.run (es : List IdEvent) : IdHeap := es.foldl IdHeap.step IdHeap.new

end Verif
