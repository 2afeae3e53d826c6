import Verif.Model.Group

/-!
# The group code on pointers and slices

`Model/Group` works on values: a record is a list of states, a state has a list of message keys. Here the same functions are written as the Go code
is: `*GroupRecord` and `*GroupState` are references into a heap, and the two lists are Go slices, that is windows into arrays that `append`,
`s[1:]` and `s[:0]` share and overwrite in place. C93 proves that both agree.

A `*GroupState` is one heap cell: its protobuf structure is only reached through it. The array of a slice is kept with the slice, because no array is
ever reached through two records or two states: the only second slice of an array is the local `filtered` of `RemoveStates`. A
`*SenderMessageKey` is never written after it has been made, so the value stands for the pointer. Byte slices are never written in place.
-/

namespace Verif

/-- A Go slice of pointers with its array: the elements at `off`, ..., `off + len - 1`; its capacity ends where the array ends. `none` is a nil
pointer. (for protocol/session/group_record.go:15.) -/
structure PtrSlice (α : Type) where
  array : List (Option α) := []
  off : Nat := 0
  len : Nat := 0
deriving DecidableEq

namespace PtrSlice
variable {α : Type}

/-- The elements, in the order of `for _, x := range s`. (protocol/session/group_record.go:33.) -/
def items (s : PtrSlice α) : List (Option α) := (s.array.drop s.off).take s.len

/-- The elements that are not nil. (no counterpart in /repo.) -/
def live (s : PtrSlice α) : List α := s.items.filterMap id

/-- `s[i] = nil`. (protocol/session/group_record.go:59.) -/
def setNil (s : PtrSlice α) (i : Nat) : Res (PtrSlice α) :=
  if i < s.len then .ok { s with array := s.array.set (s.off + i) none } else .panic

/-- `s[1:]`. (protocol/session/group_record.go:60.) -/
def tail (s : PtrSlice α) : Res (PtrSlice α) :=
  if 1 ≤ s.len then .ok { s with off := s.off + 1, len := s.len - 1 } else .panic

/-- `append(s, xs...)`: in place when the capacity suffices, otherwise in a new array; how much room for more the new array has is up to the
runtime (`grow`). The elements of `xs` have been read before the first write. (protocol/session/group_record.go:63 and 86.) -/
def append (grow : Nat → Nat) (s : PtrSlice α) (xs : List (Option α)) : PtrSlice α :=
  if s.off + s.len + xs.length ≤ s.array.length then
    { s with array := s.array.take (s.off + s.len) ++ xs ++ s.array.drop (s.off + s.len + xs.length), len := s.len + xs.length }
  else { array := s.items ++ xs ++ List.replicate (grow (s.len + xs.length)) none, off := 0, len := s.len + xs.length }

/-- `append(s[:i], s[i+1:]...)`. (protocol/session/group_record.go:86.) -/
def cut (grow : Nat → Nat) (s : PtrSlice α) (i : Nat) : Res (PtrSlice α) :=
  if i + 1 ≤ s.len then .ok (append grow { s with len := i } (s.items.drop (i + 1))) else .panic

/-- `make([]*T, 0, n)`. (protocol/session/group_record.go:20.) -/
def make (n : Nat) : PtrSlice α := { array := List.replicate n none, off := 0, len := 0 }

end PtrSlice

/-- protocol/session/group_state.go:10-12 — what a `*GroupState` points to; `keys` is the `SenderMessageKeys` of the protobuf structure. -/
structure GCell where
  messageVersion : UInt32 := 0
  chainId : UInt32 := 0
  chainKey : SKChainKey := ⟨[], 0⟩
  signingPublic : Bytes := []
  signingPrivate : Bytes := []
  keys : PtrSlice SKChainKey := {}

/-- The value of a state. (no counterpart in /repo.) -/
def GCell.value (c : GCell) : GState :=
  { messageVersion := c.messageVersion, chainId := c.chainId, chainKey := c.chainKey, signingPublic := c.signingPublic, signingPrivate := c.signingPrivate, messageKeys := c.keys.live }

/-- protocol/session/group_state.go:23-46 — `NewGroupState`: no message keys, a nil slice. -/
def newGCell (messageVersion : UInt8) (chainID iteration : UInt32) (chainKey : Bytes) (signatureKey : PubKey) (signaturePrivateKey : Option PrivKey) : GCell :=
  { messageVersion := messageVersion.toUInt32, chainId := chainID, chainKey := { seed := chainKey, iteration := iteration }, signingPublic := signatureKey.bytes,
    signingPrivate := match signaturePrivateKey with
      | some k => k.bytes
      | none => [] }

namespace GCell

/-- protocol/session/group_state.go:48-55 — `Version`. -/
def version (c : GCell) : UInt32 := if c.messageVersion = 0 then 3 else c.messageVersion

/-- protocol/session/group_state.go:66-71 — `SetSenderChainKey`. -/
def setSenderChainKey (c : GCell) (k : SKChainKey) : GCell := { c with chainKey := k }

/-- protocol/session/group_state.go:73-75 — `PrivateSigningKey`. -/
def privateSigningKey (c : GCell) : Res PrivKey := newPrivateKey c.signingPrivate

/-- protocol/session/group_state.go:77-79 — `PublicSigningKey`. -/
def publicSigningKey (c : GCell) : Res PubKey := newPublicKey c.signingPublic

/-- protocol/session/group_state.go:81-91 — `AddMessageKey`. -/
def addMessageKey (grow : Nat → Nat) (c : GCell) (k : SKMessageKey) : Res GCell := do
  let keys := c.keys.append grow [some { seed := k.seed, iteration := k.iteration }]
  if keys.len > maxMessageKeys then
    let keys ← keys.setNil 0
    let keys ← keys.tail
    return { c with keys := keys }
  else return { c with keys := keys }

/-- The generated getter `GetIteration`, which answers 0 for a nil pointer. (protocol/session/group_state.go:97.) -/
def iterationOf : Option SKChainKey → UInt32
  | none => 0
  | some k => k.iteration

/-- The generated getter `GetSeed`, which answers nil for a nil pointer. (protocol/session/group_state.go:108.) -/
def seedOf : Option SKChainKey → Bytes
  | none => []
  | some k => k.seed

/-- protocol/session/group_state.go:93-117 — `RemoveMessageKeys`; `none` is `ok == false`. The derivation cannot fail. -/
def removeMessageKeys (C : Crypto) (grow : Nat → Nat) (c : GCell) (iteration : UInt32) : Res (Option (SKMessageKey × GCell)) :=
  match c.keys.items.findIdx? fun k => iterationOf k = iteration with
  | none => .ok none
  | some idx => do
    let key := c.keys.items[idx]?.join
    let derived := deriveSKMessageKey C (seedOf key) (iterationOf key)
    let keys ← c.keys.setNil idx
    let keys ← keys.cut grow idx
    return some (derived, { c with keys := keys })

/-- The loop of protocol/session/group_cipher.go:148-155; `fuel` as in `skipLoop`. -/
def skipLoop (C : Crypto) (grow : Nat → Nat) (iteration : UInt32) : Nat → SKChainKey → GCell → Res (SKChainKey × GCell)
  | 0, ck, c => .ok (ck, c)
  | fuel + 1, ck, c =>
    if ck.iteration < iteration then do
      let c ← c.addMessageKey grow (ck.messageKey C)
      skipLoop C grow iteration fuel (ck.next C) c
    else .ok (ck, c)

/-- protocol/session/group_cipher.go:125-165 — `messageKey`. The changes of the one state are written back together: nobody looks at the state
while the function runs, and it fails only before it changes anything. -/
def messageKey (C : Crypto) (grow : Nat → Nat) (c : GCell) (iteration : UInt32) : Res (SKMessageKey × GCell) :=
  if c.chainKey.iteration > iteration then do
    match ← c.removeMessageKeys C grow iteration with
    | none => .err .duplicateMessage
    | some out => .ok out
  else if iteration - c.chainKey.iteration > maxJumps then .err .tooFarInFuture
  else do
    let (ck, c) ← skipLoop C grow iteration (iteration.toNat - c.chainKey.iteration.toNat) c.chainKey c
    return (ck.messageKey C, c.setSenderChainKey (ck.next C))

end GCell

/-- The memory of a process and its group store. (protocol/session/group_session.go:19-29, protocol/session/store_inmem.go:34-47.) -/
structure GHWorld where
  /-- the store: a map to `*GroupRecord` -/
  store : Address × DistId → Option Nat
  /-- protocol/session/group_record.go:14-16 — `GroupRecord`, a slice of `*GroupState` -/
  records : Nat → PtrSlice Nat
  states : Nat → GCell
  /-- cells from here on are not in use -/
  nextRecord : Nat
  nextState : Nat
  rand : Bytes
  sysRand : Bytes
  faults : List Fault

/-- The primitives and the store. `aliased`: `Load` returns the stored pointer (protocol/session/store_inmem.go:49-55), otherwise a copy. `copies`: `Store` keeps a copy,
otherwise the pointer (protocol/session/store_inmem.go:57-63). `grow`: see `PtrSlice.append`. -/
structure GHEnv where
  C : Crypto
  aliased : Bool
  copies : Bool
  grow : Nat → Nat

/-- What a `*GroupRecord` points to. (no counterpart in /repo.) -/
def GHWorld.view (h : GHWorld) (r : Nat) : GRecord := (h.records r).live.map fun p => (h.states p).value

/-- The store, with pointers followed. (no counterpart in /repo.) -/
def GHWorld.values (h : GHWorld) : GWorld :=
  { records := fun k => (h.store k).map h.view, rand := h.rand, sysRand := h.sysRand, faults := h.faults }

/-- `&GroupState{...}` (protocol/session/group_state.go:32-45). -/
def gAllocState (c : GCell) : M GHWorld Nat := fun h =>
  (.ok h.nextState, { h with states := upd h.states h.nextState c, nextState := h.nextState + 1 })

/-- `&GroupRecord{...}` (protocol/session/group_record.go:19-21). -/
def gAllocRecord (s : PtrSlice Nat) : M GHWorld Nat := fun h =>
  (.ok h.nextRecord, { h with records := upd h.records h.nextRecord s, nextRecord := h.nextRecord + 1 })

/-- protocol/session/group_record.go:18-22 — `NewGroupRecord`. -/
def gNewRecord : M GHWorld Nat := gAllocRecord (.make maxSenderKeyStates)

/-- A read of the fields of a `*GroupState` (protocol/session/group_state.go:10-12). -/
def gReadState (p : Nat) : M GHWorld GCell := fun h => (.ok (h.states p), h)

/-- A write to the fields of a `*GroupState` (protocol/session/group_state.go:10-12). -/
def gWriteState (p : Nat) (c : GCell) : M GHWorld Unit := fun h => (.ok (), { h with states := upd h.states p c })

/-- A read of the slice of a `*GroupRecord` (protocol/session/group_record.go:14-16). -/
def gReadRecord (r : Nat) : M GHWorld (PtrSlice Nat) := fun h => (.ok (h.records r), h)

/-- A write to the slice of a `*GroupRecord` (protocol/session/group_record.go:14-16). -/
def gWriteRecord (r : Nat) (s : PtrSlice Nat) : M GHWorld Unit := fun h => (.ok (), { h with records := upd h.records r s })

/-- The copies of the states a copy of a record refers to. (no counterpart in /repo.) -/
def gCopyStates : List Nat → M GHWorld (List Nat)
  | [] => pure []
  | p :: ps => do
    let c ← gReadState p
    let q ← gAllocState { c with keys := { array := c.keys.live.map some, off := 0, len := c.keys.live.length } }
    let qs ← gCopyStates ps
    return q :: qs

/-- What a store that keeps copies does with a record, e.g. by serialising it. (no counterpart in /repo: protocol/session/store.go:16-19 leaves it to
the user.) -/
def gCopyRecord (r : Nat) : M GHWorld Nat := do
  let s ← gReadRecord r
  let qs ← gCopyStates s.live
  gAllocRecord { array := qs.map some, off := 0, len := qs.length }

/-- One call on the store. (protocol/session/store.go:16-19.) -/
def hgStoreCall {α} (act : M GHWorld α) : M GHWorld α := fun h =>
  match h.faults with
  | [] => act h
  | .none :: fs => act { h with faults := fs }
  | .before :: fs => (.err .store, { h with faults := fs })
  | .after :: fs => (.err .store, (act { h with faults := fs }).2)

/-- `GroupStore.Load` (protocol/session/store_inmem.go:49-55). -/
def hgLoad (E : GHEnv) (k : Address × DistId) : M GHWorld (Option Nat) := hgStoreCall do
  let h ← M.get
  match h.store k with
  | none => return none
  | some r =>
    if E.aliased then return some r
    else
      let r' ← gCopyRecord r
      return some r'

/-- `GroupStore.Store` (protocol/session/store_inmem.go:57-63). -/
def hgStore (E : GHEnv) (k : Address × DistId) (r : Nat) : M GHWorld Unit := hgStoreCall do
  let p ← if E.copies then gCopyRecord r else pure r
  M.modify fun h => { h with store := upd h.store k (some p) }

/-- the `random` argument at protocol/session/group_cipher.go:19 and protocol/session/group_session.go:61. -/
def hgWithRand {α} (x : M Bytes α) : M GHWorld α := fun h =>
  let (r, rand') := x h.rand
  (r, { h with rand := rand' })

/-- protocol/session/group_session.go:128-136 — `crypto/rand.Reader`. -/
def hgWithSysRand {α} (x : M Bytes α) : M GHWorld α := fun h =>
  let (r, rand') := x h.sysRand
  (r, { h with sysRand := rand' })

/-- A loop `for i, state := range g.states` that looks for the first state with `test`. The methods of a nil `*GroupState` panic.
(protocol/session/group_record.go:33-37 and 70-79.) -/
def gSearch (test : GCell → Bool) : Nat → List (Option Nat) → M GHWorld (Option (Nat × Nat))
  | _, [] => pure none
  | _, none :: _ => M.panic
  | i, some p :: rest => do
    let c ← gReadState p
    if test c then return some (i, p) else gSearch test (i + 1) rest

/-- protocol/session/group_record.go:24-30 — `State`. -/
def hgState (r : Nat) : M GHWorld (Option Nat) := do
  let s ← gReadRecord r
  match s.items with
  | [] => M.throw .emptySenderKeyState
  | p :: _ => return p

/-- protocol/session/group_record.go:32-40 — `StateForChainID`. -/
def hgStateForChainID (r : Nat) (chainID : UInt32) : M GHWorld (Option Nat) := do
  let s ← gReadRecord r
  let found ← gSearch (fun c => chainID == c.chainId) 0 s.items
  return found.map (·.2)

/-- The test of protocol/session/group_record.go:71-75. -/
def gIsState (chainID : UInt32) (signatureKey : PubKey) (c : GCell) : Bool :=
  match c.publicSigningKey with
  | .ok k => c.chainId == chainID && signatureKey.equal k
  | _ => false

/-- protocol/session/group_record.go:68-89 — `RemoveState`. -/
def hgRemoveState (grow : Nat → Nat) (r : Nat) (chainID : UInt32) (signatureKey : PubKey) : M GHWorld (Option Nat) := do
  let s ← gReadRecord r
  match ← gSearch (gIsState chainID signatureKey) 0 s.items with
  | none => return none
  | some (idx, p) =>
    let s' ← M.lift (s.cut grow idx)
    gWriteRecord r s'
    return some p

/-- The loop of protocol/session/group_record.go:94-100: `i` is the next index to read, `n` the number of elements still to read. Reads and the writes of
`append` go to the same array; `append` has room, because no more than `i` elements have been written. -/
def gFilterLoop (grow : Nat → Nat) (chainID : UInt32) : Nat → Nat → PtrSlice Nat → M GHWorld (PtrSlice Nat)
  | 0, _, filtered => pure filtered
  | n + 1, i, filtered =>
    match filtered.array[filtered.off + i]?.join with
    | none => M.panic
    | some p => do
      let c ← gReadState p
      if c.chainId = chainID then gFilterLoop grow chainID n (i + 1) filtered
      else gFilterLoop grow chainID n (i + 1) (filtered.append grow [some p])

/-- protocol/session/group_record.go:91-105 — `RemoveStates` (the count is only logged). -/
def hgRemoveStates (grow : Nat → Nat) (r : Nat) (chainID : UInt32) : M GHWorld Unit := do
  let s ← gReadRecord r
  let filtered ← gFilterLoop grow chainID s.len 0 { s with len := 0 }
  gWriteRecord r filtered

/-- protocol/session/group_record.go:42-66 — `AddState`. -/
def hgAddState (grow : Nat → Nat) (r p : Nat) : M GHWorld Unit := do
  let c ← gReadState p
  let signingKey ← M.lift c.publicSigningKey
  let existing ← hgRemoveState grow r c.chainId signingKey
  hgRemoveStates grow r c.chainId
  let q := existing.getD p
  let s ← gReadRecord r
  let s ← M.lift (if s.len ≥ maxSenderKeyStates then s.setNil 0 >>= PtrSlice.tail else .ok s)
  gWriteRecord r (s.append grow [some q])

/-- The fields of the state behind a pointer that may be nil. (protocol/session/group_state.go:48-79.) -/
def gDeref : Option Nat → M GHWorld (Nat × GCell)
  | none => M.panic
  | some p => do
    let c ← gReadState p
    return (p, c)

/-- protocol/session/group_cipher.go:19-69 — `GroupSession.EncryptMessage`. -/
def hgEncrypt (E : GHEnv) (sender : Address) (dist : DistId) (plaintext : Bytes) : M GHWorld SenderKeyMsg := do
  match ← hgLoad E (sender, dist) with
  | none => M.throw .noSenderKeyState
  | some r =>
    let (p, state) ← hgState r >>= gDeref
    let messageKey := state.chainKey.messageKey E.C
    let ciphertext ← M.lift (cbcEncrypt E.C messageKey.cipherKey messageKey.iv plaintext)
    let signingKey ← M.lift state.privateSigningKey
    let msg ← hgWithRand (newSenderKey E.C state.version.toUInt8 dist state.chainId messageKey.iteration ciphertext signingKey)
    gWriteState p (state.setSenderChainKey (state.chainKey.next E.C))
    hgStore E (sender, dist) r
    return msg

/-- protocol/session/group_cipher.go:72-123 — `GroupSession.DecryptMessage`. -/
def hgDecrypt (E : GHEnv) (sender : Address) (msg : SenderKeyMsg) : M GHWorld Bytes := do
  match ← hgLoad E (sender, msg.distID) with
  | none => M.throw .noSenderKeyState
  | some r =>
    match ← hgStateForChainID r msg.chainID with
    | none => M.throw .noSenderKeyState
    | some p =>
      let state ← gReadState p
      if msg.version.toUInt32 ≠ state.version then M.throw .unsupportedVersion
      else
        let signingKey ← M.lift state.publicSigningKey
        let valid ← M.lift (msg.verifySignature E.C signingKey)
        if valid then
          let (messageKey, state') ← M.lift (state.messageKey E.C E.grow msg.iteration)
          gWriteState p state'
          let plaintext ← M.lift (cbcDecrypt E.C messageKey.cipherKey messageKey.iv msg.ciphertext)
          hgStore E (sender, msg.distID) r
          return plaintext
        else M.throw .badSignature

/-- protocol/session/group_session.go:33-58 — `ProcessSenderKeyDistribution`. -/
def hgProcessDistribution (E : GHEnv) (sender : Address) (msg : DistributionMsg) : M GHWorld Unit := do
  let stored ← hgLoad E (sender, msg.distID)
  let r ← match stored with
    | some r => pure r
    | none => gNewRecord
  let p ← gAllocState (newGCell msg.version msg.chainID msg.iteration msg.chainKey msg.signingKey none)
  hgAddState E.grow r p
  hgStore E (sender, msg.distID) r

/-- protocol/session/group_session.go:66-104 — creation of a sender key. -/
def hgCreateSenderKey (E : GHEnv) (sender : Address) (dist : DistId) : M GHWorld Nat := do
  let chainID ← hgWithSysRand randomUint32
  let chainID := chainID >>> 1
  let senderKey ← hgWithRand (readFull 32)
  let signingKey ← hgWithRand (generateKeyPair E.C)
  let r ← gNewRecord
  let p ← gAllocState (newGCell 3 chainID 0 senderKey signingKey.pub (some signingKey.priv))
  hgAddState E.grow r p
  hgStore E (sender, dist) r
  return r

/-- protocol/session/group_session.go:61-126 — `NewSenderKeyDistribution`. -/
def hgNewSenderKeyDistribution (E : GHEnv) (sender : Address) (dist : DistId) : M GHWorld DistributionMsg := do
  let stored ← hgLoad E (sender, dist)
  let r ← match stored with
    | some r => pure r
    | none => hgCreateSenderKey E sender dist
  let (_, state) ← hgState r >>= gDeref
  let signingKey ← M.lift state.publicSigningKey
  return newDistribution state.version.toUInt8 dist state.chainId state.chainKey.iteration state.chainKey.seed signingKey

end Verif
