import Verif.Model.Buffer
import Verif.Model.World

/-!
# Keys and the memory they live in

`Model/Keys.lean` treats keys as values. Here a key holds slices, as in the code: which bytes a key object owns, which calls copy, and
which arrays they hand out. It exists for the question whether a caller can change a key, or a key call the caller's bytes.
-/

namespace Verif

/-- `s[n:]`. (for protocol/curve/public.go:41.) -/
def Slice.from (s : Slice) (n : Nat) : Slice := ⟨s.arr, s.off + n, s.len - n, s.cap - n⟩

/-- `b := make([]byte, n); copy(b, s)`. (protocol/curve/public.go:40-41, djb_public.go:40-41, curve25519/curve25519.go:75-76, 94-95, 101-102.) -/
def makeCopy (n : Nat) (s : Slice) : M Heap Slice := fun h =>
  allocBytes ((h.read s).take n ++ List.replicate (n - (h.read s).length) 0) h

/-- Writing every byte of a slice. (for protocol/curve/curve25519/curve25519.go:79-81.) -/
def writeBytes (s : Slice) (bs : Bytes) : M Heap Unit := fun h => (.ok (), h.modify s.arr fun a => overwrite a s.off bs)

/-- protocol/curve/djb_public.go:12-15 — `DJBPublicKey` with its slice. -/
structure PubRef where
  key : Slice
deriving DecidableEq

/-- protocol/curve/curve25519/curve25519.go:33-39 — `PrivateKey` with its slices. `scalarKey` is an array inside the scalar, not a slice:
`SetBytesWithClamping` copies its argument. `crypto/ecdh` keeps its own copy of the bytes given to `NewPrivateKey`. -/
structure PrivRef where
  privateKey : Slice
  publicKey : Slice
  scalarKey : Bytes
  ecdhKey : Slice
deriving DecidableEq

/-- protocol/prekey/prekey.go:19-21, protocol/prekey/signed.go:9-11 — a (signed) pre-key with its slices. -/
structure PreKeyRecRef where
  publicKey : Slice
  privateKey : Slice
deriving DecidableEq

/-- protocol/curve/djb_public.go:18-26 — `newDJBPublicKey` keeps the slice it is given. -/
def djbFromSlice (key : Slice) : M Heap PubRef :=
  if key.len ≠ 32 then M.throw (.invalidKeyLength 32 key.len) else M.pure ⟨key⟩

/-- protocol/curve/public.go:34-49 — `NewPublicKey` on a slice. -/
def pubFromSlice (key : Slice) : M Heap PubRef := do
  if key.len < 1 + 32 then M.throw (.invalidKeyLength (1 + 32) key.len)
  else do
    let h ← M.get
    let publicKey ← makeCopy 32 (key.from 1)
    if (h.read key).head? = some 5 then djbFromSlice publicKey else M.throw .unsupportedKeyType

/-- protocol/curve/djb_public.go:32-37 — `Bytes`: a new array. -/
def PubRef.bytes (p : PubRef) : M Heap Slice := fun h => allocBytes (5 :: h.read p.key) h

/-- protocol/curve/djb_public.go:39-43 — `KeyBytes`: a new array. -/
def PubRef.keyBytes (p : PubRef) : M Heap Slice := makeCopy 32 p.key

/-- protocol/curve/private.go:26-32, protocol/curve/djb_private.go:32-41, protocol/curve/curve25519/curve25519.go:60-90 — `NewPrivateKey` on
a slice: the clamping is done on a copy. -/
def privFromSlice (C : Crypto) (key : Slice) : M Heap PrivRef := do
  if key.len ≠ 32 then M.throw (.invalidKeyLength 32 key.len)
  else do
    let h ← M.get
    let scalarKey := clamp (h.read key)
    let ecdhKey ← allocBytes (h.read key)
    let privateKey ← makeCopy 32 key
    let h ← M.get
    writeBytes privateKey (clamp (h.read privateKey))
    let publicKey ← allocBytes (C.pub scalarKey)
    return { privateKey := privateKey, publicKey := publicKey, scalarKey := scalarKey, ecdhKey := ecdhKey }

/-- protocol/curve/djb_private.go:43-45, protocol/curve/curve25519/curve25519.go:93-97 — `Bytes`: a new array. -/
def PrivRef.bytes (p : PrivRef) : M Heap Slice := makeCopy 32 p.privateKey

/-- protocol/curve/djb_private.go:47-50, protocol/curve/curve25519/curve25519.go:100-104 — `PublicKey`: a key over a new array. The error of
`newDJBPublicKey` is dropped there; it cannot occur. -/
def PrivRef.pub (p : PrivRef) : M Heap PubRef := do
  let key ← makeCopy 32 p.publicKey
  djbFromSlice key

/-- protocol/curve/djb_private.go:52-54, protocol/curve/curve25519/curve25519.go:108-119 — `Agreement`: `KeyBytes` and `crypto/ecdh` copy the
public key, and the secret is a new array. -/
def PrivRef.agreement (C : Crypto) (p : PrivRef) (q : PubRef) : M Heap Slice := do
  let key ← q.keyBytes
  let publicKey ← makeCopy 32 key
  let h ← M.get
  match C.dh (clamp (h.read p.ecdhKey)) (h.read publicKey) with
  | some secret => allocBytes secret
  | none => M.throw .lowOrderPoint

/-- protocol/curve/djb_private.go:56-58, protocol/curve/curve25519/curve25519.go:127-184 — `Sign`: the 64 random bytes and the signature are
in new arrays; the messages are only read. -/
def PrivRef.sign (C : Crypto) (p : PrivRef) (random : Bytes) (messages : List Slice) : M Heap Slice := do
  match (readFull 64 random).1 with
  | .ok z => do
    let z ← allocBytes z
    let h ← M.get
    allocBytes (C.sign p.scalarKey (h.read z) (messages.map h.read).flatten)
  | .err e => M.throw e
  | .panic => M.panic

/-- protocol/curve/djb_public.go:50-56, protocol/curve/curve25519/curve25519.go:190-208 — `VerifySignature`: the signature is copied before
its sign bit is cleared, and the messages are appended to a new array. -/
def PubRef.verifySignature (C : Crypto) (p : PubRef) (signature : Slice) (messages : List Slice) : M Heap Bool := do
  if signature.len ≠ 64 then M.pure false
  else do
    let sig ← makeCopy 64 signature
    let h ← M.get
    let msg ← allocBytes (messages.map h.read).flatten
    let h ← M.get
    M.lift (Res.ofOption .invalidUPoint (C.verify (h.read p.key) (h.read msg) (h.read sig)))

/-- protocol/curve/djb_private.go:20-29, protocol/curve/curve25519/curve25519.go:45-57 — `GeneratePrivateKey`. -/
def generateRef (C : Crypto) (random : Bytes) : M Heap PrivRef := do
  match (readFull 32 random).1 with
  | .ok key => do
    let key ← allocBytes key
    privFromSlice C key
  | .err e => M.throw e
  | .panic => M.panic

/-- protocol/curve/pair.go:33-47 — `NewKeyPair` on slices. -/
def pairFromSlices (C : Crypto) (privateKey publicKey : Slice) : M Heap (PrivRef × PubRef) := do
  let priv ← privFromSlice C privateKey
  let pub ← pubFromSlice publicKey
  return (priv, pub)

/-- protocol/prekey/prekey.go:24-32, protocol/prekey/signed.go:14-24 — `NewPreKey`, `NewSigned`: the pre-key holds the arrays that `Bytes`
makes. -/
def PreKeyRecRef.make (priv : PrivRef) (pub : PubRef) : M Heap PreKeyRecRef := do
  let publicKey ← pub.bytes
  let privateKey ← priv.bytes
  return ⟨publicKey, privateKey⟩

/-- protocol/prekey/prekey.go:35-37, protocol/prekey/signed.go:27-29 — `KeyPair`. -/
def PreKeyRecRef.keyPair (C : Crypto) (p : PreKeyRecRef) : M Heap (PrivRef × PubRef) := pairFromSlices C p.privateKey p.publicKey

end Verif
