import Verif.Model.Edwards
import Verif.Model.Keys

/-!
# XEdDSA signatures (`protocol/curve/curve25519`)

`Crypto` takes signatures as given functions with a law. Here the code that computes them is modelled, on the curve of
`Verif.Model.Edwards`; the only primitive left open is SHA-512 (`H` below, an arbitrary function). `Verif.Proofs.XEdDSA`
shows that this code satisfies the laws of `Crypto`.
-/

namespace Verif

/-- `field.Element.Bytes`, as used in protocol/curve/curve25519/util.go:41. -/
def feBytes (x : Fe) : Bytes := leBytes 32 x.val

/-- `field.Element.SetBytes`, as used in protocol/curve/curve25519/util.go:22: the top bit is ignored and the value is
taken modulo the prime. The length check is at the call. -/
def feOfBytes (b : Bytes) : Fe := (leNat (modifyAt b 31 (· &&& 127)) : Nat)

/-- `edwards25519.Point.Bytes`, as used in protocol/curve/curve25519/curve25519.go:139: `y`, and the parity of `x` in
the top bit. -/
def EdPoint.bytes (P : EdPoint) : Bytes :=
  modifyAt (feBytes P.y) 31 (· ||| (if P.x.val % 2 = 1 then 128 else 0))

/-- The `u` coordinate of a point: `(1 + y)/(1 - y)`, where dividing by zero gives zero.
(`BytesMontgomery`, protocol/curve/curve25519/util.go:17.) -/
def EdPoint.u (P : EdPoint) : Fe := (1 + P.y) * (1 - P.y)⁻¹

/-- `edwards25519.Point.BytesMontgomery`, as used in protocol/curve/curve25519/util.go:17. -/
def EdPoint.bytesMontgomery (P : EdPoint) : Bytes := feBytes P.u

/-- Does `P` have the coordinate and the sign that `b` encodes? The sign of `0` is not checked.
(protocol/curve/curve25519/curve25519.go:207.) -/
def EdPoint.Encoded (b : Bytes) (P : EdPoint) : Prop :=
  P.y = feOfBytes b ∧ (P.x = 0 ∨ P.x.val % 2 = (b.getD 31 0).toNat / 128)

open Classical in
/-- `edwards25519.Point.SetBytes`, called by `ed25519.Verify`. Simplification: the square root is specified, not
computed. (protocol/curve/curve25519/curve25519.go:207.) -/
noncomputable def EdPoint.ofBytes (b : Bytes) : Option EdPoint :=
  if b.length ≠ 32 then none
  else if h : ∃ P, EdPoint.Encoded b P then some h.choose else none

/-- protocol/curve/curve25519/curve25519.go:25-31. -/
def hashPrefix : Bytes := 0xFE :: List.replicate 31 0xFF

/-- protocol/curve/curve25519/curve25519.go:65-68 — `SetBytesWithClamping`: the clamped key as a scalar. -/
def scalarKey (key : Bytes) : Nat := leNat (clamp key) % groupOrder

/-- protocol/curve/curve25519/util.go:15-18 — `xtou`. -/
def xtou (s : Nat) : Bytes := (s • EdPoint.base).bytesMontgomery

/-- protocol/curve/curve25519/curve25519.go:84-89 — the public key `NewPrivateKey` computes. -/
def curvePublic (key : Bytes) : Bytes := xtou (scalarKey key)

/-- protocol/curve/curve25519/curve25519.go:146-148, 164-166, 202-204 — the loops that write or append every message. -/
def writeAll (acc : Bytes) (messages : List Bytes) : Bytes := messages.foldl (fun acc m => acc ++ m) acc

/-- protocol/curve/curve25519/curve25519.go:138-184 — `Sign`, after the random bytes `z` are read. `H` is SHA-512 and
`leNat (H ..) % groupOrder` is `SetUniformBytes`. -/
def signWith (H : Bytes → Bytes) (key z : Bytes) (messages : List Bytes) : Bytes :=
  let a := scalarKey key
  let aBytes := leBytes 32 a
  let A := (a • EdPoint.base).bytes
  let r := leNat (H (writeAll (hashPrefix ++ aBytes) messages ++ z)) % groupOrder
  let R := (r • EdPoint.base).bytes
  let h := leNat (H (writeAll (R ++ A) messages)) % groupOrder
  let s := leBytes 32 ((a * h + r) % groupOrder)
  let signBit := A.getD 31 0 &&& 0x80
  modifyAt (modifyAt (R ++ s) 63 (· &&& 0x7F)) 63 (· ||| signBit)

/-- protocol/curve/djb_private.go:56-58, protocol/curve/curve25519/curve25519.go:127-184 — `PrivateKey.Sign`. -/
def PrivKey.curveSign (H : Bytes → Bytes) (p : PrivKey) (messages : List Bytes) : M Bytes Bytes := do
  let z ← readFull 64
  return signWith H p.key z messages

/-- protocol/curve/curve25519/util.go:21-50 — `utoy`. The error of `SetBytes` for a wrong length is not told apart from
the other one. -/
def utoy (montU : Bytes) (positive : Bool) : Res Bytes :=
  if montU.length ≠ 32 then .err .invalidUPoint
  else
    let u := feOfBytes montU
    if u = -1 then .err .invalidUPoint
    else
      let y := feBytes ((u - 1) * (u + 1)⁻¹)
      .ok (modifyAt y 31 (· ^^^ (if positive then 0 else 0x80)))

open Classical in
/-- `ed25519.Verify` of the standard library, called in protocol/curve/curve25519/curve25519.go:207. -/
noncomputable def ed25519Verify (H : Bytes → Bytes) (publicKey msg sig : Bytes) : Res Bool :=
  if publicKey.length ≠ 32 then .panic
  else if sig.length ≠ 64 then .ok false
  else
    match EdPoint.ofBytes publicKey with
    | none => .ok false
    | some A =>
      let k := leNat (H (sig.take 32 ++ publicKey ++ msg)) % groupOrder
      let S := leNat (sig.drop 32)
      if groupOrder ≤ S then .ok false
      else .ok (decide ((k • (-A) + S • EdPoint.base).bytes = sig.take 32))

/-- protocol/curve/curve25519/curve25519.go:190-208 — `VerifySignature`. Indexing `signature[63]` panics when the
signature is shorter. -/
noncomputable def curveVerify (H : Bytes → Bytes) (publicKey signature : Bytes) (messages : List Bytes) : Res Bool :=
  match signature[63]? with
  | none => .panic
  | some last => do
    let y ← utoy publicKey (last &&& 0x80 == 0)
    let sig := modifyAt (signature.take 64) 63 (· &&& 0x7F)
    let msg := writeAll [] messages
    ed25519Verify H y msg sig

/-- protocol/curve/djb_public.go:50-56 — `PublicKey.VerifySignature`. -/
noncomputable def PubKey.curveVerifySignature (H : Bytes → Bytes) (p : PubKey) (signature : Bytes) (messages : List Bytes) :
    Res Bool :=
  if signature.length ≠ 64 then .ok false
  else curveVerify H p.key signature messages

/-- Twice a point of the Montgomery curve, or of its twist, given by its first coordinate `x/z`
(the standard library's `crypto/ecdh`, called in protocol/curve/curve25519/curve25519.go:118). -/
def xDbl (r : Fe × Fe) : Fe × Fe :=
  let aa := (r.1 + r.2) ^ 2
  let bb := (r.1 - r.2) ^ 2
  (aa * bb, (aa - bb) * (bb + 121666 * (aa - bb)))

/-- The sum of two points whose difference has the first coordinate `u`
(the standard library's `crypto/ecdh`, called in protocol/curve/curve25519/curve25519.go:118). -/
def xAdd (u : Fe) (r s : Fe × Fe) : Fe × Fe :=
  let da := (s.1 - s.2) * (r.1 + r.2)
  let cb := (s.1 + s.2) * (r.1 - r.2)
  ((da + cb) ^ 2, u * (da - cb) ^ 2)

/-- The Montgomery ladder over the `n` binary digits of `k`, highest first: the first coordinates of `k` times and `k + 1`
times the point (the standard library's `crypto/ecdh`, called in protocol/curve/curve25519/curve25519.go:118).
Simplification: a choice in place of the constant-time swaps. -/
def ladder (u : Fe) : Nat → Nat → (Fe × Fe) × (Fe × Fe)
  | 0, _ => ((1, 0), (u, 1))
  | n + 1, k =>
    let r := ladder u n (k / 2)
    if k % 2 = 1 then (xAdd u r.1 r.2, xDbl r.2) else (xDbl r.1, xAdd u r.1 r.2)

/-- X25519 (`crypto/ecdh`, RFC 7748), as used in protocol/curve/curve25519/curve25519.go:108-119. -/
def x25519 (key point : Bytes) : Bytes :=
  let r := (ladder (feOfBytes point) 255 (leNat (clamp key))).1
  feBytes (r.1 * r.2⁻¹)

end Verif
