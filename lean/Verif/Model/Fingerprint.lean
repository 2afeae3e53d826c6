import Verif.Model.Keys
import Verif.Model.Storage

/-!
# Safety numbers (`protocol/fingerprint`) and address printing (`protocol/address`)
-/

namespace Verif

open Wire (Field Val encFields parseFields)

/-- ASCII decimal digit. (protocol/fingerprint/encode.go:21.) -/
def digitChar (d : Nat) : UInt8 := UInt8.ofNat (48 + d)

/-- The last `n` decimal digits of `v`, most significant first. (protocol/fingerprint/encode.go:21, `%05d`.) -/
def digitsN : Nat → Nat → Bytes
  | 0, _ => []
  | n + 1, v => digitsN n (v / 10) ++ [digitChar (v % 10)]

/-- protocol/fingerprint/encode.go:13-19 — `uint64FromChunk`: big-endian value of 5 bytes. -/
def chunkValue (chunk : Bytes) : Nat := beNat chunk

/-- protocol/fingerprint/encode.go:20-22 — `%05d` of the value modulo 100000. -/
def encodeChunk (chunk : Bytes) : Bytes := digitsN 5 (chunkValue chunk % 100000)

/-- protocol/fingerprint/encode.go:25-30 — `[5]byte(bytes[i:i+5])`: panics beyond the end. (A Go slice may have room behind its end;
then the slice expression reads it instead of panicking. The model takes the slice to end where its array ends.) -/
def chunkAt (b : Bytes) (i : Nat) : Res Bytes := if i + 5 ≤ b.length then .ok ((b.drop i).take 5) else .panic

/-- protocol/fingerprint/encode.go:8-33 — `encode`. -/
def encodeFingerprint (b : Bytes) : Res Bytes :=
  if b.length < 30 then .err .encodingTooShort
  else do
    let c0 ← chunkAt b 0
    let c1 ← chunkAt b 5
    let c2 ← chunkAt b 10
    let c3 ← chunkAt b 15
    let c4 ← chunkAt b 20
    let c5 ← chunkAt b 25
    return encodeChunk c0 ++ encodeChunk c1 ++ encodeChunk c2 ++ encodeChunk c3 ++ encodeChunk c4 ++ encodeChunk c5

/-- Go's `<` on strings: byte-wise lexicographic. (protocol/fingerprint/displayable.go:27.) -/
def strLt : Bytes → Bytes → Bool
  | [], [] => false
  | [], _ :: _ => true
  | _ :: _, [] => false
  | a :: as, b :: bs => if a < b then true else if b < a then false else strLt as bs

/-- protocol/fingerprint/displayable.go:4-7. -/
structure Displayable where
  localEnc : Bytes
  remoteEnc : Bytes
deriving DecidableEq

/-- protocol/fingerprint/displayable.go:10-24 — `NewDisplayable`. -/
def newDisplayable (loc rem : Bytes) : Res Displayable := do
  let l ← encodeFingerprint loc
  let r ← encodeFingerprint rem
  return { localEnc := l, remoteEnc := r }

/-- protocol/fingerprint/displayable.go:26-32 — `String`; also protocol/fingerprint/fingerprint.go:81-83. -/
def Displayable.string (d : Displayable) : Bytes :=
  if strLt d.localEnc d.remoteEnc then d.localEnc ++ d.remoteEnc else d.remoteEnc ++ d.localEnc

/-- protocol/fingerprint/scannable.go:14-18. -/
structure Scannable where
  version : UInt32
  loc : Bytes
  rem : Bytes
deriving DecidableEq

/-- protocol/fingerprint/scannable.go:21-34 — `NewScannable`. -/
def newScannable (version : UInt32) (loc rem : Bytes) : Res Scannable :=
  if loc.length < 32 then .err .badFingerprintLength
  else if rem.length < 32 then .err .badFingerprintLength
  else .ok { version := version, loc := loc.take 32, rem := rem.take 32 }

/-- protocol/proto/v1/fingerprint.proto — `CombinedFingerprints` (proto2); a sub-message is its optional `content`. -/
structure PBCombined where
  version : Option UInt32 := none
  loc : Option (Option Bytes) := none
  rem : Option (Option Bytes) := none
deriving DecidableEq

/-- `LogicalFingerprint` (field 1: content). (protocol/proto/v1/fingerprint.proto:12-15.) -/
def marshalLogical (c : Option Bytes) : Bytes := encFields (optLen 1 c)

/-- protocol/proto/v1/fingerprint.proto:12-15 — proto.Unmarshal of a `LogicalFingerprint` into an existing one. -/
def mergeLogical (m : Option Bytes) (bs : Bytes) : Option (Option Bytes) :=
  (parseFields bs).map fun fs => fs.foldl (fun m f => match f.num, f.val with
    | 1, .len b => some b
    | _, _ => m) m

/-- protocol/fingerprint/scannable.go:48 — proto.Marshal of `CombinedFingerprints` (protocol/proto/v1/fingerprint.proto:17-21). -/
def PBCombined.marshal (m : PBCombined) : Bytes :=
  encFields (optVarint 1 m.version ++ optMsg 2 (m.loc.map marshalLogical) ++ optMsg 3 (m.rem.map marshalLogical))

/-- protocol/fingerprint/scannable.go:59 — proto.Unmarshal of one field of `CombinedFingerprints`. -/
def PBCombined.field (m : PBCombined) (f : Field) : Option PBCombined :=
  match f.num, f.val with
  | 1, .varint v => some { m with version := some (UInt32.ofNat v) }
  | 2, .len b => (mergeLogical (m.loc.getD none) b).map fun c => { m with loc := some c }
  | 3, .len b => (mergeLogical (m.rem.getD none) b).map fun c => { m with rem := some c }
  | _, _ => some m

/-- protocol/fingerprint/scannable.go:58-61 — proto.Unmarshal of `CombinedFingerprints`. -/
def PBCombined.unmarshal (bs : Bytes) : Res PBCombined :=
  Res.ofOption .proto ((parseFields bs).bind fun fs => fs.foldlM PBCombined.field {})

/-- protocol/fingerprint/scannable.go:37-54 — `Bytes`. -/
def Scannable.bytes (s : Scannable) : Bytes :=
  PBCombined.marshal { version := some s.version, loc := some (some s.loc), rem := some (some s.rem) }

/-- protocol/fingerprint/scannable.go:57-72 — `Compare`. -/
def Scannable.compare (s : Scannable) (scanned : Bytes) : Res Bool := do
  let combined ← PBCombined.unmarshal scanned
  let theirVersion := combined.version.getD 0
  if theirVersion ≠ s.version then Res.err .fingerprintVersion
  else
    let same1 := s.loc == (combined.rem.getD none).getD []
    let same2 := s.rem == (combined.loc.getD none).getD []
    return same1 && same2

/-- The loop of protocol/fingerprint/fingerprint.go:70-76, `n` times. -/
def fingerprintLoop (C : Crypto) (keyBytes : Bytes) : Nat → Bytes → Bytes
  | 0, sum => sum
  | n + 1, sum => fingerprintLoop C keyBytes n (C.sha512 (sum ++ keyBytes))

/-- protocol/fingerprint/fingerprint.go:53-79 — `fingerprint`. -/
def fingerprintOf (C : Crypto) (iterations : UInt32) (id : Bytes) (key : PubKey) : Res Bytes :=
  if iterations ≤ 1 ∨ iterations > 1000000 then .err .badIterations
  else
    let keyBytes := key.bytes
    .ok (fingerprintLoop C keyBytes (iterations.toNat - 1) (C.sha512 ([0, 0] ++ keyBytes ++ id ++ keyBytes)))

/-- protocol/fingerprint/fingerprint.go:14-17. -/
structure Fingerprint where
  displayable : Displayable
  scannable : Scannable
deriving DecidableEq

/-- protocol/fingerprint/fingerprint.go:20-50 — `New`. -/
def newFingerprint (C : Crypto) (version iterations : UInt32) (localID : Bytes) (localKey : PubKey)
    (remoteID : Bytes) (remoteKey : PubKey) : Res Fingerprint := do
  let l ← fingerprintOf C iterations localID localKey
  let r ← fingerprintOf C iterations remoteID remoteKey
  let d ← newDisplayable l r
  let s ← newScannable version l r
  return { displayable := d, scannable := s }

/-- Decimal text of a number without leading zeros (`%d`); `fuel` is an upper bound on the number of digits.
(protocol/address/address.go:16.) -/
def decimalN : Nat → Nat → Bytes
  | 0, _ => []
  | fuel + 1, v => if v < 10 then [digitChar v] else decimalN fuel (v / 10) ++ [digitChar (v % 10)]

/-- `%d` of a `uint32`. (protocol/address/address.go:16.) -/
def decimal (v : UInt32) : Bytes := decimalN 10 v.toNat

/-- protocol/address/address.go:15-17 — `Address.String`: name, dot, decimal device id. -/
def Address.string (a : Address) : Bytes := a.name ++ [46] ++ decimal a.deviceId

end Verif
