import Verif.Model.Basic

/-!
# Distribution ids (`protocol/distribution/id.go`, `github.com/google/uuid` v1.6.0)
-/

namespace Verif

/-- protocol/distribution/id.go:6-8 — a distribution id: a `uuid.UUID`, i.e. a `[16]byte`. -/
structure DistId where
  id : Bytes
  len : id.length = 16
deriving DecidableEq

/-- encoding/hex, lower case digit of a nibble. (github.com/google/uuid, called at protocol/distribution/id.go:41.) -/
def hexDigit (n : UInt8) : UInt8 := if n < 10 then 48 + n else 87 + n

/-- encoding/hex `Encode`. (github.com/google/uuid, called at protocol/distribution/id.go:41.) -/
def hexEncode : Bytes → Bytes
  | [] => []
  | b :: bs => hexDigit (b >>> 4) :: hexDigit (b &&& 15) :: hexEncode bs

/-- google/uuid util.go `xvalues`: value of a hexadecimal digit of either case. -/
def unhex (c : UInt8) : Option UInt8 :=
  if 48 ≤ c ∧ c ≤ 57 then some (c - 48)
  else if 97 ≤ c ∧ c ≤ 102 then some (c - 87)
  else if 65 ≤ c ∧ c ≤ 70 then some (c - 55)
  else none

/-- google/uuid util.go `xtob`: one byte from two digits. -/
def xtob (a b : UInt8) : Option UInt8 :=
  match unhex a, unhex b with
  | some x, some y => some (x <<< 4 ||| y)
  | _, _ => none

/-- Pairs of digits to bytes. (github.com/google/uuid, called at protocol/distribution/id.go:11, 19 and 30.) -/
def hexDecode : Bytes → Option Bytes
  | [] => some []
  | [_] => none
  | a :: b :: rest =>
    match xtob a b, hexDecode rest with
    | some x, some xs => some (x :: xs)
    | _, _ => none

/-- google/uuid uuid.go `UUID.String` / `encodeHex`: 8-4-4-4-12 lower-case digits. protocol/distribution/id.go:40-42. -/
def DistId.string (d : DistId) : Bytes :=
  hexEncode (d.id.take 4) ++ [45] ++ hexEncode ((d.id.drop 4).take 2) ++ [45] ++
    hexEncode ((d.id.drop 6).take 2) ++ [45] ++ hexEncode ((d.id.drop 8).take 2) ++ [45] ++
    hexEncode (d.id.drop 10)

/-- ASCII lower-casing (`bytes.EqualFold` on "urn:uuid:", whose letters have no other foldings).
(github.com/google/uuid, called at protocol/distribution/id.go:11, 19 and 30.) -/
def lowerAscii (c : UInt8) : UInt8 := if 65 ≤ c ∧ c ≤ 90 then c + 32 else c

/-- "urn:uuid:". (github.com/google/uuid, called at protocol/distribution/id.go:11, 19 and 30.) -/
def urnPrefix : Bytes := [117, 114, 110, 58, 117, 117, 105, 100, 58]

/-- Wrap a decoded value as a `[16]byte`. (protocol/distribution/id.go:6-8.) -/
def mkDistId (b : Bytes) : Option DistId :=
  if h : b.length = 16 then some ⟨b, h⟩ else none

/-- google/uuid uuid.go `ParseBytes`, the part after the length switch: hyphens at 8, 13, 18, 23 and hexadecimal
digits elsewhere in the first 36 bytes. -/
def parseHyphenated (b : Bytes) : Option DistId :=
  if b.getD 8 0 = 45 ∧ b.getD 13 0 = 45 ∧ b.getD 18 0 = 45 ∧ b.getD 23 0 = 45 then
    match hexDecode (b.take 8 ++ (b.drop 9).take 4 ++ (b.drop 14).take 4 ++ (b.drop 19).take 4 ++ (b.drop 24).take 12) with
    | some x => mkDistId x
    | none => none
  else none

/-- protocol/distribution/id.go:29-38 — `ParseBytes` (google/uuid v1.6.0 `ParseBytes`). -/
def parseDistId (b : Bytes) : Res DistId :=
  Res.ofOption .badUUID <|
    if b.length = 36 then parseHyphenated b
    else if b.length = 45 then
      if (b.take 9).map lowerAscii = urnPrefix then parseHyphenated (b.drop 9) else none
    else if b.length = 38 then parseHyphenated (b.drop 1)
    else if b.length = 32 then
      match hexDecode b with
      | some x => mkDistId x
      | none => none
    else none

/-- protocol/distribution/id.go:18-27 — `Parse` (google/uuid v1.6.0 `Parse`, which accepts the same texts as `ParseBytes`). -/
def parseDistIdString (s : Bytes) : Res DistId := parseDistId s

/-- protocol/distribution/id.go:10-16 — `MustParse`: panics where `Parse` fails. -/
def mustParseDistId (s : Bytes) : Res DistId :=
  match parseDistIdString s with
  | .ok d => .ok d
  | _ => .panic

/-! ## Facts -/

theorem xtob_hex (b : UInt8) : xtob (hexDigit (b >>> 4)) (hexDigit (b &&& 15)) = some b := by
  have h : ∀ n : Fin 256, xtob (hexDigit (UInt8.ofNat n.1 >>> 4)) (hexDigit (UInt8.ofNat n.1 &&& 15)) = some (UInt8.ofNat n.1) := by
    decide +kernel
  have := h ⟨b.toNat, b.toNat_lt⟩
  simpa using this

theorem hexDecode_encode (l : Bytes) : hexDecode (hexEncode l) = some l := by
  induction l with
  | nil => rfl
  | cons b bs ih => simp only [hexEncode, hexDecode, xtob_hex, ih]

theorem hexEncode_length (l : Bytes) : (hexEncode l).length = 2 * l.length := by
  induction l with
  | nil => rfl
  | cons b bs ih => simp [hexEncode, ih]; omega

theorem hexEncode_append (l r : Bytes) : hexEncode (l ++ r) = hexEncode l ++ hexEncode r := by
  induction l with
  | nil => rfl
  | cons b bs ih => simp [hexEncode, ih]

theorem DistId.string_length (d : DistId) : d.string.length = 36 := by
  have := d.len
  simp [DistId.string, hexEncode_length]; omega

theorem parseDistId_string (d : DistId) : parseDistId d.string = .ok d := by
  have hl := d.string_length
  obtain ⟨id, len⟩ := d
  match id, len with
  | [a0, a1, a2, a3, a4, a5, a6, a7, a8, a9, a10, a11, a12, a13, a14, a15], len =>
    simp only [parseDistId, hl, if_true]
    simp [DistId.string, hexEncode, parseHyphenated, hexDecode, xtob_hex, mkDistId]

end Verif
