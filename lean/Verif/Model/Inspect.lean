import Verif.Model.World
import Verif.Model.Fingerprint

/-!
# What a caller can read off a record, and the texts the library prints

`protocol/session/record.go`, `protocol/message/ciphertexttype_string.go`, `protocol/prekey/prekey.go`, `protocol/perrors/errors.go`.
-/

namespace Verif

namespace Record

/-- protocol/session/record.go:43-45 and 47-54 — `State` and `Version`. -/
def version (r : Record) : Res UInt32 :=
  match r.current with
  | none => .err .noCurrentSession
  | some s => .ok s.version

/-- protocol/session/record.go:120-127 — `LocalIdentityKey`. -/
def localIdentityKey (r : Record) : Res PubKey :=
  match r.current with
  | none => .err .noCurrentSession
  | some s => s.localIdentityKey

/-- protocol/session/record.go:129-136 — `RemoteIdentityKey`; `none` is `exists == false`. -/
def remoteIdentityKey (r : Record) : Res (Option PubKey) :=
  match r.current with
  | none => .err .noCurrentSession
  | some s => s.remoteIdentityKey

/-- protocol/session/record.go:138-145 — `ReceiverChainKey`; `none` is `exists == false`. -/
def receiverChainKey (r : Record) (sender : PubKey) : Res (Option ChainKey) :=
  match r.current with
  | none => .err .noCurrentSession
  | some s => s.receiverChainKey sender

/-- protocol/session/record.go:147-154 — `SenderChainKey`. -/
def senderChainKey (r : Record) : Res ChainKey :=
  match r.current with
  | none => .err .noCurrentSession
  | some s => s.senderChainKey

end Record

/-- `strconv.FormatInt(i, 10)` for an `int64`: twenty digits are enough. (protocol/message/ciphertexttype_string.go:36.) -/
def formatInt (i : Int64) : Bytes :=
  if i.toInt < 0 then 45 :: decimalN 20 i.toInt.natAbs else decimalN 20 i.toInt.natAbs

/-- `"CiphertextType("` (protocol/message/ciphertexttype_string.go:36). -/
def typePrefix : Bytes := [67, 105, 112, 104, 101, 114, 116, 101, 120, 116, 84, 121, 112, 101, 40]

/-- protocol/message/ciphertexttype_string.go:17-20 — `_CiphertextType_name_0`: `"WhisperTypePreKeyType"`. -/
def typeNames0 : Bytes := [87, 104, 105, 115, 112, 101, 114, 84, 121, 112, 101, 80, 114, 101, 75, 101, 121, 84, 121, 112, 101]

/-- protocol/message/ciphertexttype_string.go:17-20 — `_CiphertextType_name_1`: `"SenderKeyTypePlaintextType"`. -/
def typeNames1 : Bytes :=
  [83, 101, 110, 100, 101, 114, 75, 101, 121, 84, 121, 112, 101, 80, 108, 97, 105, 110, 116, 101, 120, 116, 84, 121, 112, 101]

/-- protocol/message/ciphertexttype_string.go:27-38 — `CiphertextType.String`, with the index tables of lines 22-25. -/
def ciphertextTypeString (i : Int64) : Bytes :=
  if 2 ≤ i.toInt ∧ i.toInt ≤ 3 then
    if i.toInt = 2 then (typeNames0.take 11).drop 0 else (typeNames0.take 21).drop 11
  else if 7 ≤ i.toInt ∧ i.toInt ≤ 8 then
    if i.toInt = 7 then (typeNames1.take 13).drop 0 else (typeNames1.take 26).drop 13
  else typePrefix ++ formatInt i ++ [41]

/-- protocol/prekey/prekey.go:14-16 — `ID.String`. -/
def preKeyIDString (i : UInt32) : Bytes := decimal i

/-- `"session with "` (protocol/perrors/errors.go:49). -/
def sessionWith : Bytes := [115, 101, 115, 115, 105, 111, 110, 32, 119, 105, 116, 104, 32]

/-- `" not found"` (protocol/perrors/errors.go:49). -/
def notFound : Bytes := [32, 110, 111, 116, 32, 102, 111, 117, 110, 100]

/-- `"untrusted identity for address "` (protocol/perrors/errors.go:68). -/
def untrustedFor : Bytes :=
  [117, 110, 116, 114, 117, 115, 116, 101, 100, 32, 105, 100, 101, 110, 116, 105, 116, 121, 32, 102, 111, 114, 32, 97, 100, 100, 114, 101, 115, 115, 32]

/-- protocol/perrors/errors.go:48-50 — `errSessionNotFound.Error`. -/
def sessionNotFoundText (a : Address) : Bytes := sessionWith ++ a.string ++ notFound

/-- protocol/perrors/errors.go:67-69 — `errUntrustedIdentity.Error`. -/
def untrustedIdentityText (a : Address) : Bytes := untrustedFor ++ a.string

end Verif
