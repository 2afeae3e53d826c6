import Verif.Model.Fingerprint
import Verif.Vectors.Primitives

/-!
# The vectors of the fingerprint tests

The two hashes of protocol/fingerprint/fingerprint_test.go:14-25 take 5200 rounds of SHA-512, too many for the kernel. What
is checked here is everything after the hashes: from values that start with the 32 bytes the test expects, the displayed
digits and the scannable bytes of the tests come out.
-/

namespace Verif.Vectors

open Verif

/-- The hash of Alice (protocol/fingerprint/fingerprint_test.go:20), padded to 64 bytes. -/
def aliceHash : Bytes := hex 32 0x1e301a0353dce3dbe7684cb8336e85136cdc0ee96219494ada305d62a7bd61df ++ List.replicate 32 0
/-- The hash of Bob (protocol/fingerprint/fingerprint_test.go:20), padded to 64 bytes. -/
def bobHash : Bytes := hex 32 0xd62cbf73a11592015b6b9f1682ac306fea3aaf3885b84d12bca631e9d4fb3a4d ++ List.replicate 32 0

/-- The digits of protocol/fingerprint/fingerprint_test.go:18 as ASCII. -/
def displayed : Bytes := digitsN 60 300354477692869396892869876765458257569162576843440918079131

/-- `TestFingerprint_V1`, `TestFingerprint_V2`: the displayed digits, for both. -/
theorem displayable :
    (newDisplayable aliceHash bobHash >>= fun x => .ok (Displayable.string x)) = .ok displayed ∧
    (newDisplayable bobHash aliceHash >>= fun x => .ok (Displayable.string x)) = .ok displayed := by
  decide +kernel

/-- `TestFingerprint_V1`: the scannable bytes. -/
theorem scannable_v1 :
    (newScannable 1 aliceHash bobHash >>= fun x => .ok (Scannable.bytes x)) = .ok (hex 74 0x080112220a201e301a0353dce3dbe7684cb8336e85136cdc0ee96219494ada305d62a7bd61df1a220a20d62cbf73a11592015b6b9f1682ac306fea3aaf3885b84d12bca631e9d4fb3a4d) ∧
    (newScannable 1 bobHash aliceHash >>= fun x => .ok (Scannable.bytes x)) = .ok (hex 74 0x080112220a20d62cbf73a11592015b6b9f1682ac306fea3aaf3885b84d12bca631e9d4fb3a4d1a220a201e301a0353dce3dbe7684cb8336e85136cdc0ee96219494ada305d62a7bd61df) := by
  decide +kernel

/-- `TestFingerprint_V2`: the scannable bytes. -/
theorem scannable_v2 :
    (newScannable 2 aliceHash bobHash >>= fun x => .ok (Scannable.bytes x)) = .ok (hex 74 0x080212220a201e301a0353dce3dbe7684cb8336e85136cdc0ee96219494ada305d62a7bd61df1a220a20d62cbf73a11592015b6b9f1682ac306fea3aaf3885b84d12bca631e9d4fb3a4d) ∧
    (newScannable 2 bobHash aliceHash >>= fun x => .ok (Scannable.bytes x)) = .ok (hex 74 0x080212220a20d62cbf73a11592015b6b9f1682ac306fea3aaf3885b84d12bca631e9d4fb3a4d1a220a201e301a0353dce3dbe7684cb8336e85136cdc0ee96219494ada305d62a7bd61df) := by
  decide +kernel

end Verif.Vectors
