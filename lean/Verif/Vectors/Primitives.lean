import Verif.Model.Standard

/-!
# Test vectors of the primitives

The hash functions and AES of the model, evaluated by the kernel on the vectors of the standards and of the repository's
own tests.
-/

namespace Verif.Vectors

open Verif

/-- The bytes a string of `2 * n` hexadecimal digits stands for. -/
def hex (n v : Nat) : Bytes := (leBytes n v).reverse

set_option maxRecDepth 10000

/-- FIPS 180-4: SHA-256 of "abc". -/
example : sha256 [97, 98, 99] = hex 32 0xba7816bf8f01cfea414140de5dae2223b00361a396177a9cb410ff61f20015ad := by decide +kernel

/-- FIPS 180-4: SHA-256 of a message whose padding takes a second block. -/
example : sha256 (hex 56 0x6162636462636465636465666465666765666768666768696768696a68696a6b696a6b6c6a6b6c6d6b6c6d6e6c6d6e6f6d6e6f706e6f7071) =
    hex 32 0x248d6a61d20638b8e5c026930c3e6039a33ce45964ff2167f6ecedd419db06c1 := by decide +kernel

/-- FIPS 180-4: SHA-512 of "abc". -/
example : sha512 [97, 98, 99] = hex 64 0xddaf35a193617abacc417349ae20413112e6fa4e89a97ea20a9eeee64b55d39a2192992a274fc1a836ba3c23a3feebbd454d4423643ce80e2a9ac94fa54ca49f := by
  decide +kernel

/-- RFC 4231, test case 2: the key "Jefe". -/
example : hmac256 [0x4a, 0x65, 0x66, 0x65] (hex 28 0x7768617420646f2079612077616e7420666f72206e6f7468696e673f) =
    hex 32 0x5bdcc146bf60754e6a042426089575c75a003f089d2739839dec58b964ec3843 := by decide +kernel

/-- RFC 4231, test case 6: a key longer than a block. -/
example : hmac256 (List.replicate 131 0xaa)
      (hex 54 0x54657374205573696e67204c6172676572205468616e20426c6f636b2d53697a65204b6579202d2048617368204b6579204669727374) =
    hex 32 0x60e431591ee0b67f0d8a26aacbf5b77f8e0bc6213728c5140546040f0ee37f54 := by decide +kernel

/-- RFC 5869, test case 1. -/
example : hkdf256 (List.replicate 22 0x0b) (hex 13 0x000102030405060708090a0b0c) (hex 10 0xf0f1f2f3f4f5f6f7f8f9) 42 =
    hex 42 0x3cb25f25faacd57a90434f64d0362f2a2d2d0a90cf1a5a4c5db02d56ecc4c5bf34007208d5b887185865 := by decide +kernel

/-- RFC 5869, test case 3: no salt and no info. -/
example : hkdf256 (List.replicate 22 0x0b) [] [] 42 =
    hex 42 0x8da4e775a563c18f715f802a063c5a31b8a11f5c5ee1879ec3454e5f3c738d2d9d201395faa4b61a96c8 := by decide +kernel

/-- FIPS 197, C.1: AES with a key of 128 bits. -/
example : aesEncrypt (hex 16 0x000102030405060708090a0b0c0d0e0f) (hex 16 0x00112233445566778899aabbccddeeff) =
    hex 16 0x69c4e0d86a7b0430d8cdb78070b4c55a := by decide +kernel

/-- FIPS 197, C.2: AES with a key of 192 bits. -/
example : aesEncrypt (hex 24 0x000102030405060708090a0b0c0d0e0f1011121314151617) (hex 16 0x00112233445566778899aabbccddeeff) =
    hex 16 0xdda97ca4864cdfe06eaf70a0ec0d7191 := by decide +kernel

/-- FIPS 197, C.3: AES with a key of 256 bits. -/
example : aesEncrypt (hex 32 0x000102030405060708090a0b0c0d0e0f101112131415161718191a1b1c1d1e1f) (hex 16 0x00112233445566778899aabbccddeeff) =
    hex 16 0x8ea2b7ca516745bfeafc49904b496089 := by decide +kernel

end Verif.Vectors
