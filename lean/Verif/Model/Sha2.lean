import Verif.Model.Basic

/-!
# SHA-256, SHA-512, HMAC and HKDF

`crypto/sha256`, `crypto/sha512` and `crypto/hmac` of the standard library and `golang.org/x/crypto/hkdf` are not part of
the repository. What is written here is the standards they implement (FIPS 180-4, RFC 2104, RFC 5869), on natural
numbers, so that the kernel can compute with it. `Verif.Model.Standard` puts these functions in place of the arbitrary
ones of `Crypto`.
-/

namespace Verif

/-- What SHA-256 and SHA-512 differ in (`crypto/sha256`, `crypto/sha512`, imported by protocol/ratchet/keys.go:5,
protocol/curve/curve25519/curve25519.go:10 and protocol/fingerprint/fingerprint.go:5): the number of bytes of a word, the
rotations of the four functions, the round constants and the initial state. -/
structure Sha2 where
  bytes : Nat
  big0 : Nat × Nat × Nat
  big1 : Nat × Nat × Nat
  /-- Two rotations and a shift. -/
  small0 : Nat × Nat × Nat
  small1 : Nat × Nat × Nat
  k : List Nat
  init : List Nat

/-- FIPS 180-4, 4.2.2 (`crypto/sha256`, imported by protocol/ratchet/keys.go:5). -/
def sha256K : List Nat :=
  [0x428a2f98, 0x71374491, 0xb5c0fbcf, 0xe9b5dba5, 0x3956c25b, 0x59f111f1, 0x923f82a4, 0xab1c5ed5,
   0xd807aa98, 0x12835b01, 0x243185be, 0x550c7dc3, 0x72be5d74, 0x80deb1fe, 0x9bdc06a7, 0xc19bf174,
   0xe49b69c1, 0xefbe4786, 0x0fc19dc6, 0x240ca1cc, 0x2de92c6f, 0x4a7484aa, 0x5cb0a9dc, 0x76f988da,
   0x983e5152, 0xa831c66d, 0xb00327c8, 0xbf597fc7, 0xc6e00bf3, 0xd5a79147, 0x06ca6351, 0x14292967,
   0x27b70a85, 0x2e1b2138, 0x4d2c6dfc, 0x53380d13, 0x650a7354, 0x766a0abb, 0x81c2c92e, 0x92722c85,
   0xa2bfe8a1, 0xa81a664b, 0xc24b8b70, 0xc76c51a3, 0xd192e819, 0xd6990624, 0xf40e3585, 0x106aa070,
   0x19a4c116, 0x1e376c08, 0x2748774c, 0x34b0bcb5, 0x391c0cb3, 0x4ed8aa4a, 0x5b9cca4f, 0x682e6ff3,
   0x748f82ee, 0x78a5636f, 0x84c87814, 0x8cc70208, 0x90befffa, 0xa4506ceb, 0xbef9a3f7, 0xc67178f2]

/-- FIPS 180-4, 4.2.3 (`crypto/sha512`, imported by protocol/curve/curve25519/curve25519.go:10). -/
def sha512K : List Nat :=
  [0x428a2f98d728ae22, 0x7137449123ef65cd, 0xb5c0fbcfec4d3b2f, 0xe9b5dba58189dbbc,
   0x3956c25bf348b538, 0x59f111f1b605d019, 0x923f82a4af194f9b, 0xab1c5ed5da6d8118,
   0xd807aa98a3030242, 0x12835b0145706fbe, 0x243185be4ee4b28c, 0x550c7dc3d5ffb4e2,
   0x72be5d74f27b896f, 0x80deb1fe3b1696b1, 0x9bdc06a725c71235, 0xc19bf174cf692694,
   0xe49b69c19ef14ad2, 0xefbe4786384f25e3, 0x0fc19dc68b8cd5b5, 0x240ca1cc77ac9c65,
   0x2de92c6f592b0275, 0x4a7484aa6ea6e483, 0x5cb0a9dcbd41fbd4, 0x76f988da831153b5,
   0x983e5152ee66dfab, 0xa831c66d2db43210, 0xb00327c898fb213f, 0xbf597fc7beef0ee4,
   0xc6e00bf33da88fc2, 0xd5a79147930aa725, 0x06ca6351e003826f, 0x142929670a0e6e70,
   0x27b70a8546d22ffc, 0x2e1b21385c26c926, 0x4d2c6dfc5ac42aed, 0x53380d139d95b3df,
   0x650a73548baf63de, 0x766a0abb3c77b2a8, 0x81c2c92e47edaee6, 0x92722c851482353b,
   0xa2bfe8a14cf10364, 0xa81a664bbc423001, 0xc24b8b70d0f89791, 0xc76c51a30654be30,
   0xd192e819d6ef5218, 0xd69906245565a910, 0xf40e35855771202a, 0x106aa07032bbd1b8,
   0x19a4c116b8d2d0c8, 0x1e376c085141ab53, 0x2748774cdf8eeb99, 0x34b0bcb5e19b48a8,
   0x391c0cb3c5c95a63, 0x4ed8aa4ae3418acb, 0x5b9cca4f7763e373, 0x682e6ff3d6b2b8a3,
   0x748f82ee5defb2fc, 0x78a5636f43172f60, 0x84c87814a1f0ab72, 0x8cc702081a6439ec,
   0x90befffa23631e28, 0xa4506cebde82bde9, 0xbef9a3f7b2c67915, 0xc67178f2e372532b,
   0xca273eceea26619c, 0xd186b8c721c0c207, 0xeada7dd6cde0eb1e, 0xf57d4f7fee6ed178,
   0x06f067aa72176fba, 0x0a637dc5a2c898a6, 0x113f9804bef90dae, 0x1b710b35131c471b,
   0x28db77f523047d84, 0x32caab7b40c72493, 0x3c9ebe0a15c9bebc, 0x431d67c49c100d4c,
   0x4cc5d4becb3e42b6, 0x597f299cfc657e2a, 0x5fcb6fab3ad6faec, 0x6c44198c4a475817]

/-- FIPS 180-4, 4.1.2 and 5.3.3 (`crypto/sha256`, imported by protocol/ratchet/keys.go:5). -/
def sha256P : Sha2 where
  bytes := 4
  big0 := (2, 13, 22)
  big1 := (6, 11, 25)
  small0 := (7, 18, 3)
  small1 := (17, 19, 10)
  k := sha256K
  init :=
    [0x6a09e667, 0xbb67ae85, 0x3c6ef372, 0xa54ff53a, 0x510e527f, 0x9b05688c, 0x1f83d9ab, 0x5be0cd19]

/-- FIPS 180-4, 4.1.3 and 5.3.5 (`crypto/sha512`, imported by protocol/curve/curve25519/curve25519.go:10). -/
def sha512P : Sha2 where
  bytes := 8
  big0 := (28, 34, 39)
  big1 := (14, 18, 41)
  small0 := (1, 8, 7)
  small1 := (19, 61, 6)
  k := sha512K
  init :=
    [0x6a09e667f3bcc908, 0xbb67ae8584caa73b, 0x3c6ef372fe94f82b, 0xa54ff53a5f1d36f1,
   0x510e527fade682d1, 0x9b05688c2b3e6c1f, 0x1f83d9abfb41bd6b, 0x5be0cd19137e2179]

namespace Sha2

/-- Words are computed modulo this number (FIPS 180-4, 2.2.2; `crypto/sha256`, protocol/ratchet/keys.go:5). -/
def modulus (H : Sha2) : Nat := 2 ^ (8 * H.bytes)

/-- `ROTR` (FIPS 180-4, 3.2; `crypto/sha256`, protocol/ratchet/keys.go:5). -/
def rotr (H : Sha2) (n x : Nat) : Nat := (x >>> n) ||| (x <<< (8 * H.bytes - n) % H.modulus)

/-- The functions Σ (FIPS 180-4, 4.1.2; `crypto/sha256`, protocol/ratchet/keys.go:5). -/
def bigSigma (H : Sha2) (r : Nat × Nat × Nat) (x : Nat) : Nat := H.rotr r.1 x ^^^ H.rotr r.2.1 x ^^^ H.rotr r.2.2 x

/-- The functions σ (FIPS 180-4, 4.1.2; `crypto/sha256`, protocol/ratchet/keys.go:5). -/
def smallSigma (H : Sha2) (r : Nat × Nat × Nat) (x : Nat) : Nat := H.rotr r.1 x ^^^ H.rotr r.2.1 x ^^^ (x >>> r.2.2)

/-- The bytes of a word, most significant first (FIPS 180-4, 3.1; `crypto/sha256`, protocol/ratchet/keys.go:5). -/
def wordBytes (H : Sha2) (x : Nat) : Bytes := (leBytes H.bytes x).reverse

/-- Split into `n` words, most significant byte first (FIPS 180-4, 5.2; `crypto/sha256`, protocol/ratchet/keys.go:5). -/
def words (H : Sha2) : Nat → Bytes → List Nat
  | 0, _ => []
  | n + 1, b => beNat (b.take H.bytes) :: words H n (b.drop H.bytes)

/-- Padding: a one bit, zeros, and the number of bits in two words
(FIPS 180-4, 5.1; `crypto/sha256`, protocol/ratchet/keys.go:5). -/
def pad (H : Sha2) (m : Bytes) : Bytes :=
  let block := 16 * H.bytes
  m ++ [0x80] ++ List.replicate ((block - (m.length + 1 + 2 * H.bytes) % block) % block) 0 ++
    (leBytes (2 * H.bytes) (8 * m.length)).reverse

/-- The next word of the message schedule, from the sixteen before it
(FIPS 180-4, 6.2.2; `crypto/sha256`, protocol/ratchet/keys.go:5). -/
def nextWord (H : Sha2) (w : List Nat) : Nat :=
  (H.smallSigma H.small1 (w.getD 14 0) + w.getD 9 0 + H.smallSigma H.small0 (w.getD 1 0) + w.getD 0 0) % H.modulus

/-- One round (FIPS 180-4, 6.2.2; `crypto/sha256`, protocol/ratchet/keys.go:5). The constant and the word of the round
come added. -/
def round (H : Sha2) (s : List Nat) (kw : Nat) : List Nat :=
  match s with
  | [a, b, c, d, e, f, g, h] =>
    let t1 := h + H.bigSigma H.big1 e + ((e &&& f) ^^^ ((e ^^^ (H.modulus - 1)) &&& g)) + kw
    let t2 := H.bigSigma H.big0 a + ((a &&& b) ^^^ (a &&& c) ^^^ (b &&& c))
    [(t1 + t2) % H.modulus, a, b, c, (d + t1) % H.modulus, e, f, g]
  | s => s

/-- All rounds for one block: one for each constant, with the last sixteen words of the schedule
(FIPS 180-4, 6.2.2; `crypto/sha256`, protocol/ratchet/keys.go:5). -/
def rounds (H : Sha2) : List Nat → List Nat → List Nat → List Nat
  | [], _, s => s
  | k :: ks, w, s => rounds H ks (w.drop 1 ++ [H.nextWord w]) (H.round s (k + w.getD 0 0))

/-- The state after `n` blocks (FIPS 180-4, 6.2.2; `crypto/sha256`, protocol/ratchet/keys.go:5). -/
def blocks (H : Sha2) : Nat → Bytes → List Nat → List Nat
  | 0, _, s => s
  | n + 1, m, s =>
    blocks H n (m.drop (16 * H.bytes))
      (List.zipWith (fun x y => (x + y) % H.modulus) s (H.rounds H.k (H.words 16 m) s))

/-- The hash of a message (FIPS 180-4, 6.2; `crypto/sha256`, protocol/ratchet/keys.go:5). -/
def hash (H : Sha2) (m : Bytes) : Bytes :=
  let p := H.pad m
  (H.blocks (p.length / (16 * H.bytes)) p H.init).flatMap H.wordBytes

end Sha2

/-- `sha256.New`, as used in protocol/ratchet/keys.go:5. -/
def sha256 (m : Bytes) : Bytes := sha256P.hash m

/-- `sha512.New`, as used in protocol/curve/curve25519/curve25519.go:10. -/
def sha512 (m : Bytes) : Bytes := sha512P.hash m

/-- `hmac.New(sha256.New, key)` (RFC 2104), as used in protocol/ratchet/keys.go:149, protocol/senderkey/keys.go:97 and
protocol/message/mac.go:23. -/
def hmac256 (key m : Bytes) : Bytes :=
  let k := if key.length > 64 then sha256 key else key
  let k := k ++ List.replicate (64 - k.length) 0
  sha256 (k.map (· ^^^ 0x5c) ++ sha256 (k.map (· ^^^ 0x36) ++ m))

/-- `HKDF-Expand` (RFC 5869, 2.3) from block `i`, as used through `golang.org/x/crypto/hkdf` in
protocol/ratchet/keys.go:64.
Simplification: the reader of that package gives an error after 255 blocks; the library reads at most three. -/
def hkdfBlocks (prk info : Bytes) : Nat → Nat → Bytes → Bytes
  | 0, _, _ => []
  | n + 1, i, t =>
    let t := hmac256 prk (t ++ info ++ [UInt8.ofNat i])
    t ++ hkdfBlocks prk info n (i + 1) t

/-- `hkdf.New(sha256.New, secret, salt, info)` and a read of `n` bytes, as in protocol/ratchet/keys.go:64 and 185,
protocol/ratchet/ratchet.go:18 and protocol/senderkey/keys.go:34. An empty salt
stands for 32 zero bytes, which as a key of `hmac256` are the same. -/
def hkdf256 (secret salt info : Bytes) (n : Nat) : Bytes :=
  (hkdfBlocks (hmac256 salt secret) info ((n + 31) / 32) 1 []).take n

end Verif
