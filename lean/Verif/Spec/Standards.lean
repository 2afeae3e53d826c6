import Verif.Model.Basic
import Mathlib.Data.Nat.Find

/-!
# The standards the library's algorithms follow

FIPS 180-4 (SHA-256 and SHA-512), RFC 2104 (HMAC), RFC 5869 (HKDF) and FIPS 197 (AES), written as in these documents: on words of 32 and
64 bits, with the message schedule, the round variables, the key schedule and the output blocks of HKDF as sequences with their recurrences,
and with the constants as the digits of roots of primes and the elements of the field they stand for.
-/

namespace Verif.Doc

/-! ## SHA-2 -/

/-- Prime numbers below 410; there are eighty. -/
def primes : List Nat := (List.range 410).filter fun n => decide (2 ≤ n ∧ ∀ d ∈ List.range n, 2 ≤ d → n % d ≠ 0)

/-- The greatest number whose `k`-th power is at most `x`. -/
def root (k x : Nat) : Nat := Nat.findGreatest (fun n => n ^ k ≤ x) x

/-- The first `w` bits of the fractional part of the `k`-th root of `p`. -/
def rootBits (w k p : Nat) : BitVec w := BitVec.ofNat w (root k (p * 2 ^ (k * w)))

/-- FIPS 180-4, 4.1: the functions and the number of rounds for words of `w` bits. -/
structure Sha (w : Nat) where
  rounds : Nat
  Sum0 : BitVec w → BitVec w
  Sum1 : BitVec w → BitVec w
  sigma0 : BitVec w → BitVec w
  sigma1 : BitVec w → BitVec w

/-- FIPS 180-4, 4.1.2. -/
def sha256Functions : Sha 32 where
  rounds := 64
  Sum0 x := x.rotateRight 2 ^^^ x.rotateRight 13 ^^^ x.rotateRight 22
  Sum1 x := x.rotateRight 6 ^^^ x.rotateRight 11 ^^^ x.rotateRight 25
  sigma0 x := x.rotateRight 7 ^^^ x.rotateRight 18 ^^^ x >>> 3
  sigma1 x := x.rotateRight 17 ^^^ x.rotateRight 19 ^^^ x >>> 10

/-- FIPS 180-4, 4.1.3. -/
def sha512Functions : Sha 64 where
  rounds := 80
  Sum0 x := x.rotateRight 28 ^^^ x.rotateRight 34 ^^^ x.rotateRight 39
  Sum1 x := x.rotateRight 14 ^^^ x.rotateRight 18 ^^^ x.rotateRight 41
  sigma0 x := x.rotateRight 1 ^^^ x.rotateRight 8 ^^^ x >>> 7
  sigma1 x := x.rotateRight 19 ^^^ x.rotateRight 61 ^^^ x >>> 6

namespace Sha

variable {w : Nat} (S : Sha w)

def Ch (x y z : BitVec w) : BitVec w := (x &&& y) ^^^ (~~~x &&& z)
def Maj (x y z : BitVec w) : BitVec w := (x &&& y) ^^^ (x &&& z) ^^^ (y &&& z)

/-- FIPS 180-4, 4.2.2 and 4.2.3: cube roots. -/
def K (t : Nat) : BitVec w := rootBits w 3 (primes.getD t 0)

/-- FIPS 180-4, 6.2.2, step 1: the message schedule of a block. -/
def W (M : Nat → BitVec w) (t : Nat) : BitVec w :=
  if _h : t < 16 then M t else S.sigma1 (W M (t - 2)) + W M (t - 7) + S.sigma0 (W M (t - 15)) + W M (t - 16)
termination_by t

/-- The eight working variables. -/
structure Vars (w : Nat) where
  (a b c d e f g h : BitVec w)

/-- FIPS 180-4, 5.3.3 and 5.3.5: square roots. -/
def initial : Vars w :=
  ⟨rootBits w 2 2, rootBits w 2 3, rootBits w 2 5, rootBits w 2 7, rootBits w 2 11, rootBits w 2 13, rootBits w 2 17, rootBits w 2 19⟩

/-- FIPS 180-4, 6.2.2, step 3: the working variables after `t` rounds on the block `M`. -/
def vars (M : Nat → BitVec w) (H : Vars w) : Nat → Vars w
  | 0 => H
  | t + 1 =>
    let v := vars M H t
    let T1 := v.h + S.Sum1 v.e + Ch v.e v.f v.g + K t + S.W M t
    let T2 := S.Sum0 v.a + Maj v.a v.b v.c
    ⟨T1 + T2, v.a, v.b, v.c, v.d + T1, v.e, v.f, v.g⟩

/-- FIPS 180-4, 6.2.2, step 4: the hash value after a block. -/
def next (M : Nat → BitVec w) (H : Vars w) : Vars w :=
  let v := S.vars M H S.rounds
  ⟨v.a + H.a, v.b + H.b, v.c + H.c, v.d + H.d, v.e + H.e, v.f + H.f, v.g + H.g, v.h + H.h⟩

/-- FIPS 180-4, 5.2: the `t`-th word of the `i`-th block of a padded message, with the first byte most significant. -/
def word (p : Bytes) (i t : Nat) : BitVec w := BitVec.ofNat w (beNat ((p.drop (w / 8 * (16 * i + t))).take (w / 8)))

/-- The hash value after `i` blocks. -/
def value (p : Bytes) : Nat → Vars w
  | 0 => initial
  | i + 1 => S.next (word p i) (value p i)

/-- The bytes of a word, the most significant first. -/
def out (x : BitVec w) : Bytes := (List.range (w / 8)).map fun j => UInt8.ofNat (x.toNat / 256 ^ (w / 8 - 1 - j))

/-- The digest of a padded message. -/
def digest (p : Bytes) : Bytes :=
  let v := S.value p (p.length / (2 * w))
  out v.a ++ out v.b ++ out v.c ++ out v.d ++ out v.e ++ out v.f ++ out v.g ++ out v.h

end Sha

/-- FIPS 180-4, 5.1: a one bit, the least number of zero bits that fill the last block of 16 words, and the number of bits of the message in
two words. -/
def Filled (w : Nat) (m p : Bytes) : Prop :=
  ∃ zeros < 2 * w, p = m ++ [0x80] ++ List.replicate zeros 0 ++
      (List.range (w / 4)).map (fun j => UInt8.ofNat (8 * m.length / 256 ^ (w / 4 - 1 - j))) ∧ p.length % (2 * w) = 0

/-- `d` is the digest of the message `m`. -/
def IsSha {w : Nat} (S : Sha w) (m d : Bytes) : Prop := ∃ p, Filled w m p ∧ d = S.digest p

/-! ## HMAC and HKDF -/

/-- RFC 2104: `H(K xor opad, H(K xor ipad, text))`, where `K` is the key, hashed if it is longer than the block of 64 bytes, and filled
with zeros to 64 bytes. -/
def IsHmac (H : Bytes → Bytes) (key text d : Bytes) : Prop :=
  ∃ k zeros : Bytes, (key.length ≤ 64 ∧ k = key ++ zeros ∨ 64 < key.length ∧ k = H key ++ zeros) ∧ (∀ b ∈ zeros, b = 0) ∧ k.length = 64 ∧
    d = H (k.map (0x5c ^^^ ·) ++ H (k.map (0x36 ^^^ ·) ++ text))

/-- RFC 5869, 2.3: the output blocks. -/
def hkdfT (hmac : Bytes → Bytes → Bytes) (prk info : Bytes) : Nat → Bytes
  | 0 => []
  | i + 1 => hmac prk (hkdfT hmac prk info i ++ info ++ [UInt8.ofNat (i + 1)])

/-- RFC 5869: the first `n` bytes of `T(1) T(2) T(3) …`; without a salt, a string of 32 zeros is used. -/
def IsHkdf (hmac : Bytes → Bytes → Bytes) (secret salt info : Bytes) (n : Nat) (okm : Bytes) : Prop :=
  let prk := hmac (if salt = [] then List.replicate 32 0 else salt) secret
  ∃ blocks, okm = (((List.range blocks).map fun i => hkdfT hmac prk info (i + 1)).flatten).take n ∧ okm.length = n

/-! ## AES -/

/-- FIPS 197, 4.2: the product of two bytes as polynomials over the field of two elements, without reduction. -/
def polyMul (a b : Nat) : Nat := (List.range 8).foldl (fun r i => if b.testBit i then r ^^^ (a <<< i) else r) 0

/-- The remainder of a polynomial of degree at most 14 modulo `x⁸ + x⁴ + x³ + x + 1`. -/
def polyMod (a : Nat) : Nat := [6, 5, 4, 3, 2, 1, 0].foldl (fun r i => if r.testBit (8 + i) then r ^^^ (0x11b <<< i) else r) a

/-- Multiplication in the field of 256 elements. -/
def gmul (a b : UInt8) : UInt8 := UInt8.ofNat (polyMod (polyMul a.toNat b.toNat))

/-- FIPS 197, 5.1.1: the bits of `SubBytes` are an affine function of the bits of the inverse (of zero, for zero). -/
def IsSub (x y : UInt8) : Prop :=
  ∃ inv : UInt8, (x = 0 ∧ inv = 0 ∨ gmul x inv = 1) ∧ ∀ i < 8,
    y.toNat.testBit i = (((((inv.toNat.testBit i ^^ inv.toNat.testBit ((i + 4) % 8)) ^^ inv.toNat.testBit ((i + 5) % 8)) ^^
      inv.toNat.testBit ((i + 6) % 8)) ^^ inv.toNat.testBit ((i + 7) % 8)) ^^ Nat.testBit 0x63 i)

/-- A state: row and column. -/
abbrev Square := Nat → Nat → UInt8

/-- FIPS 197, 3.4: the block fills the state column by column. -/
def Square.ofBytes (b : Bytes) : Square := fun r c => b.getD (r + 4 * c) 0
def Square.toBytes (s : Square) : Bytes := (List.range 16).map fun i => s (i % 4) (i / 4)

/-- FIPS 197, 5.1.2: row `r` is shifted to the left by `r`. -/
def Square.shiftRows (s : Square) : Square := fun r c => s r ((c + r) % 4)

/-- FIPS 197, 5.1.3: each column is multiplied by `3 x³ + x² + x + 2` modulo `x⁴ + 1`. -/
def Square.mixColumns (s : Square) : Square := fun r c =>
  gmul 2 (s r c) ^^^ gmul 3 (s ((r + 1) % 4) c) ^^^ s ((r + 2) % 4) c ^^^ s ((r + 3) % 4) c

/-- FIPS 197, 5.2: the round constants are the powers of `x`. -/
def rcon : Nat → UInt8
  | 0 => 1
  | i + 1 => gmul 2 (rcon i)

section

variable (sub : UInt8 → UInt8)

/-- FIPS 197, 5.2: byte `r` of word `i` of the key schedule, for a key of `nk` words. -/
def keyWord (key : Bytes) (nk : Nat) (i r : Nat) : UInt8 :=
  if _h : i < nk ∨ nk = 0 then key.getD (4 * i + r) 0
  else
    keyWord key nk (i - nk) r ^^^
      (if i % nk = 0 then sub (keyWord key nk (i - 1) ((r + 1) % 4)) ^^^ (if r = 0 then rcon (i / nk - 1) else 0)
       else if 6 < nk ∧ i % nk = 4 then sub (keyWord key nk (i - 1) r)
       else keyWord key nk (i - 1) r)
termination_by i

/-- FIPS 197, 5.1.4: the key of round `n`. -/
def Square.addRoundKey (key : Bytes) (n : Nat) (s : Square) : Square := fun r c => s r c ^^^ keyWord sub key (key.length / 4) (4 * n + c) r

/-- FIPS 197, 5.1: the state after `n` rounds other than the last. -/
def Square.rounds (key : Bytes) (s : Square) : Nat → Square
  | 0 => s.addRoundKey sub key 0
  | n + 1 => Square.addRoundKey sub key (n + 1) (Square.mixColumns (Square.shiftRows fun r c => sub (Square.rounds key s n r c)))

/-- FIPS 197, 5.1: `Cipher`. There are six rounds more than words in the key. -/
def aesCipher (key block : Bytes) : Bytes :=
  let nr := key.length / 4 + 6
  (Square.addRoundKey sub key nr (Square.shiftRows fun r c => sub (Square.rounds sub key (Square.ofBytes block) (nr - 1) r c))).toBytes

end

end Verif.Doc
