import Verif.Model.Keys
import Verif.Model.Uuid

/-!
# The protocol on paper

What the Signal protocol prescribes for the bytes of a message, a sender-key message and a safety number, as closed formulas over
the primitives. Of the model this file uses only the primitives (`Crypto`) and the types of keys and distribution ids; none of the
functions that model the library's code. It covers the public descriptions of X3DH and the Double Ratchet with the constants of
Signal's own implementation.
-/

namespace Verif.Doc

/-! ## Encodings -/

/-- The bytes of an ASCII text. -/
def ascii (s : String) : Bytes := s.toList.map fun c => UInt8.ofNat c.toNat

/-- Base-128 number, least significant group first; all bytes but the last have the top bit set. -/
def varint (n : Nat) : Bytes := if n < 128 then [UInt8.ofNat n] else UInt8.ofNat (n % 128 + 128) :: varint (n / 128)

/-- Protobuf field with a number. -/
def number (field : Nat) (v : UInt32) : Bytes := UInt8.ofNat (8 * field) :: varint v.toNat

/-- Protobuf field with a byte string. -/
def bytes (field : Nat) (b : Bytes) : Bytes := UInt8.ofNat (8 * field + 2) :: (varint b.length ++ b)

/-- A public key on the wire: type 5, then the 32 bytes. -/
def wireKey (k : PubKey) : Bytes := 5 :: k.key

/-- Two lower-case hexadecimal digits. -/
def hex (b : UInt8) : Bytes :=
  let digit (n : Nat) : UInt8 := (ascii "0123456789abcdef").getD n 0
  [digit (b.toNat / 16), digit (b.toNat % 16)]

/-- The text of a UUID: hexadecimal digits with a dash before bytes 4, 6, 8 and 10. -/
def uuid (id : Bytes) : Bytes :=
  (List.range 16).flatMap fun i => (if i ∈ [4, 6, 8, 10] then ascii "-" else []) ++ hex (id.getD i 0)

/-- Version byte: this version and the oldest supported one are 3. -/
def version : UInt8 := 0x33

/-! ## Symmetric encryption -/

/-- PKCS#7: 1 to 16 bytes, each the number of bytes added. -/
def pad (p : Bytes) : Bytes := p ++ List.replicate (16 - p.length % 16) (UInt8.ofNat (16 - p.length % 16))

/-- The 16-byte blocks of a padded text. -/
def blocks (p : Bytes) : List Bytes := (List.range (p.length / 16)).map fun i => (p.drop (16 * i)).take 16

/-- Cipher block chaining: every block is XORed with the ciphertext block before it. -/
def chain (C : Crypto) (key : Bytes) : Bytes → List Bytes → Bytes
  | _, [] => []
  | prev, b :: bs =>
    let c := C.aesEnc key (List.zipWith (· ^^^ ·) prev b)
    c ++ chain C key c bs

def aesCbc (C : Crypto) (key iv plaintext : Bytes) : Bytes := chain C key iv (blocks (pad plaintext))

/-! ## Key schedule of a pairwise session -/

/-- A root key and a chain key. -/
structure Keys where
  root : Bytes
  chain : Bytes

/-- 64 bytes of HKDF output, split in two. -/
def derive (C : Crypto) (secret salt info : Bytes) : Keys :=
  let out := C.hkdf secret salt info 64
  ⟨out.take 32, out.drop 32⟩

/-- X25519. -/
def agree (C : Crypto) (ours : KeyPair) (theirs : PubKey) : Bytes := (C.dh ours.priv.key theirs.key).getD []

/-- X3DH as Alice computes it: identity with signed pre-key, base with identity, base with signed pre-key, base with one-time
pre-key if there is one; preceded by 32 bytes FF. -/
def x3dh (C : Crypto) (identity base : KeyPair) (theirIdentity theirSigned : PubKey) (theirOneTime : Option PubKey) : Keys :=
  derive C (List.replicate 32 0xFF ++ agree C identity theirSigned ++ agree C base theirIdentity ++ agree C base theirSigned ++
    match theirOneTime with
    | some k => agree C base k
    | none => []) [] (ascii "WhisperText")

/-- The root and chain keys after each turn of the Diffie-Hellman ratchet. Turn 0 is X3DH; the ratchet keys are made by Bob (the
signed pre-key, number 0), Alice (1), Bob (2) and so on in turn, and each is combined with the one before it. -/
def ratchet (C : Crypto) (start : Keys) (keys : Nat → KeyPair) : Nat → Keys
  | 0 => start
  | i + 1 => derive C (agree C (keys (i + 1)) (keys i).pub) (ratchet C start keys i).root (ascii "WhisperRatchet")

/-- The chain key for the `n`-th message of a chain. -/
def chainKey (C : Crypto) (first : Bytes) : Nat → Bytes
  | 0 => first
  | n + 1 => C.hmac (chainKey C first n) [2]

/-- Cipher key (32 bytes), MAC key (32) and IV (16) of the `n`-th message of a chain. -/
def messageSecrets (C : Crypto) (first : Bytes) (n : Nat) : Bytes :=
  C.hkdf (C.hmac (chainKey C first n) [1]) [] (ascii "WhisperMessageKeys") 80

/-! ## Pairwise messages -/

/-- A Signal message: the `n`-th of the chain that starts with the chain key `first` under this ratchet key; `previous` is the
number of the last message of the sender's chain before. -/
def signalMessage (C : Crypto) (first : Bytes) (ratchetKey : PubKey) (n previous : UInt32) (sender receiver : PubKey) (plaintext : Bytes) : Bytes :=
  let secrets := messageSecrets C first n.toNat
  let body := version :: (bytes 1 (wireKey ratchetKey) ++ number 2 n ++ number 3 previous ++
    bytes 4 (aesCbc C (secrets.take 32) (secrets.drop 64) plaintext))
  body ++ (C.hmac ((secrets.drop 32).take 32) (wireKey sender ++ wireKey receiver ++ body)).take 8

/-- A Signal message in a pre-key envelope. -/
def preKeyMessage (registration : UInt32) (oneTime : Option UInt32) (signed : UInt32) (base identity : PubKey) (message : Bytes) : Bytes :=
  version :: ((match oneTime with
    | some id => number 1 id
    | none => []) ++ bytes 2 (wireKey base) ++ bytes 3 (wireKey identity) ++ bytes 4 message ++ number 5 registration ++ number 6 signed)

/-! ## Group messages -/

/-- IV (16 bytes) and cipher key (32) of the `n`-th message of a sender-key chain. -/
def groupSecrets (C : Crypto) (first : Bytes) (n : Nat) : Bytes :=
  C.hkdf (C.hmac (chainKey C first n) [1]) [] (ascii "WhisperGroup") 48

/-- What is signed in a sender-key message. -/
def groupBody (C : Crypto) (dist : DistId) (chainId : UInt32) (first : Bytes) (n : UInt32) (plaintext : Bytes) : Bytes :=
  let secrets := groupSecrets C first n.toNat
  version :: (bytes 1 (uuid dist.id) ++ number 2 chainId ++ number 3 n ++ bytes 4 (aesCbc C (secrets.drop 16) (secrets.take 16) plaintext))

/-- A sender-key message; `z` is the randomness of the signature. -/
def groupMessage (C : Crypto) (dist : DistId) (chainId : UInt32) (first : Bytes) (signing : KeyPair) (n : UInt32) (plaintext z : Bytes) : Bytes :=
  groupBody C dist chainId first n plaintext ++ C.sign signing.priv.key z (groupBody C dist chainId first n plaintext)

/-- A sender-key distribution message that gives access from the `n`-th message on. -/
def distributionMessage (C : Crypto) (dist : DistId) (chainId : UInt32) (first : Bytes) (signing : PubKey) (n : UInt32) : Bytes :=
  version :: (bytes 1 (uuid dist.id) ++ number 2 chainId ++ number 3 n ++ bytes 4 (chainKey C first n.toNat) ++ bytes 5 (wireKey signing))

/-! ## Safety numbers -/

/-- `n` rounds of SHA-512 over a user's key and identifier. -/
def fingerprint (C : Crypto) (key : PubKey) (id : Bytes) : Nat → Bytes
  | 0 => [0, 0] ++ wireKey key ++ id
  | n + 1 => C.sha512 (fingerprint C key id n ++ wireKey key)

/-- Value of a byte string, most significant byte first. -/
def bigEndian : Bytes → Nat
  | [] => 0
  | b :: bs => b.toNat * 256 ^ bs.length + bigEndian bs

/-- Five decimal digits. -/
def fiveDigits (n : Nat) : Bytes := [10000, 1000, 100, 10, 1].map fun p => (ascii "0123456789").getD (n / p % 10) 0

/-- The 30 digits of a hash: six groups of five bytes, each modulo 100000. -/
def digits (hash : Bytes) : Bytes := (List.range 6).flatMap fun i => fiveDigits (bigEndian ((hash.drop (5 * i)).take 5) % 100000)

/-- The 60 digits shown to both users: the smaller text first. -/
def displayed (l r : Bytes) : Bytes := if digits l ≤ digits r then digits l ++ digits r else digits r ++ digits l

/-- The code in the QR image. -/
def scanned (version : UInt32) (l r : Bytes) : Bytes :=
  number 1 version ++ bytes 2 (bytes 1 (l.take 32)) ++ bytes 3 (bytes 1 (r.take 32))

end Verif.Doc
