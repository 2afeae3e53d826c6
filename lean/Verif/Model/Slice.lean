import Verif.Model.Aes

/-!
# Slices and backing arrays

`Bytes` forgets where a slice lives. This file keeps it: a heap of byte arrays, slices as windows into them, Go's
built-in `append`, and `CBCEncrypt` on top of it. It exists for the question which caller memory encryption writes.
-/

namespace Verif

/-- The backing arrays, by allocation number. (for protocol/crypto/aes/aes.go:66-70.) -/
abbrev Heap := List Bytes

/-- A Go slice header: array, offset, length, capacity (Go language specification, "Slice types").
(for protocol/crypto/aes/aes.go:66-70.) -/
structure Slice where
  arr : Nat
  off : Nat
  len : Nat
  cap : Nat
deriving DecidableEq

/-- Contents of one array. (for protocol/crypto/aes/aes.go:66-70.) -/
def Heap.array (h : Heap) (i : Nat) : Bytes := h[i]?.getD []

/-- The bytes a slice shows. (for protocol/crypto/aes/aes.go:66-70.) -/
def Heap.read (h : Heap) (s : Slice) : Bytes := ((h.array s.arr).drop s.off).take s.len

/-- A slice header a Go program can hold: the window lies inside the array. (for protocol/crypto/aes/aes.go:66-70.) -/
def Heap.Valid (h : Heap) (s : Slice) : Prop :=
  s.arr < h.length ∧ s.len ≤ s.cap ∧ s.off + s.cap ≤ (h.array s.arr).length

/-- Overwrite `bs` at offset `i` of an array. (for protocol/crypto/aes/aes.go:69.) -/
def overwrite (a : Bytes) (i : Nat) (bs : Bytes) : Bytes := a.take i ++ bs ++ a.drop (i + bs.length)

/-- Go's `append(s, bs...)`: in place when the capacity suffices, otherwise a fresh array (the extra capacity of
the fresh array is left out, nothing observes it here). (protocol/crypto/aes/aes.go:69.) -/
def goAppend (h : Heap) (s : Slice) (bs : Bytes) : Slice × Heap :=
  if s.len + bs.length ≤ s.cap then
    ({ s with len := s.len + bs.length }, h.modify s.arr fun a => overwrite a (s.off + s.len) bs)
  else
    (⟨h.length, 0, s.len + bs.length, s.len + bs.length⟩, h ++ [h.read s ++ bs])

/-- protocol/crypto/aes/aes.go:66-70 — `pkcs7pad` with its effect on memory. -/
def pkcs7padSlice (h : Heap) (s : Slice) : Slice × Heap :=
  let n := 16 - s.len % 16
  goAppend h s (List.replicate n (UInt8.ofNat n))

/-- protocol/crypto/aes/aes.go:13-33 — `CBCEncrypt` with its effect on memory; the ciphertext is a fresh array.
Key and IV are read before the padding is written (`aes.NewCipher` expands the key, `NewCBCEncrypter` copies the IV). -/
def cbcEncryptSlice (C : Crypto) (key iv : Bytes) (plaintext : Slice) : M Heap Slice := fun h =>
  if aesKeyOk key = false then (.err .badAESKey, h)
  else if iv.length ≠ 16 then (.err .badIV, h)
  else
    let (padded, h') := pkcs7padSlice h plaintext
    let out := cbcEncBlocks C key (padded.len / 16) iv (h'.read padded)
    (.ok ⟨h'.length, 0, out.length, out.length⟩, h' ++ [out])

end Verif
