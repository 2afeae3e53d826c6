import Verif.Spec.Secrecy

/-!
# Primitives and stores that fit what was seen

Somebody who has seen part of what happened cannot know a secret if another value of the secret fits all they have seen. Here are the
changes to the primitives and to the stores with which the theorems say so: HKDF with another output for one single input, AES with
another permutation under one single key, and a session with other secrets.
-/

namespace Verif

/-- The primitives, except that HKDF gives `out` for one single input. -/
def Crypto.withHkdf (C : Crypto) (ikm salt info out : Bytes) : Crypto :=
  { C with hkdf := fun i s t n => if i = ikm ∧ s = salt ∧ t = info ∧ n = out.length then out else C.hkdf i s t n
           hkdf_len := fun i s t n => by
             split
             · rename_i h; exact h.2.2.2.symm
             · exact C.hkdf_len _ _ _ _ }

/-- The state with another root key, another private half of the own ratchet key, and another key of the sending chain. -/
def SState.withRatchetSecrets (s : SState) (root priv chain : Bytes) : SState :=
  { s with
    rootKey := root
    senderChain := s.senderChain.map fun c =>
      { c with senderRatchetKeyPrivate := priv, chainKey := c.chainKey.map fun ck => { ck with key := chain } } }

/-- The stores with these three secrets replaced in the current session with `a`. -/
def World.withRatchetSecrets (w : World) (a : Address) (root priv chain : Bytes) : World :=
  { w with sessions := upd w.sessions a ((w.sessions a).map fun r =>
      { r with current := r.current.map fun s => s.withRatchetSecrets root priv chain }) }

/-- The private half of the own ratchet key of a state. -/
def SState.ratchetPrivate (s : SState) : Bytes := (s.senderChain.map PBChain.senderRatchetKeyPrivate).getD []

/-- The state with another root key and another key of the sending chain. -/
def SState.withNextSecrets (s : SState) (root chain : Bytes) : SState :=
  { s.withSenderKey chain with rootKey := root }

/-- The stores with these two secrets replaced in the current session with `a`. -/
def World.withNextSecrets (w : World) (a : Address) (root chain : Bytes) : World :=
  { w with sessions := upd w.sessions a ((w.sessions a).map fun r =>
      { r with current := r.current.map fun s => s.withNextSecrets root chain }) }

/-- Block `i` of a byte string. -/
def block (b : Bytes) (i : Nat) : Bytes := (b.drop (16 * i)).take 16

/-- The two primitives are the same, except for AES under the key `k`. -/
structure Crypto.SameButAes (C C' : Crypto) (k : Bytes) : Prop where
  hmac : C'.hmac = C.hmac
  hkdf : C'.hkdf = C.hkdf
  sha512 : C'.sha512 = C.sha512
  pub : C'.pub = C.pub
  dh : C'.dh = C.dh
  sign : C'.sign = C.sign
  verify : C'.verify = C.verify
  enc : ∀ k' b, k' ≠ k → C'.aesEnc k' b = C.aesEnc k' b
  dec : ∀ k' b, k' ≠ k → C'.aesDec k' b = C.aesDec k' b

/-- A content fits a ciphertext body, for the initialisation vector `iv`, when it has the same number of blocks after padding, and when CBC
mode would feed the same block to AES at two places exactly if the body has the same block at these places. -/
def Fits (iv body content : Bytes) : Prop :=
  body.length = 16 * (content.length / 16 + 1) ∧
  ∀ i j, i < body.length / 16 → j < body.length / 16 →
    (xorBytes (block (iv ++ body) i) (block (pkcs7pad content) i) = xorBytes (block (iv ++ body) j) (block (pkcs7pad content) j) ↔
      block body i = block body j)

/-- What a session set-up feeds to HKDF: 32 bytes 0xFF and the shared secrets. -/
def setUpInput (dh1 dh2 dh3 dh4 : Bytes) : Bytes := List.replicate 32 0xFF ++ dh1 ++ dh2 ++ dh3 ++ dh4

/-- The state with another root key, another key of the sending chain and another key in every receiving chain. -/
def SState.withSetUpSecrets (s : SState) (root send recv : Bytes) : SState :=
  { s.withNextSecrets root send with
    receiverChains := s.receiverChains.map fun c => { c with chainKey := c.chainKey.map fun ck => { ck with key := recv } } }

/-- The stores with these secrets replaced in the current session with `a`. -/
def World.withSetUpSecrets (w : World) (a : Address) (root send recv : Bytes) : World :=
  { w with sessions := upd w.sessions a ((w.sessions a).map fun r =>
      { r with current := r.current.map fun s => s.withSetUpSecrets root send recv }) }

end Verif
