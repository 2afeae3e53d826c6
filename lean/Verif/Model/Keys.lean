import Verif.Model.Crypto

/-!
# Curve keys and identity keys (`protocol/curve`, `protocol/identity/keys.go`)
-/

namespace Verif

/-- protocol/curve/djb_public.go:12-26 — a `*DJBPublicKey`; its constructor only accepts 32 bytes, so the length
is part of the type; its type byte (protocol/curve/djb_public.go:28-30) is always 5. An `identity.Key` (protocol/identity/keys.go:19-22,
its getters protocol/identity/keys.go:37-44) wraps exactly one of these. -/
structure PubKey where
  key : Bytes
  len : key.length = 32
deriving DecidableEq

/-- protocol/curve/curve25519/curve25519.go:33-39 — a private key, represented by its clamped bytes.
Simplification: the unclamped copy inside `ecdhKey` is dropped because X25519 clamps it on use. -/
structure PrivKey where
  key : Bytes
  len : key.length = 32
  clamped : clamp key = key
deriving DecidableEq

/-- protocol/curve/pair.go:6-9, protocol/identity/keys.go:64-67 — a key pair. `NewKeyPair` (protocol/identity/keys.go:89-94) does not check
that the halves belong together. The getters are protocol/curve/pair.go:50-57 and protocol/identity/keys.go:97-109. -/
structure KeyPair where
  priv : PrivKey
  pub : PubKey
deriving DecidableEq

/-- protocol/curve/djb_public.go:18-26. -/
def newDJBPublicKey (key : Bytes) : Res PubKey :=
  if h : key.length = 32 then .ok ⟨key, h⟩ else .err (.invalidKeyLength 32 key.length)

/-- protocol/curve/public.go:34-49 — `NewPublicKey`: type byte 5, then 32 bytes; trailing data is ignored. -/
def newPublicKey (key : Bytes) : Res PubKey :=
  if key.length < 1 + 32 then .err (.invalidKeyLength (1 + 32) key.length)
  else if key.head? = some 5 then newDJBPublicKey ((key.drop 1).take 32)
  else .err .unsupportedKeyType

/-- protocol/curve/djb_public.go:32-37 — `PublicKey.Bytes`. -/
def PubKey.bytes (p : PubKey) : Bytes := 5 :: p.key

/-- protocol/curve/djb_public.go:39-43 — `PublicKey.KeyBytes`. -/
def PubKey.keyBytes (p : PubKey) : Bytes := p.key

/-- protocol/curve/djb_public.go:45-48 — `PublicKey.Equal` (constant-time comparison of the key bytes). -/
def PubKey.equal (p q : PubKey) : Bool := p.keyBytes == q.keyBytes

/-- protocol/curve/private.go:26-32, protocol/curve/djb_private.go:32-41, protocol/curve/curve25519/curve25519.go:60-90 — `NewPrivateKey`. -/
def newPrivateKey (key : Bytes) : Res PrivKey :=
  if h : key.length = 32 then .ok ⟨clamp key, by simpa using h, clamp_idem key⟩
  else .err (.invalidKeyLength 32 key.length)

/-- protocol/curve/djb_private.go:43-45 — `PrivateKey.Bytes`. -/
def PrivKey.bytes (p : PrivKey) : Bytes := p.key

/-- protocol/curve/djb_private.go:47-50 — `PrivateKey.PublicKey`. -/
def PrivKey.pub (C : Crypto) (p : PrivKey) : PubKey := ⟨C.pub p.key, C.pub_len p.key⟩

/-- protocol/curve/djb_private.go:52-54, protocol/curve/pair.go:61-63, protocol/curve/curve25519/curve25519.go:108-119 — `Agreement`.
The length check cannot fail for a `PubKey`. -/
def PrivKey.agreement (C : Crypto) (p : PrivKey) (q : PubKey) : Res Bytes :=
  Res.ofOption .lowOrderPoint (C.dh p.key q.keyBytes)

/-- protocol/curve/djb_private.go:56-58, protocol/curve/pair.go:70-72, protocol/curve/curve25519/curve25519.go:127-184 — `Sign`: reads 64
random bytes, then signs the concatenation of the messages. -/
def PrivKey.sign (C : Crypto) (p : PrivKey) (messages : List Bytes) : M Bytes Bytes := do
  let z ← readFull 64
  return C.sign p.key z messages.flatten

/-- protocol/curve/djb_public.go:50-56, protocol/curve/curve25519/curve25519.go:190-208 — `VerifySignature`. -/
def PubKey.verifySignature (C : Crypto) (p : PubKey) (signature : Bytes) (messages : List Bytes) : Res Bool :=
  if signature.length ≠ 64 then .ok false
  else Res.ofOption .invalidUPoint (C.verify p.key messages.flatten signature)

/-- protocol/curve/djb_private.go:20-29, protocol/curve/curve25519/curve25519.go:45-57 — `GeneratePrivateKey`. -/
def generatePrivateKey : M Bytes PrivKey := do
  let key ← readFull 32
  M.lift (newPrivateKey key)

/-- protocol/curve/pair.go:15-27 — `GenerateKeyPair`; protocol/identity/keys.go:73-85 wraps it. -/
def generateKeyPair (C : Crypto) : M Bytes KeyPair := do
  let priv ← generatePrivateKey
  return { priv := priv, pub := priv.pub C }

/-- protocol/curve/pair.go:33-47 — `NewKeyPair`. -/
def newKeyPair (privateKey publicKey : Bytes) : Res KeyPair := do
  let priv ← newPrivateKey privateKey
  let pub ← newPublicKey publicKey
  return { priv := priv, pub := pub }

/-- protocol/identity/keys.go:24-34 — `identity.NewKey`. -/
def newIdentityKey (key : Bytes) : Res PubKey := newPublicKey key

/-- protocol/identity/keys.go:10-17 — prefixes of an alternate-identity proof. -/
def alternatePrefix1 : Bytes := List.replicate 32 0xFF
/-- protocol/identity/keys.go:10-17 — the second prefix, "Signal_PNI_Signature". -/
def alternatePrefix2 : Bytes :=
  [0x53, 0x69, 0x67, 0x6e, 0x61, 0x6c, 0x5f, 0x50, 0x4e, 0x49, 0x5f, 0x53, 0x69, 0x67, 0x6e, 0x61, 0x74, 0x75,
   0x72, 0x65]

/-- protocol/identity/keys.go:113-119 — `SignAlternateIdentity`. -/
def KeyPair.signAlternateIdentity (C : Crypto) (k : KeyPair) (other : PubKey) : M Bytes Bytes :=
  k.priv.sign C [alternatePrefix1, alternatePrefix2, other.bytes]

/-- protocol/identity/keys.go:50-56 — `VerifyAlternateIdentity`. -/
def PubKey.verifyAlternateIdentity (C : Crypto) (k : PubKey) (signature : Bytes) (other : PubKey) : Res Bool :=
  k.verifySignature C signature [alternatePrefix1, alternatePrefix2, other.bytes]

/-! ## Basic facts -/

@[simp] theorem PubKey.bytes_length (p : PubKey) : p.bytes.length = 33 := by simp [PubKey.bytes, p.len]
@[simp] theorem PubKey.keyBytes_length (p : PubKey) : p.keyBytes.length = 32 := p.len
@[simp] theorem PrivKey.bytes_length (p : PrivKey) : p.bytes.length = 32 := p.len

theorem PubKey.ext' {p q : PubKey} (h : p.key = q.key) : p = q := by cases p; cases q; simp_all
theorem PrivKey.ext' {p q : PrivKey} (h : p.key = q.key) : p = q := by cases p; cases q; simp_all

theorem PubKey.bytes_inj {p q : PubKey} (h : p.bytes = q.bytes) : p = q := by
  simp [PubKey.bytes] at h; exact PubKey.ext' h

theorem newPublicKey_append (p : PubKey) (rest : Bytes) : newPublicKey (p.bytes ++ rest) = .ok p := by
  have hl := p.len
  have h1 : (p.bytes ++ rest).length = 33 + rest.length := by simp
  have h2 : (p.bytes ++ rest).head? = some 5 := by simp [PubKey.bytes]
  have h3 : ((p.bytes ++ rest).drop 1).take 32 = p.key := by simp [PubKey.bytes, ← hl]
  generalize p.bytes ++ rest = k at *
  have h4 : ¬ k.length < 1 + 32 := by omega
  simp only [newPublicKey, newDJBPublicKey, h2, h3, h4, hl, if_true, if_false, dite_true]

@[simp] theorem newPublicKey_bytes (p : PubKey) : newPublicKey p.bytes = .ok p := by
  have := newPublicKey_append p []
  simpa using this

@[simp] theorem newIdentityKey_bytes (p : PubKey) : newIdentityKey p.bytes = .ok p := newPublicKey_bytes p

@[simp] theorem newPrivateKey_bytes (p : PrivKey) : newPrivateKey p.bytes = .ok p := by
  have hl := p.len
  have hc := p.clamped
  simp only [newPrivateKey, PrivKey.bytes, hl, dite_true]
  congr 1
  exact PrivKey.ext' hc

theorem newPublicKey_ok_iff {k : Bytes} {p : PubKey} :
    newPublicKey k = .ok p ↔ ∃ rest, k = p.bytes ++ rest := by
  constructor
  · intro h
    simp only [newPublicKey, newDJBPublicKey] at h
    split at h
    · simp at h
    · split at h
      · rename_i h1 h2
        split at h
        · simp only [Res.ok.injEq] at h
          subst h
          match k, h2 with
          | b :: k', h2 =>
            simp at h2
            exact ⟨k'.drop 32, by simp [PubKey.bytes, h2]⟩
        · simp at h
      · simp at h
  · rintro ⟨rest, rfl⟩
    exact newPublicKey_append p rest

@[simp] theorem PubKey.equal_iff (p q : PubKey) : p.equal q = true ↔ p = q := by
  simp only [PubKey.equal, PubKey.keyBytes, beq_iff_eq]
  exact ⟨fun h => PubKey.ext' h, fun h => by rw [h]⟩

/-- Honest Diffie-Hellman agrees and succeeds. -/
theorem agreement_honest (C : Crypto) (a b : PrivKey) :
    ∃ s, a.agreement C (b.pub C) = .ok s ∧ b.agreement C (a.pub C) = .ok s ∧ s.length = 32 := by
  have hc := C.dh_comm a.key b.key a.len b.len a.clamped b.clamped
  have hh := C.dh_honest a.key b.key a.len b.len a.clamped b.clamped
  obtain ⟨s, hs⟩ := Option.isSome_iff_exists.mp hh
  refine ⟨s, ?_, ?_, C.dh_len _ _ _ hs⟩
  · simp [PrivKey.agreement, PubKey.keyBytes, PrivKey.pub, hs]
  · simp [PrivKey.agreement, PubKey.keyBytes, PrivKey.pub, ← hc, hs]

theorem agreement_length (C : Crypto) (a : PrivKey) (q : PubKey) (s : Bytes)
    (h : a.agreement C q = .ok s) : s.length = 32 := by
  simp only [PrivKey.agreement] at h
  cases hd : C.dh a.key q.keyBytes with
  | none => simp [hd] at h
  | some t => simp [hd] at h; subst h; exact C.dh_len _ _ _ hd

/-- A key pair whose public half belongs to its private half. (what protocol/curve/pair.go:15-26 establishes.) -/
def KeyPair.Matched (C : Crypto) (k : KeyPair) : Prop := k.pub = k.priv.pub C

theorem generateKeyPair_run (C : Crypto) (r : Bytes) (hr : 32 ≤ r.length) :
    ∃ k, generateKeyPair C r = (.ok k, r.drop 32) ∧ k.priv.key = clamp (r.take 32) ∧ k.Matched C := by
  have hl : (r.take 32).length = 32 := by simp [hr]
  refine ⟨⟨⟨clamp (r.take 32), by simp [hr], clamp_idem _⟩, PrivKey.pub C ⟨clamp (r.take 32), by simp [hr], clamp_idem _⟩⟩, ?_, rfl, rfl⟩
  simp only [generateKeyPair, generatePrivateKey, M.bind_run, readFull_ok 32 r hr, newPrivateKey, hl, dite_true,
    M.lift_run, M.pure_run]

theorem generateKeyPair_short (C : Crypto) (r : Bytes) (hr : ¬ 32 ≤ r.length) :
    generateKeyPair C r = (.err .io, []) := by
  simp only [generateKeyPair, generatePrivateKey, M.bind_run, readFull_short 32 r hr]

theorem generateKeyPair_ok {C : Crypto} {r r' : Bytes} {k : KeyPair}
    (h : generateKeyPair C r = (.ok k, r')) :
    32 ≤ r.length ∧ k.priv.key = clamp (r.take 32) ∧ k.Matched C ∧ r' = r.drop 32 := by
  by_cases hr : 32 ≤ r.length
  · obtain ⟨k', h1, h2, h3⟩ := generateKeyPair_run C r hr
    rw [h1] at h
    simp only [Prod.mk.injEq, Res.ok.injEq] at h
    obtain ⟨rfl, rfl⟩ := h
    exact ⟨hr, h2, h3, rfl⟩
  · rw [generateKeyPair_short C r hr] at h
    simp at h

end Verif
