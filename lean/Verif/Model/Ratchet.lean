import Verif.Model.Keys

/-!
# Double-ratchet keys (`protocol/ratchet`) and sender keys (`protocol/senderkey`)
-/

namespace Verif

/-- ASCII "WhisperMessageKeys" — protocol/ratchet/keys.go:18. -/
def messageKeysInfo : Bytes :=
  [0x57, 0x68, 0x69, 0x73, 0x70, 0x65, 0x72, 0x4d, 0x65, 0x73, 0x73, 0x61, 0x67, 0x65, 0x4b, 0x65, 0x79, 0x73]
/-- ASCII "WhisperRatchet" — protocol/ratchet/keys.go:23. -/
def rootInfo : Bytes := [0x57, 0x68, 0x69, 0x73, 0x70, 0x65, 0x72, 0x52, 0x61, 0x74, 0x63, 0x68, 0x65, 0x74]
/-- ASCII "WhisperText" — protocol/ratchet/ratchet.go:12. -/
def initRootInfo : Bytes := [0x57, 0x68, 0x69, 0x73, 0x70, 0x65, 0x72, 0x54, 0x65, 0x78, 0x74]
/-- ASCII "WhisperGroup" — protocol/senderkey/keys.go:16. -/
def groupInfo : Bytes := [0x57, 0x68, 0x69, 0x73, 0x70, 0x65, 0x72, 0x47, 0x72, 0x6f, 0x75, 0x70]

/-- protocol/ratchet/keys.go:32-38, with the getters at protocol/ratchet/keys.go:81-99. -/
structure MessageKeys where
  cipherKey : Bytes
  macKey : Bytes
  iv : Bytes
  counter : UInt32
deriving DecidableEq

/-- protocol/ratchet/keys.go:41-58 — `NewMessageKeys`. -/
def newMessageKeys (cipherKey macKey iv : Bytes) (counter : UInt32) : Res MessageKeys :=
  if cipherKey.length ≠ 32 then .err (.invalidKeyLength 32 cipherKey.length)
  else if macKey.length ≠ 32 then .err (.invalidKeyLength 32 macKey.length)
  else if iv.length ≠ 16 then .err (.invalidKeyLength 16 iv.length)
  else .ok ⟨cipherKey, macKey, iv, counter⟩

/-- protocol/ratchet/keys.go:63-78 — `DeriveMessageKeys`. HKDF-SHA256 never fails for 80 bytes, so the error
return is dropped. -/
def deriveMessageKeys (C : Crypto) (ikm : Bytes) (counter : UInt32) : MessageKeys :=
  let okm := C.hkdf ikm [] messageKeysInfo 80
  { cipherKey := okm.take 32, macKey := (okm.drop 32).take 32, iv := okm.drop 64, counter := counter }

/-- protocol/ratchet/keys.go:103-106, with the getters at protocol/ratchet/keys.go:122-129. -/
structure ChainKey where
  key : Bytes
  index : UInt32
deriving DecidableEq

/-- protocol/ratchet/keys.go:109-118 — `NewChainKey`. -/
def newChainKey (key : Bytes) (index : UInt32) : Res ChainKey :=
  if key.length ≠ 32 then .err (.invalidKeyLength 32 key.length) else .ok ⟨key, index⟩

/-- protocol/ratchet/keys.go:147-153 — `hash`. -/
def chainHash (C : Crypto) (key seed : Bytes) : Bytes := C.hmac key seed

/-- protocol/ratchet/keys.go:133-138 — `ChainKey.Next`; the index is a wrapping `uint32`. -/
def ChainKey.next (C : Crypto) (c : ChainKey) : ChainKey :=
  { key := chainHash C c.key [2], index := c.index + 1 }

/-- protocol/ratchet/keys.go:142-144 — `ChainKey.MessageKeys`. -/
def ChainKey.messageKeys (C : Crypto) (c : ChainKey) : MessageKeys :=
  deriveMessageKeys C (chainHash C c.key [1]) c.index

/-- protocol/ratchet/keys.go:156-158, with the getter at protocol/ratchet/keys.go:172-174. -/
structure RootKey where
  key : Bytes
deriving DecidableEq

/-- protocol/ratchet/keys.go:161-169 — `NewRootKey`. -/
def newRootKey (key : Bytes) : Res RootKey :=
  if key.length ≠ 32 then .err (.invalidKeyLength 32 key.length) else .ok ⟨key⟩

/-- protocol/ratchet/keys.go:178-202 — `RootKey.CreateChain`. HKDF cannot fail for 64 bytes. -/
def RootKey.createChain (C : Crypto) (r : RootKey) (ours : PrivKey) (theirs : PubKey) : Res (RootKey × ChainKey) := do
  let secret ← ours.agreement C theirs
  let derived := C.hkdf secret r.key rootInfo 64
  let rootKey ← newRootKey (derived.take 32)
  let chainKey ← newChainKey (derived.drop 32) 0
  return (rootKey, chainKey)

/-- protocol/ratchet/ratchet.go:16-35 — `DeriveKeys`. -/
def deriveKeys (C : Crypto) (secretInput : Bytes) : Res (RootKey × ChainKey) := do
  let secrets := C.hkdf secretInput [] initRootInfo 64
  let rootKey ← newRootKey (secrets.take 32)
  let chainKey ← newChainKey (secrets.drop 32) 0
  return (rootKey, chainKey)

/-- protocol/senderkey/keys.go:24-29, with the getters at protocol/senderkey/keys.go:48-62. -/
structure SKMessageKey where
  cipherKey : Bytes
  iv : Bytes
  seed : Bytes
  iteration : UInt32
deriving DecidableEq

/-- protocol/senderkey/keys.go:31-46 — `DeriveMessageKey`. HKDF cannot fail for 48 bytes. -/
def deriveSKMessageKey (C : Crypto) (seed : Bytes) (iteration : UInt32) : SKMessageKey :=
  let derived := C.hkdf seed [] groupInfo 48
  { cipherKey := derived.drop 16, iv := derived.take 16, seed := seed, iteration := iteration }

/-- protocol/senderkey/keys.go:64-74, with the getters at protocol/senderkey/keys.go:76-82. -/
structure SKChainKey where
  seed : Bytes
  iteration : UInt32
deriving DecidableEq

/-- protocol/senderkey/keys.go:84-89 — `ChainKey.Next`. -/
def SKChainKey.next (C : Crypto) (c : SKChainKey) : SKChainKey :=
  { seed := chainHash C c.seed [2], iteration := c.iteration + 1 }

/-- protocol/senderkey/keys.go:91-93 — `ChainKey.MessageKey`. -/
def SKChainKey.messageKey (C : Crypto) (c : SKChainKey) : SKMessageKey :=
  deriveSKMessageKey C (chainHash C c.seed [1]) c.iteration

/-! ## Facts -/

@[simp] theorem messageKeys_counter (C : Crypto) (c : ChainKey) : (c.messageKeys C).counter = c.index := rfl
theorem messageKeys_cipherKey_len (C : Crypto) (c : ChainKey) : (c.messageKeys C).cipherKey.length = 32 := by
  simp [ChainKey.messageKeys, deriveMessageKeys, C.hkdf_len]
theorem messageKeys_macKey_len (C : Crypto) (c : ChainKey) : (c.messageKeys C).macKey.length = 32 := by
  simp [ChainKey.messageKeys, deriveMessageKeys, C.hkdf_len]
theorem messageKeys_iv_len (C : Crypto) (c : ChainKey) : (c.messageKeys C).iv.length = 16 := by
  simp [ChainKey.messageKeys, deriveMessageKeys, C.hkdf_len]
@[simp] theorem next_key_len (C : Crypto) (c : ChainKey) : (c.next C).key.length = 32 := C.hmac_len _ _
@[simp] theorem next_index (C : Crypto) (c : ChainKey) : (c.next C).index = c.index + 1 := rfl

theorem deriveKeys_ok (C : Crypto) (s : Bytes) :
    deriveKeys C s = .ok (⟨(C.hkdf s [] initRootInfo 64).take 32⟩, ⟨(C.hkdf s [] initRootInfo 64).drop 32, 0⟩) := by
  have h : (C.hkdf s [] initRootInfo 64).length = 64 := C.hkdf_len _ _ _ _
  simp [deriveKeys, newRootKey, newChainKey, h]

theorem createChain_eq (C : Crypto) (r : RootKey) (a : PrivKey) (q : PubKey) :
    r.createChain C a q = (a.agreement C q >>= fun s =>
      .ok (⟨(C.hkdf s r.key rootInfo 64).take 32⟩, ⟨(C.hkdf s r.key rootInfo 64).drop 32, 0⟩)) := by
  unfold RootKey.createChain
  cases a.agreement C q with
  | ok s =>
    have h : (C.hkdf s r.key rootInfo 64).length = 64 := C.hkdf_len _ _ _ _
    simp [newRootKey, newChainKey, h]
  | err e => rfl
  | panic => rfl

end Verif
