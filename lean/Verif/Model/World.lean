import Verif.Model.Cipher

/-!
# Stores and the session API (`protocol/session/session.go`, `protocol/session/cipher.go`)

`World` is everything one user's process owns. Store calls consume one entry of `faults`, so a theorem that
quantifies over `faults` covers every failure and every crash point: a crash at a store call is the world in which that
call fails.
-/

namespace Verif

/-- What happens to a store call.
(the error results of protocol/session/store.go:11-14, protocol/prekey/store.go:6-21 and protocol/identity/store.go:13-33.) -/
inductive Fault where
  /-- the call succeeds -/
  | none
  /-- the call returns an error and has no effect -/
  | before
  /-- the call has its effect and returns an error -/
  | after
deriving DecidableEq, Repr

/-- protocol/prekey/prekey.go:19-21, protocol/prekey/signed.go:9-11 — the stored halves of a (signed) pre-key. The id,
timestamp and signature fields are not read by the session code. -/
structure PreKeyRec where
  publicKey : Bytes
  privateKey : Bytes
deriving DecidableEq

/-- protocol/prekey/prekey.go:35-37, protocol/prekey/signed.go:27-29 — `KeyPair`. -/
def PreKeyRec.keyPair (p : PreKeyRec) : Res KeyPair := newKeyPair p.privateKey p.publicKey

/-- protocol/prekey/prekey.go:24-32, protocol/prekey/signed.go:14-24 — `NewPreKey`, `NewSigned`. -/
def PreKeyRec.new (k : KeyPair) : PreKeyRec := { publicKey := k.pub.bytes, privateKey := k.priv.bytes }

/-- The user's stores, identity and randomness. (protocol/protocol/store.go:9-15; in memory protocol/protocol/store_inmem.go:17-45,
protocol/session/store_inmem.go:18-22 and protocol/prekey/store_inmem.go:13-17.) -/
structure World where
  /-- protocol/session/store.go:11-14 -/
  sessions : Address → Option Record
  /-- protocol/prekey/store.go:6-13 -/
  preKeys : UInt32 → Option PreKeyRec
  /-- protocol/prekey/store.go:16-21 -/
  signedPreKeys : UInt32 → Option PreKeyRec
  /-- protocol/identity/store.go — remembered identity keys -/
  known : Address → Option PubKey
  /-- `IdentityKeyStore.KeyPair` -/
  identity : KeyPair
  /-- `IdentityKeyStore.LocalRegistrationID` -/
  regId : UInt32
  /-- remaining output of the `io.Reader` given to the call -/
  rand : Bytes
  /-- outcome of the next store calls; an empty list means every further call succeeds -/
  faults : List Fault

/-- What does not change during a run. (protocol/session/session.go:25-31.) -/
structure Env where
  C : Crypto
  /-- `true`: the session store returns shared pointers, so a mutated record is visible at once
  (protocol/session/store_inmem.go:24-32); `false`: it returns copies, as any persistent store does. -/
  aliased : Bool
  /-- `IsTrustedIdentity` as a function of the identities stored so far. -/
  trusted : (Address → Option PubKey) → Address → PubKey → Direction → Bool

/-- protocol/identity/store_inmem.go:61-68 — the trust decision of the in-memory identity store. -/
def tofu (known : Address → Option PubKey) (a : Address) (k : PubKey) (_ : Direction) : Bool :=
  match known a with
  | Option.none => true
  | some k' => k.equal k'

/-- Pointwise update of a map.
(the maps of protocol/session/store_inmem.go, protocol/prekey/store_inmem.go and protocol/identity/store_inmem.go.) -/
def upd {α β} [DecidableEq α] (f : α → β) (a : α) (b : β) : α → β := fun x => if x = a then b else f x

@[simp] theorem upd_same {α β} [DecidableEq α] (f : α → β) (a : α) (b : β) : upd f a b a = b := by simp [upd]
theorem upd_ne {α β} [DecidableEq α] (f : α → β) {a x : α} (b : β) (h : x ≠ a) : upd f a b x = f x := by simp [upd, h]

/-- One call on a user-supplied store.
(protocol/session/store.go:11-14, protocol/prekey/store.go:6-21, protocol/identity/store.go:13-33.) -/
def storeCall {α} (act : World → α × World) : M World α := fun w =>
  match w.faults with
  | [] => let (a, w') := act w; (.ok a, w')
  | .none :: fs => let (a, w') := act { w with faults := fs }; (.ok a, w')
  | .before :: fs => (.err .store, { w with faults := fs })
  | .after :: fs => (.err .store, (act { w with faults := fs }).2)

/-- `SessionStore.Load` (protocol/session/store_inmem.go:24-27). -/
def loadSession (a : Address) : M World (Option Record) := storeCall fun w => (w.sessions a, w)
/-- `SessionStore.Store` (protocol/session/store_inmem.go:29-32). -/
def storeSession (a : Address) (r : Record) : M World Unit :=
  storeCall fun w => ((), { w with sessions := upd w.sessions a (some r) })
/-- `PreKeyStore.Load` (protocol/prekey/store_inmem.go:19-22). -/
def loadPreKey (id : UInt32) : M World (Option PreKeyRec) := storeCall fun w => (w.preKeys id, w)
/-- `PreKeyStore.Delete` (protocol/prekey/store_inmem.go:29-32). -/
def deletePreKey (id : UInt32) : M World Unit :=
  storeCall fun w => ((), { w with preKeys := upd w.preKeys id Option.none })
/-- `SignedPreKeyStore.Load` (protocol/prekey/store_inmem.go:48-51). -/
def loadSignedPreKey (id : UInt32) : M World (Option PreKeyRec) := storeCall fun w => (w.signedPreKeys id, w)
/-- `IdentityKeyStore.IsTrustedIdentity`. (protocol/identity/store.go:13-33.) -/
def isTrusted (E : Env) (a : Address) (k : PubKey) (d : Direction) : M World Bool :=
  storeCall fun w => (E.trusted w.known a k d, w)
/-- `IdentityKeyStore.Store`; the returned "replaced" flag is not used by the session code.
(protocol/identity/store.go:13-33.) -/
def storeIdentity (a : Address) (k : PubKey) : M World Unit :=
  storeCall fun w => ((), { w with known := upd w.known a (some k) })

/-- Run code that reads the random reader.
(the `random` argument at protocol/session/cipher.go:127 and protocol/session/session.go:122.) -/
def withRand {α} (x : M Bytes α) : M World α := fun w =>
  let (r, rand') := x w.rand
  (r, { w with rand := rand' })

/-- A record loaded from a sharing store has been mutated in place.
(protocol/session/store_inmem.go:24-32 returns the stored pointer.) -/
def touch (E : Env) (a : Address) (loaded : Bool) (r : Record) : M World Unit := fun w =>
  if E.aliased && loaded then (.ok (), { w with sessions := upd w.sessions a (some r) }) else (.ok (), w)

/-- protocol/session/cipher.go:23-124 — `EncryptMessage`. -/
def encryptMessage (E : Env) (a : Address) (plaintext : Bytes) : M World Ciphertext := do
  match ← loadSession a with
  | none => M.throw (.sessionNotFound a)
  | some record =>
    match record.current with
    | none => M.throw (.sessionNotFound a)
    | some state =>
      let (msg, state', theirIdentityKey) ← M.lift (encryptState E.C state plaintext)
      let record' := record.setSessionState state'
      touch E a true record'
      let trusted ← isTrusted E a theirIdentityKey .sending
      if trusted then
        storeIdentity a theirIdentityKey
        storeSession a record'
        return msg
      else M.throw (.untrustedIdentity a)

/-- `(*PreKey).KeyPair()` on the optional result of a pre-key store load
(protocol/session/session.go:77-82, 94-99). -/
def optKeyPair (o : Option PreKeyRec) : M World (Option KeyPair) :=
  match o with
  | some p => do
    let k ← M.lift p.keyPair
    return some k
  | none => return none

/-- A call whose error is not checked and whose nil result is then dereferenced
(protocol/session/session.go:102-113). -/
def orPanic {α} : Res α → Res α
  | .ok a => .ok a
  | .err _ => .panic
  | .panic => .panic

/-- protocol/session/session.go:62-118 — `processPreKeyV3`; returns the pre-key id and the record. -/
def processPreKeyV3 (E : Env) (a : Address) (loaded : Bool) (record : Record) (msg : PreKeyMsg) :
    M World (Option UInt32 × Record) := do
  let found ← M.lift (record.hasSessionState msg.version.toUInt32 msg.baseKey.bytes)
  if found then return (none, record)
  else
    let ourSignedPreKeyPair ← loadSignedPreKey msg.signedPreKeyID >>= optKeyPair
    let ourOneTimePreKeyPair ← match msg.preKeyID with
      | none => pure none
      | some id => loadPreKey id >>= optKeyPair
    let w ← M.get
    let s ← M.lift (orPanic (initializeBobSession E.C
      { ourIdentityKeyPair := w.identity, ourSignedPreKeyPair := ourSignedPreKeyPair,
        ourOneTimePreKeyPair := ourOneTimePreKeyPair, ourRatchetKeyPair := ourSignedPreKeyPair,
        theirIdentityKey := msg.identityKey, theirBaseKey := msg.baseKey }))
    let s := { s with localRegistrationId := w.regId, remoteRegistrationId := msg.registrationID,
                      aliceBaseKey := msg.baseKey.bytes }
    let record := record.promoteState s
    touch E a loaded record
    return (msg.preKeyID, record)

/-- protocol/session/session.go:38-60 — `ProcessPreKey`. -/
def processPreKey (E : Env) (a : Address) (loaded : Bool) (record : Record) (msg : PreKeyMsg) :
    M World (Option UInt32 × Record) := do
  let trusted ← isTrusted E a msg.identityKey .receiving
  if trusted then
    let out ← processPreKeyV3 E a loaded record msg
    storeIdentity a msg.identityKey
    return out
  else M.throw (.untrustedIdentity a)

/-- protocol/session/cipher.go:138-171 — `decryptPreKey`. -/
def decryptPreKey (E : Env) (a : Address) (msg : PreKeyMsg) : M World Bytes := do
  let stored ← loadSession a
  let (preKeyID, record) ← processPreKey E a stored.isSome (stored.getD {}) msg
  let (plaintext, record) ← withRand (decryptRecord E.C record msg.message)
  touch E a stored.isSome record
  storeSession a record
  match preKeyID with
  | some id => deletePreKey id
  | none => pure ()
  return plaintext

/-- protocol/session/cipher.go:173-212 — `decryptSignal`. The error of `decryptMessage` (line 182) is overwritten; the
nil plaintext that comes with it is `none`. -/
def decryptSignal (E : Env) (a : Address) (msg : Signal) : M World (Option Bytes) := do
  match ← loadSession a with
  | none => M.throw (.sessionNotFound a)
  | some record =>
    let out ← M.attempt (withRand (decryptRecord E.C record msg))
    let (plaintext, record) := match out with
      | .ok (p, r) => (some p, r)
      | .error _ => (none, record)
    touch E a true record
    match record.current with
    | none => M.throw .mustHaveState
    | some state =>
      match state.remoteIdentityKey with
      | .ok (some theirIdentityKey) =>
        let trusted ← isTrusted E a theirIdentityKey .receiving
        if trusted then
          storeIdentity a theirIdentityKey
          storeSession a record
          return plaintext
        else M.throw (.untrustedIdentity a)
      | .panic => M.panic
      | _ => M.throw .mustHaveIdentity

/-- protocol/session/cipher.go:127-136 — `DecryptMessage`. A nil `[]byte` result is `none`. -/
def decryptMessage (E : Env) (a : Address) (c : Ciphertext) : M World (Option Bytes) :=
  match c with
  | .preKey m => do
    let p ← decryptPreKey E a m
    return some p
  | .signal m => decryptSignal E a m
  | _ => M.throw .wrongMessageType

/-- protocol/prekey/bundle.go:12-21 — `Bundle` (the device id is not used). -/
structure Bundle where
  registrationID : UInt32
  preKeyID : Option UInt32
  preKeyPublic : Option PubKey
  signedPreKeyID : UInt32
  signedPreKeyPublic : PubKey
  signedPreKeySignature : Bytes
  identityKey : PubKey

/-- protocol/session/session.go:122-195 — `ProcessPreKeyBundle`. -/
def processPreKeyBundle (E : Env) (a : Address) (b : Bundle) : M World Unit := do
  let trusted ← isTrusted E a b.identityKey .sending
  if trusted then
    let ok ← M.lift (b.identityKey.verifySignature E.C b.signedPreKeySignature [b.signedPreKeyPublic.bytes])
    if ok then
      let stored ← loadSession a
      let record := stored.getD {}
      let ourBaseKeyPair ← withRand (generateKeyPair E.C)
      let w ← M.get
      let s ← withRand (initializeAliceSession E.C
        { ourIdentityKeyPair := w.identity, ourBaseKeyPair := ourBaseKeyPair, theirIdentityKey := b.identityKey,
          theirSignedPreKey := b.signedPreKeyPublic, theirOneTimePreKey := b.preKeyPublic,
          theirRatchetKey := b.signedPreKeyPublic })
      let s := s.setUnacknowledgedPreKeyMessage b.preKeyID b.signedPreKeyID ourBaseKeyPair.pub
      let s := { s with localRegistrationId := w.regId, remoteRegistrationId := b.registrationID,
                        aliceBaseKey := ourBaseKeyPair.pub.bytes }
      storeIdentity a b.identityKey
      let record := record.promoteState s
      touch E a stored.isSome record
      storeSession a record
    else M.throw .badBundleSignature
  else M.throw .untrustedBundle

end Verif
