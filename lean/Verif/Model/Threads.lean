import Verif.Model.World
import Verif.Model.Group

/-!
# Calls as threads

The calls of `Model.World` and `Model.Group` once more, this time as programs that stop at every store call, so that several
calls can run at the same time. Between two store calls a call works on its own data only: this holds for stores that hand out
copies. `Verif.Proofs.Threads` proves that a program run alone is the function of `Model.World` or `Model.Group`.
-/

namespace Verif

/-- A call that is on its way: it has ended, or it is about to call a store, or about to read random bytes.
(the methods of protocol/session/cipher.go, session.go and group_cipher.go, cut at their store calls.) -/
inductive Prog (Op : Type → Type) (L : Type) (α : Type) : Type 1 where
  | done (r : Res α)
  /-- call a store; the call can fail unless `sure` -/
  | call {β : Type} (sure : Bool) (op : Op β) (k : β → Prog Op L α)
  /-- work on the thread's own data -/
  | own {β : Type} (f : M L β) (k : β → Prog Op L α)

namespace Prog

/-- `if err != nil { return nil, err }`, e.g. protocol/session/cipher.go:29-44. -/
def bind {Op : Type → Type} {L α β : Type} : Prog Op L α → (α → Prog Op L β) → Prog Op L β
  | .done (.ok a), f => f a
  | .done (.err e), _ => .done (.err e)
  | .done .panic, _ => .done .panic
  | .call s op k, f => .call s op fun b => (k b).bind f
  | .own g k, f => .own g fun b => (k b).bind f

instance {Op : Type → Type} {L : Type} : Monad (Prog Op L) where
  pure a := .done (.ok a)
  bind := Prog.bind

/-- A store call that can fail. (protocol/session/store.go:11-19, protocol/prekey/store.go:6-21, protocol/identity/store.go:13-33.) -/
def ask {Op : Type → Type} {L α : Type} (op : Op α) : Prog Op L α := .call false op fun a => .done (.ok a)

end Prog

/-! ## Pairwise sessions -/

/-- A call on one of the stores of a `World`, or on the parts of the identity store that never fail.
(protocol/session/store.go:11-14, protocol/prekey/store.go:6-21, protocol/identity/store.go:13-33.) -/
inductive StoreOp : Type → Type where
  | loadSession (a : Address) : StoreOp (Option Record)
  | storeSession (a : Address) (r : Record) : StoreOp Unit
  | loadPreKey (id : UInt32) : StoreOp (Option PreKeyRec)
  | storePreKey (id : UInt32) (k : PreKeyRec) : StoreOp Unit
  | deletePreKey (id : UInt32) : StoreOp Unit
  | loadSignedPreKey (id : UInt32) : StoreOp (Option PreKeyRec)
  | storeSignedPreKey (id : UInt32) (k : PreKeyRec) : StoreOp Unit
  | isTrusted (a : Address) (k : PubKey) (d : Direction) : StoreOp Bool
  | storeIdentity (a : Address) (k : PubKey) : StoreOp Unit
  | keyPair : StoreOp KeyPair
  | registrationID : StoreOp UInt32

/-- What a store call returns and does. (protocol/session/store_inmem.go:24-32, protocol/prekey/store_inmem.go:19-56,
protocol/identity/store.go:13-33.) -/
def StoreOp.act (E : Env) : {β : Type} → StoreOp β → World → β × World
  | _, .loadSession a, w => (w.sessions a, w)
  | _, .storeSession a r, w => ((), { w with sessions := upd w.sessions a (some r) })
  | _, .loadPreKey id, w => (w.preKeys id, w)
  | _, .storePreKey id k, w => ((), { w with preKeys := upd w.preKeys id (some k) })
  | _, .deletePreKey id, w => ((), { w with preKeys := upd w.preKeys id Option.none })
  | _, .loadSignedPreKey id, w => (w.signedPreKeys id, w)
  | _, .storeSignedPreKey id k, w => ((), { w with signedPreKeys := upd w.signedPreKeys id (some k) })
  | _, .isTrusted a k d, w => (E.trusted w.known a k d, w)
  | _, .storeIdentity a k, w => ((), { w with known := upd w.known a (some k) })
  | _, .keyPair, w => (w.identity, w)
  | _, .registrationID, w => (w.regId, w)

/-- A call of the session API; its own data are its random bytes. (protocol/session/session.go:25-31.) -/
abbrev SProg := Prog StoreOp Bytes

/-- Pure code. (e.g. protocol/session/cipher.go:47-58.) -/
def SProg.lift {α} (r : Res α) : SProg α := .done r

/-- Code that reads the random reader. (the `random` argument at protocol/session/cipher.go:127 and protocol/session/session.go:122.) -/
def SProg.random {α} (x : M Bytes α) : SProg α := .own x fun a => .done (.ok a)

/-- `IdentityKeyStore.KeyPair` and `LocalRegistrationID`, which return no error. (protocol/identity/store.go:13-33.) -/
def SProg.me : SProg (KeyPair × UInt32) := .call true .keyPair fun k => .call true .registrationID fun r => .done (.ok (k, r))

/-- protocol/session/cipher.go:23-124 — `EncryptMessage`. -/
def encryptProg (E : Env) (a : Address) (plaintext : Bytes) : SProg Ciphertext := do
  match ← .ask (.loadSession a) with
  | none => .done (.err (.sessionNotFound a))
  | some record =>
    match record.current with
    | none => .done (.err (.sessionNotFound a))
    | some state =>
      let (msg, state', theirIdentityKey) ← SProg.lift (encryptState E.C state plaintext)
      let record' := record.setSessionState state'
      let trusted ← .ask (.isTrusted a theirIdentityKey .sending)
      if trusted then
        .ask (.storeIdentity a theirIdentityKey)
        .ask (.storeSession a record')
        return msg
      else .done (.err (.untrustedIdentity a))

/-- `(*PreKey).KeyPair()` on the optional result of a pre-key store load (protocol/session/session.go:77-82, 94-99). -/
def optKeyPairProg (o : Option PreKeyRec) : SProg (Option KeyPair) :=
  match o with
  | some p => do
    let k ← SProg.lift p.keyPair
    return some k
  | none => return none

/-- protocol/session/session.go:62-118 — `processPreKeyV3`. -/
def processPreKeyV3Prog (E : Env) (record : Record) (msg : PreKeyMsg) : SProg (Option UInt32 × Record) := do
  let found ← SProg.lift (record.hasSessionState msg.version.toUInt32 msg.baseKey.bytes)
  if found then return (none, record)
  else
    let ourSignedPreKeyPair ← Prog.ask (StoreOp.loadSignedPreKey msg.signedPreKeyID) >>= optKeyPairProg
    let ourOneTimePreKeyPair ← match msg.preKeyID with
      | none => pure none
      | some id => Prog.ask (StoreOp.loadPreKey id) >>= optKeyPairProg
    let (identity, regId) ← SProg.me
    let s ← SProg.lift (orPanic (initializeBobSession E.C
      { ourIdentityKeyPair := identity, ourSignedPreKeyPair := ourSignedPreKeyPair,
        ourOneTimePreKeyPair := ourOneTimePreKeyPair, ourRatchetKeyPair := ourSignedPreKeyPair,
        theirIdentityKey := msg.identityKey, theirBaseKey := msg.baseKey }))
    let s := { s with localRegistrationId := regId, remoteRegistrationId := msg.registrationID,
                      aliceBaseKey := msg.baseKey.bytes }
    return (msg.preKeyID, record.promoteState s)

/-- protocol/session/session.go:38-60 — `ProcessPreKey`. -/
def processPreKeyProg (E : Env) (a : Address) (record : Record) (msg : PreKeyMsg) : SProg (Option UInt32 × Record) := do
  let trusted ← .ask (.isTrusted a msg.identityKey .receiving)
  if trusted then
    let out ← processPreKeyV3Prog E record msg
    .ask (.storeIdentity a msg.identityKey)
    return out
  else .done (.err (.untrustedIdentity a))

/-- protocol/session/cipher.go:138-171 — `decryptPreKey`. -/
def decryptPreKeyProg (E : Env) (a : Address) (msg : PreKeyMsg) : SProg Bytes := do
  let stored ← .ask (.loadSession a)
  let (preKeyID, record) ← processPreKeyProg E a (stored.getD {}) msg
  let (plaintext, record) ← SProg.random (decryptRecord E.C record msg.message)
  .ask (.storeSession a record)
  match preKeyID with
  | some id => .ask (.deletePreKey id)
  | none => pure ()
  return plaintext

/-- protocol/session/cipher.go:173-212 — `decryptSignal`. -/
def decryptSignalProg (E : Env) (a : Address) (msg : Signal) : SProg (Option Bytes) := do
  match ← .ask (.loadSession a) with
  | none => .done (.err (.sessionNotFound a))
  | some record =>
    let out ← SProg.random (M.attempt (decryptRecord E.C record msg))
    let (plaintext, record) := match out with
      | .ok (p, r) => (some p, r)
      | .error _ => (none, record)
    match record.current with
    | none => .done (.err .mustHaveState)
    | some state =>
      match state.remoteIdentityKey with
      | .ok (some theirIdentityKey) =>
        let trusted ← .ask (.isTrusted a theirIdentityKey .receiving)
        if trusted then
          .ask (.storeIdentity a theirIdentityKey)
          .ask (.storeSession a record)
          return plaintext
        else .done (.err (.untrustedIdentity a))
      | .panic => .done .panic
      | _ => .done (.err .mustHaveIdentity)

/-- protocol/session/cipher.go:127-136 — `DecryptMessage`. -/
def decryptProg (E : Env) (a : Address) (c : Ciphertext) : SProg (Option Bytes) :=
  match c with
  | .preKey m => do
    let p ← decryptPreKeyProg E a m
    return some p
  | .signal m => decryptSignalProg E a m
  | _ => .done (.err .wrongMessageType)

/-- protocol/session/session.go:122-195 — `ProcessPreKeyBundle`. -/
def bundleProg (E : Env) (a : Address) (b : Bundle) : SProg Unit := do
  let trusted ← .ask (.isTrusted a b.identityKey .sending)
  if trusted then
    let ok ← SProg.lift (b.identityKey.verifySignature E.C b.signedPreKeySignature [b.signedPreKeyPublic.bytes])
    if ok then
      let stored ← .ask (.loadSession a)
      let record := stored.getD {}
      let ourBaseKeyPair ← SProg.random (generateKeyPair E.C)
      let (identity, regId) ← SProg.me
      let s ← SProg.random (initializeAliceSession E.C
        { ourIdentityKeyPair := identity, ourBaseKeyPair := ourBaseKeyPair, theirIdentityKey := b.identityKey,
          theirSignedPreKey := b.signedPreKeyPublic, theirOneTimePreKey := b.preKeyPublic,
          theirRatchetKey := b.signedPreKeyPublic })
      let s := s.setUnacknowledgedPreKeyMessage b.preKeyID b.signedPreKeyID ourBaseKeyPair.pub
      let s := { s with localRegistrationId := regId, remoteRegistrationId := b.registrationID,
                        aliceBaseKey := ourBaseKeyPair.pub.bytes }
      .ask (.storeIdentity a b.identityKey)
      .ask (.storeSession a (record.promoteState s))
    else .done (.err .badBundleSignature)
  else .done (.err .untrustedBundle)

/-! ## Groups -/

/-- A call on the group store. (protocol/session/store.go:16-19.) -/
inductive GStoreOp : Type → Type where
  | load (k : Address × DistId) : GStoreOp (Option GRecord)
  | store (k : Address × DistId) (r : GRecord) : GStoreOp Unit

/-- What a group store call returns and does. (protocol/session/store_inmem.go:34-63.) -/
def GStoreOp.act : {β : Type} → GStoreOp β → GWorld → β × GWorld
  | _, .load k, w => (w.records k, w)
  | _, .store k r, w => ((), { w with records := upd w.records k (some r) })

/-- A call of the group API; its own data are the two random readers. (protocol/session/group_session.go:19-29.) -/
abbrev GProg := Prog GStoreOp (Bytes × Bytes)

/-- Pure code. (e.g. protocol/session/group_cipher.go:30-50.) -/
def GProg.lift {α} (r : Res α) : GProg α := .done r

/-- The caller's reader, of the two readers. (protocol/session/group_session.go:61.) -/
def callerReader {α} (x : M Bytes α) : M (Bytes × Bytes) α := fun l => ((x l.1).1, ((x l.1).2, l.2))

/-- `crypto/rand.Reader`, of the two readers. (protocol/session/group_session.go:128-136.) -/
def systemReader {α} (x : M Bytes α) : M (Bytes × Bytes) α := fun l => ((x l.2).1, (l.1, (x l.2).2))

/-- Code that reads the caller's reader. (protocol/session/group_session.go:61.) -/
def GProg.random {α} (x : M Bytes α) : GProg α := .own (callerReader x) fun a => .done (.ok a)

/-- Code that reads `crypto/rand.Reader`. (protocol/session/group_session.go:128-136.) -/
def GProg.sysRandom {α} (x : M Bytes α) : GProg α := .own (systemReader x) fun a => .done (.ok a)

/-- protocol/session/group_cipher.go:19-69 — `GroupSession.EncryptMessage`. -/
def groupEncryptProg (C : Crypto) (sender : Address) (dist : DistId) (plaintext : Bytes) : GProg SenderKeyMsg := do
  match ← .ask (.load (sender, dist)) with
  | none => .done (.err .noSenderKeyState)
  | some record =>
    let state ← GProg.lift (GRecord.state record)
    let messageKey := state.chainKey.messageKey C
    let ciphertext ← GProg.lift (cbcEncrypt C messageKey.cipherKey messageKey.iv plaintext)
    let signingKey ← GProg.lift state.privateSigningKey
    let msg ← GProg.random (newSenderKey C state.version.toUInt8 dist state.chainId messageKey.iteration ciphertext signingKey)
    let record' := state.setSenderChainKey (state.chainKey.next C) :: record.drop 1
    .ask (.store (sender, dist) record')
    return msg

/-- protocol/session/group_cipher.go:72-123 — `GroupSession.DecryptMessage`. -/
def groupDecryptProg (C : Crypto) (sender : Address) (msg : SenderKeyMsg) : GProg Bytes := do
  match ← .ask (.load (sender, msg.distID)) with
  | none => .done (.err .noSenderKeyState)
  | some record =>
    match GRecord.stateForChainID record msg.chainID with
    | none => .done (.err .noSenderKeyState)
    | some state =>
      if msg.version.toUInt32 ≠ state.version then .done (.err .unsupportedVersion)
      else
        let signingKey ← GProg.lift state.publicSigningKey
        let valid ← GProg.lift (msg.verifySignature C signingKey)
        if valid then
          let (messageKey, state') ← GProg.lift (groupMessageKey C state msg.iteration)
          let record' := GRecord.setStateForChainID record msg.chainID state'
          let plaintext ← GProg.lift (cbcDecrypt C messageKey.cipherKey messageKey.iv msg.ciphertext)
          .ask (.store (sender, msg.distID) record')
          return plaintext
        else .done (.err .badSignature)

/-- protocol/session/group_session.go:33-58 — `ProcessSenderKeyDistribution`. -/
def processDistributionProg (sender : Address) (msg : DistributionMsg) : GProg Unit := do
  let stored ← .ask (.load (sender, msg.distID))
  let state := newGroupState msg.version msg.chainID msg.iteration msg.chainKey msg.signingKey none
  let record ← GProg.lift (GRecord.addState (stored.getD []) state)
  .ask (.store (sender, msg.distID) record)

/-- protocol/session/group_session.go:66-104 — creation of a sender key. -/
def createSenderKeyProg (C : Crypto) (sender : Address) (dist : DistId) : GProg GRecord := do
  let chainID ← GProg.sysRandom randomUint32
  let chainID := chainID >>> 1
  let senderKey ← GProg.random (readFull 32)
  let signingKey ← GProg.random (generateKeyPair C)
  let record ← GProg.lift (GRecord.addState [] (newGroupState 3 chainID 0 senderKey signingKey.pub (some signingKey.priv)))
  .ask (.store (sender, dist) record)
  return record

/-- protocol/session/group_session.go:61-126 — `NewSenderKeyDistribution`. -/
def newDistributionProg (C : Crypto) (sender : Address) (dist : DistId) : GProg DistributionMsg := do
  let stored ← .ask (.load (sender, dist))
  let record ← match stored with
    | some r => pure r
    | none => createSenderKeyProg C sender dist
  let state ← GProg.lift (GRecord.state record)
  let signingKey ← GProg.lift state.publicSigningKey
  return newDistribution state.version.toUInt8 dist state.chainId state.chainKey.iteration state.chainKey.seed signingKey

/-! ## The machine -/

/-- A thread: the rest of its call, its own data, and what will happen to its store calls.
(a goroutine inside a method of protocol/session/session.go:25-31 or group_session.go:19-29.) -/
structure Thread (Op : Type → Type) (L α : Type) where
  prog : Prog Op L α
  loc : L
  faults : List Fault

/-- One store call of a thread, under a fault. (the error results of protocol/session/store.go:11-19.) -/
def Thread.ask {Op : Type → Type} {L α S β : Type} (act : ∀ {β}, Op β → S → β × S) (l : L) (op : Op β) (k : β → Prog Op L α)
    (fs : List Fault) (w : S) : Thread Op L α × S :=
  match fs with
  | [] => (⟨k (act op w).1, l, []⟩, (act op w).2)
  | .none :: fs => (⟨k (act op w).1, l, fs⟩, (act op w).2)
  | .before :: fs => (⟨.done (.err .store), l, fs⟩, w)
  | .after :: fs => (⟨.done (.err .store), l, fs⟩, (act op w).2)

/-- The next step of a thread: up to and including its next store call. A thread that has ended does nothing.
(the code between two store calls of protocol/session/cipher.go, session.go, group_cipher.go and group_session.go.) -/
def Thread.step {Op : Type → Type} {L α S : Type} (act : ∀ {β}, Op β → S → β × S) (t : Thread Op L α) (w : S) :
    Thread Op L α × S :=
  match t.prog with
  | .done _ => (t, w)
  | .call true op k => ({ t with prog := k (act op w).1 }, (act op w).2)
  | .call false op k => Thread.ask act t.loc op k t.faults w
  | .own f k =>
    match f t.loc with
    | (.ok b, l) => ({ t with prog := k b, loc := l }, w)
    | (.err e, l) => ({ t with prog := .done (.err e), loc := l }, w)
    | (.panic, l) => ({ t with prog := .done .panic, loc := l }, w)

/-- The result of a thread, once it has ended. -/
def Thread.result {Op : Type → Type} {L α : Type} (t : Thread Op L α) : Option (Res α) :=
  match t.prog with
  | .done r => some r
  | _ => none

/-- Threads that share stores run under a schedule, which says whose turn it is.
(goroutines that share the stores of protocol/protocol/store.go:9-15; every store call is atomic.) -/
def interleave {Op : Type → Type} {L α S : Type} (act : ∀ {β}, Op β → S → β × S) :
    List Nat → (Nat → Thread Op L α) → S → (Nat → Thread Op L α) × S
  | [], ts, w => (ts, w)
  | i :: is, ts, w => interleave act is (upd ts i ((ts i).step act w).1) ((ts i).step act w).2

end Verif
