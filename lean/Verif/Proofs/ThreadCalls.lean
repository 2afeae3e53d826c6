import Verif.Proofs.Threads

/-!
# The calls as threads: run alone they are the calls of the sequential model

and the store calls they make stay within the entries `Op.reads` and `Op.writes` name.
-/

namespace Verif

/-! ## Pairwise -/

/-- Run alone, the program is this function. -/
def SModels (E : Env) {α : Type} (p : SProg α) (x : M World α) : Prop :=
  ∀ (w : World) (l : Bytes) (fs : List Fault), x { w with rand := l, faults := fs } =
    ((p.finish (StoreOp.act E) l fs w).1,
      { (p.finish (StoreOp.act E) l fs w).2.2.2 with rand := (p.finish (StoreOp.act E) l fs w).2.1, faults := (p.finish (StoreOp.act E) l fs w).2.2.1 })

theorem SModels.bind {E : Env} {α β : Type} {p : SProg α} {x : M World α} {f : α → SProg β} {g : α → M World β}
    (hp : SModels E p x) (hf : ∀ a, SModels E (f a) (g a)) : SModels E (p >>= f) (x >>= g) := by
  intro w l fs
  rw [M.bind_run, hp w l fs, Prog.finish_bind]
  rcases p.finish (StoreOp.act E) l fs w with ⟨r, l', fs', w'⟩
  cases r with
  | ok a => exact hf a w' l' fs'
  | err e => rfl
  | panic => rfl

theorem SModels.pure (E : Env) {α : Type} (a : α) : SModels E (Pure.pure a : SProg α) (Pure.pure a) := fun _ _ _ => rfl

theorem SModels.done (E : Env) {α : Type} (r : Res α) : SModels E (.done r : SProg α) (M.lift r) := fun _ _ _ => rfl

theorem SModels.throw (E : Env) {α : Type} (e : Err) : SModels E (.done (.err e) : SProg α) (M.throw e) := fun _ _ _ => rfl

theorem SModels.panic (E : Env) {α : Type} : SModels E (.done .panic : SProg α) M.panic := fun _ _ _ => rfl

theorem SModels.lift (E : Env) {α : Type} (r : Res α) : SModels E (SProg.lift r) (M.lift r) := fun _ _ _ => rfl

theorem SModels.random (E : Env) {α : Type} (x : M Bytes α) : SModels E (SProg.random x) (withRand x) := by
  intro w l fs
  simp only [withRand, SProg.random, Prog.finish]
  rcases x l with ⟨r, l'⟩
  cases r <;> rfl

theorem SModels.random_attempt (E : Env) {α : Type} (x : M Bytes α) :
    SModels E (SProg.random (M.attempt x)) (M.attempt (withRand x)) := by
  intro w l fs
  simp only [withRand, SProg.random, Prog.finish, M.attempt]
  rcases x l with ⟨r, l'⟩
  cases r <;> rfl

/-- A store call. -/
theorem SModels.ask (E : Env) {β : Type} (op : StoreOp β) (a : World → β × World)
    (h : ∀ w l fs, a { w with rand := l, faults := fs } =
      ((op.act E w).1, { (op.act E w).2 with rand := l, faults := fs })) :
    SModels E (.ask op) (storeCall a) := by
  intro w l fs
  cases fs with
  | nil => simp [storeCall, Prog.ask, Prog.finish, h w l []]
  | cons f fs =>
    cases f with
    | none => have := h w l fs; simp_all [storeCall, Prog.ask, Prog.finish]
    | before => simp [storeCall, Prog.ask, Prog.finish]
    | after => have := h w l fs; simp_all [storeCall, Prog.ask, Prog.finish]

theorem SModels.loadSession (E : Env) (a : Address) : SModels E (.ask (.loadSession a)) (Verif.loadSession a) :=
  .ask E _ _ fun _ _ _ => rfl
theorem SModels.storeSession (E : Env) (a : Address) (r : Record) : SModels E (.ask (.storeSession a r)) (Verif.storeSession a r) :=
  .ask E _ _ fun _ _ _ => rfl
theorem SModels.loadPreKey (E : Env) (id : UInt32) : SModels E (.ask (.loadPreKey id)) (Verif.loadPreKey id) :=
  .ask E _ _ fun _ _ _ => rfl
theorem SModels.deletePreKey (E : Env) (id : UInt32) : SModels E (.ask (.deletePreKey id)) (Verif.deletePreKey id) :=
  .ask E _ _ fun _ _ _ => rfl
theorem SModels.loadSignedPreKey (E : Env) (id : UInt32) :
    SModels E (.ask (.loadSignedPreKey id)) (Verif.loadSignedPreKey id) := .ask E _ _ fun _ _ _ => rfl
theorem SModels.isTrusted (E : Env) (a : Address) (k : PubKey) (d : Direction) :
    SModels E (.ask (.isTrusted a k d)) (Verif.isTrusted E a k d) := .ask E _ _ fun _ _ _ => rfl
theorem SModels.storeIdentity (E : Env) (a : Address) (k : PubKey) :
    SModels E (.ask (.storeIdentity a k)) (Verif.storeIdentity a k) := .ask E _ _ fun _ _ _ => rfl

/-- With a copying store there is nothing to touch. -/
theorem touch_bind {E : Env} (h : E.aliased = false) {α : Type} (a : Address) (b : Bool) (r : Record) (x : M World α) :
    (touch E a b r >>= fun _ => x) = x := by
  funext w
  simp [M.bind_run, touch, h]

theorem SModels.me {E : Env} {α : Type} {f : KeyPair × UInt32 → SProg α} {g : World → M World α}
    (h : ∀ (w : World) (w0 : Bytes × List Fault), SModels E (f (w.identity, w.regId)) (g { w with rand := w0.1, faults := w0.2 })) :
    SModels E (SProg.me >>= f) (M.get >>= g) := by
  intro w l fs
  exact h w (l, fs) w l fs

theorem encryptProg_models {E : Env} (h : E.aliased = false) (a : Address) (pt : Bytes) :
    SModels E (encryptProg E a pt) (encryptMessage E a pt) := by
  unfold encryptProg encryptMessage
  refine (SModels.loadSession E a).bind fun o => ?_
  cases o with
  | none => exact .throw E _
  | some record =>
    dsimp only
    rcases record.current with _ | state
    · exact .throw E _
    · refine (SModels.lift E _).bind fun ⟨msg, state', k⟩ => ?_
      dsimp only
      rw [touch_bind h]
      refine (SModels.isTrusted E a k _).bind fun t => ?_
      split
      · exact (SModels.storeIdentity E a k).bind fun _ => (SModels.storeSession E a _).bind fun _ => .pure E _
      · exact .throw E _

theorem optKeyPairProg_models (E : Env) (o : Option PreKeyRec) : SModels E (optKeyPairProg o) (optKeyPair o) := by
  cases o with
  | none => exact .pure E _
  | some p => exact (SModels.lift E _).bind fun k => .pure E _

theorem processPreKeyV3Prog_models {E : Env} (h : E.aliased = false) (a : Address) (b : Bool) (record : Record) (msg : PreKeyMsg) :
    SModels E (processPreKeyV3Prog E record msg) (processPreKeyV3 E a b record msg) := by
  unfold processPreKeyV3Prog processPreKeyV3
  refine (SModels.lift E _).bind fun found => ?_
  split
  · exact .pure E _
  · refine ((SModels.loadSignedPreKey E _).bind fun o => optKeyPairProg_models E o).bind fun sp => ?_
    have rest : ∀ ot : Option KeyPair, SModels E (do
        let (identity, regId) ← SProg.me
        let s ← SProg.lift (orPanic (initializeBobSession E.C
          { ourIdentityKeyPair := identity, ourSignedPreKeyPair := sp,
            ourOneTimePreKeyPair := ot, ourRatchetKeyPair := sp,
            theirIdentityKey := msg.identityKey, theirBaseKey := msg.baseKey }))
        let s := { s with localRegistrationId := regId, remoteRegistrationId := msg.registrationID,
                          aliceBaseKey := msg.baseKey.bytes }
        return (msg.preKeyID, record.promoteState s)) (do
        let w ← M.get
        let s ← M.lift (orPanic (initializeBobSession E.C
          { ourIdentityKeyPair := w.identity, ourSignedPreKeyPair := sp,
            ourOneTimePreKeyPair := ot, ourRatchetKeyPair := sp,
            theirIdentityKey := msg.identityKey, theirBaseKey := msg.baseKey }))
        let s := { s with localRegistrationId := w.regId, remoteRegistrationId := msg.registrationID,
                          aliceBaseKey := msg.baseKey.bytes }
        let record := record.promoteState s
        touch E a b record
        return (msg.preKeyID, record)) := by
      intro ot
      refine SModels.me fun w w0 => ?_
      dsimp only
      refine (SModels.lift E _).bind fun s => ?_
      rw [touch_bind h]
      exact .pure E _
    cases hid : msg.preKeyID with
    | none => rw [hid] at rest; exact (SModels.pure E _).bind fun ot => rest ot
    | some id =>
      rw [hid] at rest
      exact ((SModels.loadPreKey E _).bind fun o => optKeyPairProg_models E o).bind fun ot => rest ot

theorem processPreKeyProg_models {E : Env} (h : E.aliased = false) (a : Address) (b : Bool) (record : Record) (msg : PreKeyMsg) :
    SModels E (processPreKeyProg E a record msg) (processPreKey E a b record msg) := by
  unfold processPreKeyProg processPreKey
  refine (SModels.isTrusted E _ _ _).bind fun t => ?_
  split
  · exact (processPreKeyV3Prog_models h a b record msg).bind fun out => (SModels.storeIdentity E _ _).bind fun _ => .pure E _
  · exact .throw E _

theorem decryptPreKeyProg_models {E : Env} (h : E.aliased = false) (a : Address) (msg : PreKeyMsg) :
    SModels E (decryptPreKeyProg E a msg) (decryptPreKey E a msg) := by
  unfold decryptPreKeyProg decryptPreKey
  refine (SModels.loadSession E a).bind fun stored => ?_
  refine (processPreKeyProg_models h a _ _ msg).bind fun ⟨id, record⟩ => ?_
  refine (SModels.random E _).bind fun ⟨pt, record⟩ => ?_
  dsimp only
  rw [touch_bind h]
  refine (SModels.storeSession E a _).bind fun _ => ?_
  cases id with
  | none => exact SModels.pure E _
  | some id => exact (SModels.deletePreKey E _).bind fun _ => .pure E _

theorem decryptSignalProg_models {E : Env} (h : E.aliased = false) (a : Address) (msg : Signal) :
    SModels E (decryptSignalProg E a msg) (decryptSignal E a msg) := by
  unfold decryptSignalProg decryptSignal
  refine (SModels.loadSession E a).bind fun o => ?_
  cases o with
  | none => exact .throw E _
  | some record =>
    refine (SModels.random_attempt E _).bind fun out => ?_
    have tail : ∀ (record : Record) (plaintext : Option Bytes), SModels E (match record.current with
        | none => .done (.err .mustHaveState)
        | some state =>
          match state.remoteIdentityKey with
          | .ok (some theirIdentityKey) => do
            let trusted ← .ask (.isTrusted a theirIdentityKey .receiving)
            if trusted then
              .ask (.storeIdentity a theirIdentityKey)
              .ask (.storeSession a record)
              return plaintext
            else .done (.err (.untrustedIdentity a))
          | .panic => .done .panic
          | _ => .done (.err .mustHaveIdentity)) (match record.current with
        | none => M.throw .mustHaveState
        | some state =>
          match state.remoteIdentityKey with
          | .ok (some theirIdentityKey) => do
            let trusted ← Verif.isTrusted E a theirIdentityKey .receiving
            if trusted then
              Verif.storeIdentity a theirIdentityKey
              Verif.storeSession a record
              return plaintext
            else M.throw (.untrustedIdentity a)
          | .panic => M.panic
          | _ => M.throw .mustHaveIdentity) := by
      intro record pt
      rcases record.current with _ | state
      · exact .throw E _
      · dsimp only
        rcases state.remoteIdentityKey with (_ | k) | e | _
        · exact .throw E _
        · refine (SModels.isTrusted E _ _ _).bind fun t => ?_
          split
          · exact (SModels.storeIdentity E _ _).bind fun _ => (SModels.storeSession E _ _).bind fun _ => .pure E _
          · exact .throw E _
        · exact .throw E _
        · exact .panic E
    rcases out with e | ⟨p, r⟩
    · dsimp only; rw [touch_bind h]; exact tail record none
    · dsimp only; rw [touch_bind h]; exact tail r (some p)

theorem decryptProg_models {E : Env} (h : E.aliased = false) (a : Address) (c : Ciphertext) :
    SModels E (decryptProg E a c) (decryptMessage E a c) := by
  cases c with
  | preKey m => exact (decryptPreKeyProg_models h a m).bind fun _ => .pure E _
  | signal m => exact decryptSignalProg_models h a m
  | senderKey m => exact .throw E _
  | plaintext m => exact .throw E _

theorem bundleProg_models {E : Env} (h : E.aliased = false) (a : Address) (b : Bundle) :
    SModels E (bundleProg E a b) (processPreKeyBundle E a b) := by
  unfold bundleProg processPreKeyBundle
  refine (SModels.isTrusted E _ _ _).bind fun t => ?_
  split
  · refine (SModels.lift E _).bind fun ok => ?_
    split
    · refine (SModels.loadSession E a).bind fun stored => ?_
      refine (SModels.random E _).bind fun kp => ?_
      refine SModels.me fun w w0 => ?_
      refine (SModels.random E _).bind fun s => ?_
      refine (SModels.storeIdentity E _ _).bind fun _ => ?_
      rw [touch_bind h]
      exact SModels.storeSession E _ _
    · exact .throw E _
  · exact .throw E _

theorem Op.prog_finish {E : Env} (h : E.aliased = false) (c : Call) {w v : World} (hw : w.SameStores v) :
    let r := (c.op.prog E).finish (StoreOp.act E) c.rand c.faults w
    (c.run E v).1 = Out.of id r.1 ∧ r.2.2.2.SameStores (c.run E v).2 := by
  obtain ⟨op, l, fs⟩ := c
  have hv : ({ v with rand := l, faults := fs } : World) = { w with rand := l, faults := fs } := by
    obtain ⟨h1, h2, h3, h4, h5, h6⟩ := hw
    simp [h1, h2, h3, h4, h5, h6]
  have key : ∀ {α : Type} (p : SProg α) (x : M World α) (f : α → Out), SModels E p x →
      let r := (p >>= fun a => (Pure.pure (f a) : SProg Out)).finish (StoreOp.act E) l fs w
      Out.of f (x { v with rand := l, faults := fs }).1 = Out.of id r.1 ∧
        r.2.2.2.SameStores (x { v with rand := l, faults := fs }).2 := by
    intro α p x f hp
    dsimp only
    rw [hv, hp w l fs, Prog.finish_bind]
    rcases p.finish (StoreOp.act E) l fs w with ⟨r, l', fs', w'⟩
    cases r <;> exact ⟨rfl, rfl, rfl, rfl, rfl, rfl, rfl⟩
  cases op with
  | encrypt a pt => exact key _ _ (.ciphertext a) (encryptProg_models h a pt)
  | decrypt a m => exact key _ _ (.plaintext a) (decryptProg_models h a m)
  | bundle a b => exact key _ _ (fun _ => .done) (bundleProg_models h a b)
  | addPreKey id k =>
    obtain ⟨h1, h2, h3, h4, h5, h6⟩ := hw
    refine ⟨rfl, h1, ?_, h3, h4, h5, h6⟩
    simp [Call.run, Op.prog, Prog.finish, StoreOp.act, h2]
  | addSignedPreKey id k =>
    obtain ⟨h1, h2, h3, h4, h5, h6⟩ := hw
    refine ⟨rfl, h1, h2, ?_, h4, h5, h6⟩
    simp [Call.run, Op.prog, Prog.finish, StoreOp.act, h3]

/-! ### Footprints -/

/-- The entry a store call is about, and whether it counts as a change. -/
def StoreOp.entry : {β : Type} → StoreOp β → Option (Entry × Bool)
  | _, .loadSession a => some (.peer a, true)
  | _, .storeSession a _ => some (.peer a, true)
  | _, .loadPreKey id => some (.preKey id, true)
  | _, .storePreKey id _ => some (.preKey id, true)
  | _, .deletePreKey id => some (.preKey id, true)
  | _, .loadSignedPreKey id => some (.signedPreKey id, false)
  | _, .storeSignedPreKey id _ => some (.signedPreKey id, true)
  | _, .isTrusted a _ _ => some (.peer a, true)
  | _, .storeIdentity a _ => some (.peer a, true)
  | _, .keyPair => none
  | _, .registrationID => none

/-- The store call is about an entry that the call of the API may use. -/
def StoreOp.In (o : Op) : ∀ β, StoreOp β → Prop := fun _ op =>
  match op.entry with
  | none => True
  | some (e, true) => e ∈ o.writes
  | some (e, false) => e ∈ o.writes ∨ e ∈ o.reads

/-- Different entries, or both only look. -/
def StoreOp.Far {β γ : Type} (o : StoreOp β) (p : StoreOp γ) : Prop :=
  ∀ e b f c, o.entry = some (e, b) → p.entry = some (f, c) → e = f → b = false ∧ c = false

theorem StoreOp.far_of_not_clash {o p : Op} (h : ¬ o.Clash p) {β γ : Type} {x : StoreOp β} {y : StoreOp γ}
    (hx : StoreOp.In o β x) (hy : StoreOp.In p γ y) : StoreOp.Far x y := by
  intro e b f c he hf hef
  subst hef
  simp only [StoreOp.In, he] at hx
  simp only [StoreOp.In, hf] at hy
  cases b <;> cases c <;> simp only at hx hy
  · exact ⟨rfl, rfl⟩
  · refine absurd ?_ h
    rcases hx with hx | hx
    · exact .inl ⟨e, hx, .inl hy⟩
    · exact .inr ⟨e, hy, hx⟩
  · exact absurd (.inl ⟨e, hx, hy⟩) h
  · exact absurd (.inl ⟨e, hx, .inl hy⟩) h

theorem StoreOp.commute {E : Env} (hE : E.TrustIsLocal) {β γ : Type} (x : StoreOp β) (y : StoreOp γ) (h : StoreOp.Far x y) :
    Commute (StoreOp.act E) x y := by
  intro w
  cases x <;> cases y <;> first
    | exact ⟨rfl, rfl, rfl⟩
    | (have hne := fun hab => (absurd (h _ _ _ _ rfl rfl hab) (by simp) : False)
       refine ⟨?_, ?_, ?_⟩ <;> first
         | rfl
         | exact upd_ne _ _ fun hab => hne (congrArg Entry.peer hab)
         | exact upd_ne _ _ fun hab => hne (congrArg Entry.peer hab.symm)
         | exact upd_ne _ _ fun hab => hne (congrArg Entry.preKey hab)
         | exact upd_ne _ _ fun hab => hne (congrArg Entry.preKey hab.symm)
         | exact upd_ne _ _ fun hab => hne (congrArg Entry.signedPreKey hab)
         | exact upd_ne _ _ fun hab => hne (congrArg Entry.signedPreKey hab.symm)
         | exact hE _ _ _ _ _ (upd_ne _ _ fun hab => hne (congrArg Entry.peer hab))
         | exact hE _ _ _ _ _ (upd_ne _ _ fun hab => hne (congrArg Entry.peer hab.symm))
         | exact congrArg (fun m => { w with sessions := m }) (upd_comm _ _ _ fun hab => hne (congrArg Entry.peer hab))
         | exact congrArg (fun m => { w with known := m }) (upd_comm _ _ _ fun hab => hne (congrArg Entry.peer hab))
         | exact congrArg (fun m => { w with preKeys := m }) (upd_comm _ _ _ fun hab => hne (congrArg Entry.preKey hab))
         | exact congrArg (fun m => { w with signedPreKeys := m })
             (upd_comm _ _ _ fun hab => hne (congrArg Entry.signedPreKey hab)))

/-! ### The programs stay within their footprint -/

theorem Prog.uses_ask {Op' : Type → Type} {L β : Type} {P : ∀ β, Op' β → Prop} {op : Op' β} (h : P _ op) :
    (Prog.ask op : Prog Op' L β).Uses P := ⟨h, fun _ => trivial⟩

theorem SProg.uses_random {α : Type} {P : ∀ β, StoreOp β → Prop} (x : M Bytes α) : (SProg.random x).Uses P := fun _ => trivial

theorem SProg.uses_lift {α : Type} {P : ∀ β, StoreOp β → Prop} (x : Res α) : (SProg.lift x).Uses P := trivial

theorem SProg.uses_me {P : ∀ β, StoreOp β → Prop} (h1 : P _ .keyPair) (h2 : P _ .registrationID) : SProg.me.Uses P :=
  ⟨h1, fun _ => ⟨h2, fun _ => trivial⟩⟩

theorem encryptProg_uses (E : Env) {P : ∀ β, StoreOp β → Prop} (a : Address) (pt : Bytes) (h1 : P _ (.loadSession a))
    (h2 : ∀ r, P _ (.storeSession a r)) (h3 : ∀ k d, P _ (.isTrusted a k d)) (h4 : ∀ k, P _ (.storeIdentity a k)) :
    (encryptProg E a pt).Uses P := by
  unfold encryptProg
  refine (Prog.uses_ask h1).bind fun o => ?_
  cases o with
  | none => trivial
  | some record =>
    dsimp only
    split
    · trivial
    · refine (SProg.uses_lift _).bind fun ⟨msg, state', k⟩ => ?_
      refine (Prog.uses_ask (h3 _ _)).bind fun t => ?_
      split
      · exact (Prog.uses_ask (h4 _)).bind fun _ => (Prog.uses_ask (h2 _)).bind fun _ => trivial
      · trivial

theorem optKeyPairProg_uses {P : ∀ β, StoreOp β → Prop} (o : Option PreKeyRec) : (optKeyPairProg o).Uses P := by
  cases o with
  | none => trivial
  | some p => exact (SProg.uses_lift _).bind fun k => trivial

theorem processPreKeyV3Prog_uses (E : Env) {P : ∀ β, StoreOp β → Prop} (record : Record) (msg : PreKeyMsg)
    (h1 : P _ (.loadSignedPreKey msg.signedPreKeyID)) (h2 : ∀ id, msg.preKeyID = some id → P _ (.loadPreKey id))
    (h3 : P _ .keyPair) (h4 : P _ .registrationID) : (processPreKeyV3Prog E record msg).Uses P := by
  unfold processPreKeyV3Prog
  refine (SProg.uses_lift _).bind fun found => ?_
  split
  · trivial
  · refine ((Prog.uses_ask h1).bind fun o => optKeyPairProg_uses o).bind fun sp => ?_
    cases hid : msg.preKeyID with
    | none => exact Prog.Uses.bind (p := Pure.pure none) trivial fun ot => (SProg.uses_me h3 h4).bind fun ⟨_, _⟩ => (SProg.uses_lift _).bind fun _ => trivial
    | some id =>
      exact ((Prog.uses_ask (h2 id hid)).bind fun o => optKeyPairProg_uses o).bind fun ot =>
        (SProg.uses_me h3 h4).bind fun ⟨_, _⟩ => (SProg.uses_lift _).bind fun _ => trivial

theorem Prog.gives_bind {Op' : Type → Type} {L α β : Type} {R : β → Prop} (p : Prog Op' L α) {f : α → Prog Op' L β}
    (hf : ∀ a, (f a).Gives R) : (p >>= f).Gives R := p.gives_true.bind fun a _ => hf a

theorem processPreKeyV3Prog_gives (E : Env) (record : Record) (msg : PreKeyMsg) :
    (processPreKeyV3Prog E record msg).Gives fun x => x.1 = none ∨ x.1 = msg.preKeyID := by
  unfold processPreKeyV3Prog
  refine Prog.gives_bind _ fun found => ?_
  split
  · exact .inl rfl
  · refine Prog.gives_bind _ fun sp => ?_
    have rest : ∀ ot : Option KeyPair, (do
        let (identity, regId) ← SProg.me
        let s ← SProg.lift (orPanic (initializeBobSession E.C
          { ourIdentityKeyPair := identity, ourSignedPreKeyPair := sp,
            ourOneTimePreKeyPair := ot, ourRatchetKeyPair := sp,
            theirIdentityKey := msg.identityKey, theirBaseKey := msg.baseKey }))
        let s := { s with localRegistrationId := regId, remoteRegistrationId := msg.registrationID,
                          aliceBaseKey := msg.baseKey.bytes }
        return (msg.preKeyID, record.promoteState s) : SProg (Option UInt32 × Record)).Gives
          fun x => x.1 = none ∨ x.1 = msg.preKeyID := fun ot =>
      Prog.gives_bind _ fun ⟨_, _⟩ => Prog.gives_bind _ fun _ => .inr rfl
    cases hid : msg.preKeyID with
    | none => rw [hid] at rest; exact Prog.gives_bind (Pure.pure none) fun ot => rest ot
    | some id => rw [hid] at rest; exact Prog.gives_bind _ fun ot => rest ot

theorem processPreKeyProg_gives (E : Env) (a : Address) (record : Record) (msg : PreKeyMsg) :
    (processPreKeyProg E a record msg).Gives fun x => x.1 = none ∨ x.1 = msg.preKeyID := by
  unfold processPreKeyProg
  refine Prog.gives_bind _ fun t => ?_
  split
  · exact (processPreKeyV3Prog_gives E record msg).bind fun out h => Prog.gives_bind _ fun _ => h
  · trivial

theorem decryptPreKeyProg_uses (E : Env) {P : ∀ β, StoreOp β → Prop} (a : Address) (msg : PreKeyMsg)
    (h1 : P _ (.loadSignedPreKey msg.signedPreKeyID)) (h2 : ∀ id, msg.preKeyID = some id → P _ (.loadPreKey id))
    (h3 : P _ .keyPair) (h4 : P _ .registrationID) (h5 : P _ (.loadSession a)) (h6 : ∀ r, P _ (.storeSession a r))
    (h7 : ∀ k d, P _ (.isTrusted a k d)) (h8 : ∀ k, P _ (.storeIdentity a k))
    (h9 : ∀ id, msg.preKeyID = some id → P _ (.deletePreKey id)) : (decryptPreKeyProg E a msg).Uses P := by
  unfold decryptPreKeyProg
  refine (Prog.uses_ask h5).bind fun stored => ?_
  refine Prog.Uses.bind_of ?_ (processPreKeyProg_gives E a _ msg) fun ⟨id, record⟩ hid => ?_
  · unfold processPreKeyProg
    refine (Prog.uses_ask (h7 _ _)).bind fun t => ?_
    split
    · exact (processPreKeyV3Prog_uses E _ msg h1 h2 h3 h4).bind fun _ => (Prog.uses_ask (h8 _)).bind fun _ => trivial
    · trivial
  · refine (SProg.uses_random _).bind fun ⟨pt, record⟩ => (Prog.uses_ask (h6 _)).bind fun _ => ?_
    cases id with
    | none => trivial
    | some id =>
      rcases hid with hid | hid
      · cases hid
      · exact (Prog.uses_ask (h9 id hid.symm)).bind fun _ => trivial

theorem decryptSignalProg_uses (E : Env) {P : ∀ β, StoreOp β → Prop} (a : Address) (msg : Signal) (h1 : P _ (.loadSession a))
    (h2 : ∀ r, P _ (.storeSession a r)) (h3 : ∀ k d, P _ (.isTrusted a k d)) (h4 : ∀ k, P _ (.storeIdentity a k)) :
    (decryptSignalProg E a msg).Uses P := by
  unfold decryptSignalProg
  refine (Prog.uses_ask h1).bind fun o => ?_
  cases o with
  | none => trivial
  | some record =>
    refine (SProg.uses_random _).bind fun out => ?_
    dsimp only
    split
    · trivial
    · split
      · refine (Prog.uses_ask (h3 _ _)).bind fun t => ?_
        split
        · exact (Prog.uses_ask (h4 _)).bind fun _ => (Prog.uses_ask (h2 _)).bind fun _ => trivial
        · trivial
      · trivial
      · trivial

theorem bundleProg_uses (E : Env) {P : ∀ β, StoreOp β → Prop} (a : Address) (b : Bundle) (h1 : P _ (.loadSession a))
    (h2 : ∀ r, P _ (.storeSession a r)) (h3 : ∀ k d, P _ (.isTrusted a k d)) (h4 : ∀ k, P _ (.storeIdentity a k))
    (h5 : P _ .keyPair) (h6 : P _ .registrationID) : (bundleProg E a b).Uses P := by
  unfold bundleProg
  refine (Prog.uses_ask (h3 _ _)).bind fun t => ?_
  split
  · refine (SProg.uses_lift _).bind fun ok => ?_
    split
    · refine (Prog.uses_ask h1).bind fun stored => (SProg.uses_random _).bind fun kp =>
        (SProg.uses_me h5 h6).bind fun ⟨_, _⟩ => (SProg.uses_random _).bind fun s =>
        (Prog.uses_ask (h4 _)).bind fun _ => Prog.uses_ask (h2 _)
    · trivial
  · trivial

theorem Op.prog_uses (E : Env) (o : Op) : (o.prog E).Uses (StoreOp.In o) := by
  cases o with
  | encrypt a pt =>
    refine (encryptProg_uses E a pt ?_ ?_ ?_ ?_).bind fun _ => trivial <;> intros <;> exact List.mem_singleton.2 rfl
  | decrypt a m =>
    refine Prog.Uses.bind ?_ fun _ => trivial
    cases m with
    | preKey m =>
      refine (decryptPreKeyProg_uses E a m ?_ ?_ ?_ ?_ ?_ ?_ ?_ ?_ ?_).bind fun _ => trivial <;> intros <;>
        simp_all [StoreOp.In, StoreOp.entry, Op.writes, Op.reads]
    | signal m => refine decryptSignalProg_uses E a m ?_ ?_ ?_ ?_ <;> intros <;> exact List.mem_singleton.2 rfl
    | senderKey m => trivial
    | plaintext m => trivial
  | bundle a b =>
    refine (bundleProg_uses E a b ?_ ?_ ?_ ?_ ?_ ?_).bind fun _ => trivial <;> intros <;>
      simp [StoreOp.In, StoreOp.entry, Op.writes]
  | addPreKey id k => exact ⟨List.mem_singleton.2 rfl, fun _ => trivial⟩
  | addSignedPreKey id k => exact ⟨List.mem_singleton.2 rfl, fun _ => trivial⟩

/-! ### The programs end -/

theorem Prog.ends_ask {Op' : Type → Type} {L β : Type} (op : Op' β) : (Prog.ask op : Prog Op' L β).Ends 1 := fun _ => trivial
theorem SProg.ends_random {α : Type} (x : M Bytes α) : (SProg.random x).Ends 1 := fun _ => trivial
theorem SProg.ends_lift {α : Type} (x : Res α) : (SProg.lift x).Ends 0 := trivial
theorem SProg.ends_me : SProg.me.Ends 2 := fun _ _ => trivial
theorem Prog.ends_pure {Op' : Type → Type} {L β : Type} (b : β) : (Pure.pure b : Prog Op' L β).Ends 0 := trivial
theorem Prog.ends_done {Op' : Type → Type} {L β : Type} (n : Nat) (b : Res β) : (Prog.done b : Prog Op' L β).Ends n := by
  cases n <;> trivial

theorem encryptProg_ends (E : Env) (a : Address) (pt : Bytes) : (encryptProg E a pt).Ends 4 := by
  unfold encryptProg
  refine (Prog.ends_ask _).bind (m := 3) fun o => ?_
  cases o with
  | none => exact Prog.ends_done _ _
  | some record =>
    dsimp only
    split
    · exact Prog.ends_done _ _
    · refine (SProg.ends_lift _).bind (n := 0) (m := 3) fun ⟨msg, state', k⟩ => ?_
      refine (Prog.ends_ask _).bind (m := 2) fun t => ?_
      split
      · exact (Prog.ends_ask _).bind (m := 1) fun _ => (Prog.ends_ask _).bind (m := 0) fun _ => Prog.ends_pure _
      · exact Prog.ends_done _ _

theorem optKeyPairProg_ends (o : Option PreKeyRec) : (optKeyPairProg o).Ends 0 := by
  cases o with
  | none => trivial
  | some p => exact (SProg.ends_lift _).bind (n := 0) (m := 0) fun k => trivial

theorem processPreKeyV3Prog_ends (E : Env) (record : Record) (msg : PreKeyMsg) : (processPreKeyV3Prog E record msg).Ends 4 := by
  unfold processPreKeyV3Prog
  refine (SProg.ends_lift _).bind (n := 0) (m := 4) fun found => ?_
  split
  · exact Prog.ends_done _ _
  · refine ((Prog.ends_ask _).bind (m := 0) fun o => optKeyPairProg_ends o).bind (m := 3) fun sp => ?_
    cases msg.preKeyID with
    | none =>
      exact (Prog.ends_done 1 (.ok none)).bind (n := 1) (m := 2) fun ot => SProg.ends_me.bind (m := 0) fun ⟨_, _⟩ =>
        (SProg.ends_lift _).bind (n := 0) (m := 0) fun _ => trivial
    | some id =>
      exact ((Prog.ends_ask _).bind (m := 0) fun o => optKeyPairProg_ends o).bind (n := 1) (m := 2) fun ot =>
        SProg.ends_me.bind (m := 0) fun ⟨_, _⟩ => (SProg.ends_lift _).bind (n := 0) (m := 0) fun _ => trivial

theorem decryptPreKeyProg_ends (E : Env) (a : Address) (msg : PreKeyMsg) : (decryptPreKeyProg E a msg).Ends 10 := by
  unfold decryptPreKeyProg
  refine (Prog.ends_ask _).bind (m := 9) fun stored => ?_
  refine Prog.Ends.bind (n := 6) (m := 3) ?_ fun ⟨id, record⟩ => ?_
  · unfold processPreKeyProg
    refine (Prog.ends_ask _).bind (m := 5) fun t => ?_
    split
    · exact (processPreKeyV3Prog_ends E _ msg).bind (m := 1) fun _ => (Prog.ends_ask _).bind (m := 0) fun _ => trivial
    · exact Prog.ends_done _ _
  · refine (SProg.ends_random _).bind (m := 2) fun ⟨pt, record⟩ => (Prog.ends_ask _).bind (m := 1) fun _ => ?_
    cases id with
    | none => exact Prog.ends_done _ _
    | some id => exact (Prog.ends_ask _).bind (m := 0) fun _ => trivial

theorem decryptSignalProg_ends (E : Env) (a : Address) (msg : Signal) : (decryptSignalProg E a msg).Ends 5 := by
  unfold decryptSignalProg
  refine (Prog.ends_ask _).bind (m := 4) fun o => ?_
  cases o with
  | none => exact Prog.ends_done _ _
  | some record =>
    refine (SProg.ends_random _).bind (m := 3) fun out => ?_
    dsimp only
    split
    · exact Prog.ends_done _ _
    · split
      · refine (Prog.ends_ask _).bind (m := 2) fun t => ?_
        split
        · exact (Prog.ends_ask _).bind (m := 1) fun _ => (Prog.ends_ask _).bind (m := 0) fun _ => trivial
        · exact Prog.ends_done _ _
      · exact Prog.ends_done _ _
      · exact Prog.ends_done _ _

theorem bundleProg_ends (E : Env) (a : Address) (b : Bundle) : (bundleProg E a b).Ends 8 := by
  unfold bundleProg
  refine (Prog.ends_ask _).bind (m := 7) fun t => ?_
  split
  · refine (SProg.ends_lift _).bind (n := 0) (m := 7) fun ok => ?_
    split
    · refine (Prog.ends_ask _).bind (m := 6) fun stored => (SProg.ends_random _).bind (m := 5) fun kp =>
        SProg.ends_me.bind (m := 3) fun ⟨_, _⟩ => (SProg.ends_random _).bind (m := 2) fun s =>
        (Prog.ends_ask _).bind (m := 1) fun _ => Prog.ends_ask _
    · exact Prog.ends_done _ _
  · exact Prog.ends_done _ _

theorem Op.prog_ends (E : Env) (o : Op) : (o.prog E).Ends 10 := by
  cases o with
  | encrypt a pt => exact Prog.Ends.mono (n := 4) (by decide) (Prog.Ends.bind (encryptProg_ends E a pt) (m := 0) fun _ => Prog.ends_done _ _)
  | decrypt a m =>
    refine Prog.Ends.bind (n := 10) (m := 0) ?_ fun _ => trivial
    cases m with
    | preKey m => exact (decryptPreKeyProg_ends E a m).bind (m := 0) fun _ => trivial
    | signal m => exact (decryptSignalProg_ends E a m).mono (by decide)
    | senderKey m => exact Prog.ends_done _ _
    | plaintext m => exact Prog.ends_done _ _
  | bundle a b => exact Prog.Ends.mono (n := 8) (by decide) (Prog.Ends.bind (bundleProg_ends E a b) (m := 0) fun _ => Prog.ends_done _ _)
  | addPreKey id k => exact fun _ => trivial
  | addSignedPreKey id k => exact fun _ => trivial

end Verif
