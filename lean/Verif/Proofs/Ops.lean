import Verif.Model.World

/-!
Complete case analyses of the store-level operations: for each operation, every possible pair of result and final
world. The property proofs are read off from these.
-/

namespace Verif

/-- A result that is not a normal return. -/
def Res.Bad {α} (r : Res α) : Prop := ∀ a, r ≠ .ok a

@[simp] theorem Res.bad_err {α} (e : Err) : (Res.err e : Res α).Bad := fun _ h => by simp at h
@[simp] theorem Res.bad_panic {α} : (Res.panic : Res α).Bad := fun _ h => by simp at h
@[simp] theorem Res.bad_ok {α} (a : α) : ¬ (Res.ok a : Res α).Bad := fun h => h a rfl

theorem Res.ok_or_bad {α} (r : Res α) : (∃ a, r = .ok a) ∨ r.Bad := by
  cases r with
  | ok a => exact .inl ⟨a, rfl⟩
  | err e => exact .inr (by simp)
  | panic => exact .inr (by simp)

theorem storeCall_cases {α} (act : World → α × World) (w : World) :
    ∃ fs, (∀ f ∈ fs, f ∈ w.faults) ∧ (
      (storeCall act w = (.ok (act { w with faults := fs }).1, (act { w with faults := fs }).2)) ∨
      (storeCall act w = (.err .store, { w with faults := fs }) ∧ Fault.before ∈ w.faults) ∨
      (storeCall act w = (.err .store, (act { w with faults := fs }).2) ∧ Fault.after ∈ w.faults)) := by
  unfold storeCall
  rcases hf : w.faults with _ | ⟨f, fs⟩
  · refine ⟨[], by simp, .inl ?_⟩
    have e : ({ w with faults := [] } : World) = w := by rw [← hf]
    simp [e]
  · refine ⟨fs, fun f hf => by simp [hf], ?_⟩
    cases f with
    | none => exact .inl rfl
    | before => exact .inr (.inl ⟨rfl, by simp⟩)
    | after => exact .inr (.inr ⟨rfl, by simp⟩)

theorem storeCall_bind {α β} {act : World → α × World} {f : α → M World β} {w : World} (P : Res β → World → Prop)
    (hok : ∀ fs, (∀ g ∈ fs, g ∈ w.faults) →
      P (f (act { w with faults := fs }).1 (act { w with faults := fs }).2).1
        (f (act { w with faults := fs }).1 (act { w with faults := fs }).2).2)
    (hb : ∀ fs, Fault.before ∈ w.faults → P (.err .store) { w with faults := fs })
    (ha : ∀ fs, Fault.after ∈ w.faults → P (.err .store) (act { w with faults := fs }).2) :
    P ((storeCall act >>= f) w).1 ((storeCall act >>= f) w).2 := by
  obtain ⟨fs, hfs, h | ⟨h, h'⟩ | ⟨h, h'⟩⟩ := storeCall_cases act w
  · rw [M.bind_ok_run h]; exact hok fs hfs
  · rw [M.bind_err_run h]; exact hb fs h'
  · rw [M.bind_err_run h]; exact ha fs h'

theorem lift_bind {σ α β} {r : Res α} {f : α → M σ β} {s : σ} (P : Res β → σ → Prop)
    (hok : ∀ a, r = .ok a → P (f a s).1 (f a s).2) (hb : ∀ r' : Res β, r'.Bad → P r' s) :
    P ((M.lift r >>= f) s).1 ((M.lift r >>= f) s).2 := by
  cases r with
  | ok a => exact hok a rfl
  | err e => exact hb (.err e) (by simp)
  | panic => exact hb .panic (by simp)

/-- The session map as a sharing store shows it after a loaded record was mutated to `r`. -/
def mid (E : Env) (a : Address) (loaded : Bool) (m : Address → Option Record) (r : Record) : Address → Option Record :=
  if E.aliased && loaded then upd m a (some r) else m

theorem touch_run (E : Env) (a : Address) (loaded : Bool) (r : Record) (w : World) :
    touch E a loaded r w = (.ok (), { w with sessions := mid E a loaded w.sessions r }) := by
  unfold touch mid
  split <;> rfl

theorem withRand_run {α} (x : M Bytes α) (w : World) :
    withRand x w = ((x w.rand).1, { w with rand := (x w.rand).2 }) := rfl

theorem upd_upd {α β} [DecidableEq α] (f : α → β) (a : α) (b c : β) : upd (upd f a b) a c = upd f a c := by
  funext x; simp only [upd]; split <;> rfl

theorem upd_self {α β} [DecidableEq α] (f : α → β) (a : α) (b : β) (h : f a = b) : upd f a b = f := by
  funext x; simp only [upd]; split
  · subst_vars; rfl
  · rfl

theorem upd_mid (E : Env) (a : Address) (l : Bool) (m : Address → Option Record) (r r' : Record) :
    upd (mid E a l m r) a (some r') = upd m a (some r') := by
  unfold mid; split
  · exact upd_upd _ _ _ _
  · rfl

theorem mid_mid (E : Env) (a : Address) (l : Bool) (m : Address → Option Record) (r r' : Record) :
    mid E a l (mid E a l m r) r' = mid E a l m r' := by
  unfold mid; split
  · exact upd_upd _ _ _ _
  · rfl

theorem mid_copying {E : Env} (h : E.aliased = false) (a : Address) (l : Bool) (m : Address → Option Record) (r : Record) :
    mid E a l m r = m := by simp [mid, h]

theorem mid_ne (E : Env) {a b : Address} (h : b ≠ a) (l : Bool) (m : Address → Option Record) (r : Record) :
    mid E a l m r b = m b := by
  unfold mid; split
  · exact upd_ne _ _ h
  · rfl

/-! ## EncryptMessage -/

/-- Every outcome of `EncryptMessage`. -/
inductive EncOutcome (E : Env) (a : Address) (pt : Bytes) (w : World) : Res Ciphertext → World → Prop
  /-- stopped before anything was changed -/
  | early (r : Res Ciphertext) (fs : List Fault) (hr : r.Bad) : EncOutcome E a pt w r { w with faults := fs }
  /-- the chain was advanced in memory, then the trust check or a store call stopped the operation -/
  | stopped (r : Res Ciphertext) (fs : List Fault) (hr : r.Bad) (rec : Record) (st st' : SState) (msg : Ciphertext) (k : PubKey)
      (h1 : w.sessions a = some rec) (h2 : rec.current = some st) (h3 : encryptState E.C st pt = .ok (msg, st', k))
      (sessions : Address → Option Record) (known : Address → Option PubKey)
      (hs : sessions = mid E a true w.sessions (rec.setSessionState st') ∨
        (sessions = upd w.sessions a (some (rec.setSessionState st')) ∧ Fault.after ∈ w.faults ∧ E.trusted w.known a k .sending = true))
      (hk : known = w.known ∨ (known = upd w.known a (some k) ∧ E.trusted w.known a k .sending = true)) :
      EncOutcome E a pt w r { w with faults := fs, sessions := sessions, known := known }
  /-- success -/
  | done (fs : List Fault) (rec : Record) (st st' : SState) (msg : Ciphertext) (k : PubKey)
      (h1 : w.sessions a = some rec) (h2 : rec.current = some st) (h3 : encryptState E.C st pt = .ok (msg, st', k))
      (ht : E.trusted w.known a k .sending = true) :
      EncOutcome E a pt w (.ok msg)
        { w with faults := fs, sessions := upd w.sessions a (some (rec.setSessionState st')), known := upd w.known a (some k) }

theorem encrypt_outcome (E : Env) (a : Address) (pt : Bytes) (w : World) :
    EncOutcome E a pt w (encryptMessage E a pt w).1 (encryptMessage E a pt w).2 := by
  unfold encryptMessage
  refine storeCall_bind (EncOutcome E a pt w) (fun f1 hf1 => ?_) (fun fs _ => .early _ _ (by simp))
    (fun fs _ => .early _ _ (by simp))
  simp only
  cases hrec : w.sessions a with
  | none => exact .early _ _ (by simp)
  | some rec =>
  simp only
  cases hst : rec.current with
  | none => exact .early _ _ (by simp)
  | some st =>
  refine lift_bind (EncOutcome E a pt w) (fun out he => ?_) (fun r hr => .early _ _ hr)
  obtain ⟨msg, st', k⟩ := out
  simp only
  rw [M.bind_ok_run (touch_run E a true _ _)]
  simp only
  refine storeCall_bind (EncOutcome E a pt w) (fun f2 hf2 => ?_)
    (fun fs _ => .stopped _ _ (by simp) rec st st' msg k hrec hst he _ w.known (.inl rfl) (.inl rfl))
    (fun fs _ => .stopped _ _ (by simp) rec st st' msg k hrec hst he _ w.known (.inl rfl) (.inl rfl))
  simp only
  by_cases ht : E.trusted w.known a k .sending = true
  rotate_left
  · rw [if_neg ht]
    exact .stopped _ _ (by simp) rec st st' msg k hrec hst he _ w.known (.inl rfl) (.inl rfl)
  rw [if_pos ht]
  refine storeCall_bind (EncOutcome E a pt w) (fun f3 hf3 => ?_)
    (fun fs _ => .stopped _ _ (by simp) rec st st' msg k hrec hst he _ w.known (.inl rfl) (.inl rfl))
    (fun fs _ => .stopped _ _ (by simp) rec st st' msg k hrec hst he _ _ (.inl rfl) (.inr ⟨rfl, ht⟩))
  refine storeCall_bind (EncOutcome E a pt w) (fun f4 hf4 => ?_)
    (fun fs _ => .stopped _ _ (by simp) rec st st' msg k hrec hst he _ _ (.inl rfl) (.inr ⟨rfl, ht⟩))
    (fun fs h => .stopped _ _ (by simp) rec st st' msg k hrec hst he _ _
      (.inr ⟨upd_mid .., hf1 _ (hf2 _ (hf3 _ h)), ht⟩) (.inr ⟨rfl, ht⟩))
  simp only [M.pure_run, upd_mid]
  exact .done _ rec st st' msg k hrec hst he ht

/-! ## DecryptMessage, pre-key messages -/

/-- The key pair loaded for an optional pre-key id. -/
def LoadsPair (m : UInt32 → Option PreKeyRec) (id : UInt32) (o : Option KeyPair) : Prop :=
  (m id = none ∧ o = none) ∨ ∃ p k, m id = some p ∧ p.keyPair = .ok k ∧ o = some k

/-- What processing a pre-key message yields: an existing session is found, or a new one is set up. -/
inductive Processed (E : Env) (w : World) (rec : Record) (msg : PreKeyMsg) : Option UInt32 → Record → Prop
  | found (h : rec.hasSessionState msg.version.toUInt32 msg.baseKey.bytes = .ok true) : Processed E w rec msg none rec
  | fresh (h : rec.hasSessionState msg.version.toUInt32 msg.baseKey.bytes = .ok false) (signed oneTime : Option KeyPair)
      (s : SState) (hs : LoadsPair w.signedPreKeys msg.signedPreKeyID signed)
      (ho : match msg.preKeyID with | none => oneTime = none | some id => LoadsPair w.preKeys id oneTime)
      (hi : initializeBobSession E.C ⟨w.identity, signed, oneTime, signed, msg.identityKey, msg.baseKey⟩ = .ok s)
      (s' : SState) (hs' : s' = { s with localRegistrationId := w.regId, remoteRegistrationId := msg.registrationID, aliceBaseKey := msg.baseKey.bytes }) :
      Processed E w rec msg msg.preKeyID (rec.promoteState s')

/-- The pre-key store after the one-time pre-key was deleted. -/
def dropPreKey (m : UInt32 → Option PreKeyRec) (id : Option UInt32) : UInt32 → Option PreKeyRec :=
  match id with
  | some i => upd m i none
  | none => m

/-- Every outcome of `DecryptMessage` on a pre-key message. -/
inductive PreKeyOutcome (E : Env) (a : Address) (msg : PreKeyMsg) (w : World) : Res Bytes → World → Prop
  /-- stopped before anything was changed -/
  | early (r : Res Bytes) (fs : List Fault) (hr : r.Bad) : PreKeyOutcome E a msg w r { w with faults := fs }
  /-- the session was found or set up in memory, and then the identity could not be stored or decryption failed -/
  | processed (r : Res Bytes) (fs : List Fault) (hr : r.Bad) (id : Option UInt32) (rec : Record) (rd : Bytes)
      (ht : E.trusted w.known a msg.identityKey .receiving = true)
      (hp : Processed E w ((w.sessions a).getD {}) msg id rec)
      (known : Address → Option PubKey) (hk : known = w.known ∨ known = upd w.known a (some msg.identityKey)) :
      PreKeyOutcome E a msg w r
        { w with faults := fs, sessions := mid E a (w.sessions a).isSome w.sessions rec, known := known, rand := rd }
  /-- decrypted, and then a store call failed -/
  | decrypted (r : Res Bytes) (fs : List Fault) (hr : r.Bad) (id : Option UInt32) (rec rec' : Record) (p rd : Bytes)
      (ht : E.trusted w.known a msg.identityKey .receiving = true)
      (hp : Processed E w ((w.sessions a).getD {}) msg id rec)
      (hd : decryptRecord E.C rec msg.message w.rand = (.ok (p, rec'), rd))
      (sessions : Address → Option Record) (preKeys : UInt32 → Option PreKeyRec)
      (hs : (sessions = mid E a (w.sessions a).isSome w.sessions rec' ∧ preKeys = w.preKeys ∧ Fault.before ∈ w.faults) ∨
        (sessions = upd w.sessions a (some rec') ∧ preKeys = w.preKeys ∧
          (Fault.after ∈ w.faults ∨ (Fault.before ∈ w.faults ∧ id.isSome))) ∨
        (sessions = upd w.sessions a (some rec') ∧ preKeys = dropPreKey w.preKeys id ∧ Fault.after ∈ w.faults)) :
      PreKeyOutcome E a msg w r
        { w with faults := fs, sessions := sessions, known := upd w.known a (some msg.identityKey), rand := rd, preKeys := preKeys }
  /-- success -/
  | done (fs : List Fault) (id : Option UInt32) (rec rec' : Record) (p rd : Bytes)
      (ht : E.trusted w.known a msg.identityKey .receiving = true)
      (hp : Processed E w ((w.sessions a).getD {}) msg id rec)
      (hd : decryptRecord E.C rec msg.message w.rand = (.ok (p, rec'), rd)) :
      PreKeyOutcome E a msg w (.ok p)
        { w with faults := fs, sessions := upd w.sessions a (some rec'), known := upd w.known a (some msg.identityKey), rand := rd, preKeys := dropPreKey w.preKeys id }

theorem mid_self (E : Env) (a : Address) (m : Address → Option Record) : mid E a (m a).isSome m ((m a).getD {}) = m := by
  unfold mid; split
  · rename_i h
    apply upd_self
    cases hm : m a with
    | none => simp [hm] at h
    | some r => rfl
  · rfl

theorem bind_assoc_run {σ α β γ} (x : M σ α) (f : α → M σ β) (g : β → M σ γ) (s : σ) :
    ((x >>= f) >>= g) s = (x >>= fun a => f a >>= g) s := by
  rw [M.bind_run, M.bind_run, M.bind_run]
  rcases x s with ⟨r, s'⟩
  cases r with
  | ok a => exact M.bind_run ..
  | err e => rfl
  | panic => rfl

theorem optKeyPair_bind {β} {o : Option PreKeyRec} {f : Option KeyPair → M World β} {w : World}
    (P : Res β → World → Prop)
    (hok : ∀ k, ((o = none ∧ k = none) ∨ ∃ p k', o = some p ∧ p.keyPair = .ok k' ∧ k = some k') → P (f k w).1 (f k w).2)
    (hb : ∀ r' : Res β, r'.Bad → P r' w) :
    P ((optKeyPair o >>= f) w).1 ((optKeyPair o >>= f) w).2 := by
  cases o with
  | none => exact hok none (.inl ⟨rfl, rfl⟩)
  | some p =>
    simp only [optKeyPair]
    rw [bind_assoc_run]
    exact lift_bind P (fun k hk => hok (some k) (.inr ⟨p, k, rfl, hk, rfl⟩)) hb

/-- Outcomes of `ProcessPreKey`. -/
theorem processPreKey_bind {β} {E : Env} {a : Address} {msg : PreKeyMsg} {w0 w : World}
    {f : Option UInt32 × Record → M World β} (P : Res β → World → Prop)
    (hw : ∃ fs, w = { w0 with faults := fs } ∧ ∀ g ∈ fs, g ∈ w0.faults)
    (hearly : ∀ r fs, r.Bad → P r { w0 with faults := fs })
    (hid : ∀ fs id rec known, E.trusted w0.known a msg.identityKey .receiving = true →
      Processed E w0 ((w0.sessions a).getD {}) msg id rec → (known = w0.known ∨ known = upd w0.known a (some msg.identityKey)) →
      P (.err .store) { w0 with faults := fs, sessions := mid E a (w0.sessions a).isSome w0.sessions rec, known := known })
    (hok : ∀ fs id rec, (∀ g ∈ fs, g ∈ w0.faults) → E.trusted w0.known a msg.identityKey .receiving = true →
      Processed E w0 ((w0.sessions a).getD {}) msg id rec →
      ∀ w', w' = { w0 with faults := fs, sessions := mid E a (w0.sessions a).isSome w0.sessions rec, known := upd w0.known a (some msg.identityKey) } →
      P (f (id, rec) w').1 (f (id, rec) w').2) :
    P ((processPreKey E a (w0.sessions a).isSome ((w0.sessions a).getD {}) msg >>= f) w).1
      ((processPreKey E a (w0.sessions a).isSome ((w0.sessions a).getD {}) msg >>= f) w).2 := by
  obtain ⟨fs0, rfl, hfs0⟩ := hw
  unfold processPreKey
  rw [bind_assoc_run]
  refine storeCall_bind P (fun f1 hf1 => ?_) (fun fs _ => hearly _ _ (by simp)) (fun fs _ => hearly _ _ (by simp))
  simp only
  by_cases ht : E.trusted w0.known a msg.identityKey .receiving = true
  rotate_left
  · rw [if_neg ht]
    exact hearly (.err _) _ (by simp)
  rw [if_pos ht]
  unfold processPreKeyV3
  rw [bind_assoc_run, bind_assoc_run]
  refine lift_bind P (fun found hfound => ?_) (fun r hr => hearly _ _ hr)
  have hend : ∀ fs id rec, (∀ g ∈ fs, g ∈ w0.faults) → Processed E w0 ((w0.sessions a).getD {}) msg id rec →
      ∀ w1, w1 = { w0 with faults := fs, sessions := mid E a (w0.sessions a).isSome w0.sessions rec } →
      P (((storeIdentity a msg.identityKey >>= fun _ => (pure (id, rec) : M World _)) >>= f) w1).1
        (((storeIdentity a msg.identityKey >>= fun _ => (pure (id, rec) : M World _)) >>= f) w1).2 := by
    rintro fs id rec hfs hp w1 rfl
    rw [bind_assoc_run]
    refine storeCall_bind P (fun f2 hf2 => ?_) (fun fs _ => hid _ _ _ _ ht hp (.inl rfl))
      (fun fs _ => hid _ _ _ _ ht hp (.inr rfl))
    exact hok f2 id rec (fun g hg => hfs g (hf2 g hg)) ht hp _ rfl
  cases found with
  | true =>
    refine hend f1 none _ (fun g hg => hfs0 g (hf1 g hg)) (.found hfound) _ ?_
    rw [mid_self]
  | false =>
    simp only [Bool.false_eq_true, if_false]
    rw [bind_assoc_run, bind_assoc_run]
    refine storeCall_bind P (fun f2 hf2 => ?_) (fun fs _ => hearly _ _ (by simp)) (fun fs _ => hearly _ _ (by simp))
    refine optKeyPair_bind P (fun signed hsigned => ?_) (fun r hr => hearly _ _ hr)
    simp only at hsigned
    have hrest : ∀ oneTime fs, (∀ g ∈ fs, g ∈ w0.faults) →
        (match msg.preKeyID with | none => oneTime = none | some id => LoadsPair w0.preKeys id oneTime) →
        P (((do
          let w ← M.get
          let s ← M.lift (orPanic (initializeBobSession E.C
            { ourIdentityKeyPair := w.identity, ourSignedPreKeyPair := signed,
              ourOneTimePreKeyPair := oneTime, ourRatchetKeyPair := signed,
              theirIdentityKey := msg.identityKey, theirBaseKey := msg.baseKey }))
          let s := { s with localRegistrationId := w.regId, remoteRegistrationId := msg.registrationID,
                            aliceBaseKey := msg.baseKey.bytes }
          let record := ((w0.sessions a).getD {}).promoteState s
          touch E a (w0.sessions a).isSome record
          (pure (msg.preKeyID, record) : M World _)) >>= fun out => ((storeIdentity a msg.identityKey >>= fun _ => (pure out : M World _)) >>= f)) { w0 with faults := fs }).1
          (((do
          let w ← M.get
          let s ← M.lift (orPanic (initializeBobSession E.C
            { ourIdentityKeyPair := w.identity, ourSignedPreKeyPair := signed,
              ourOneTimePreKeyPair := oneTime, ourRatchetKeyPair := signed,
              theirIdentityKey := msg.identityKey, theirBaseKey := msg.baseKey }))
          let s := { s with localRegistrationId := w.regId, remoteRegistrationId := msg.registrationID,
                            aliceBaseKey := msg.baseKey.bytes }
          let record := ((w0.sessions a).getD {}).promoteState s
          touch E a (w0.sessions a).isSome record
          (pure (msg.preKeyID, record) : M World _)) >>= fun out => ((storeIdentity a msg.identityKey >>= fun _ => (pure out : M World _)) >>= f)) { w0 with faults := fs }).2 := by
      intro oneTime fs hfs ho
      rw [bind_assoc_run, M.bind_ok_run (M.get_run _)]
      rw [bind_assoc_run]
      refine lift_bind P (fun s hs => ?_) (fun r hr => hearly _ _ hr)
      have hi : initializeBobSession E.C ⟨w0.identity, signed, oneTime, signed, msg.identityKey, msg.baseKey⟩ = .ok s := by
        revert hs
        cases initializeBobSession E.C ⟨w0.identity, signed, oneTime, signed, msg.identityKey, msg.baseKey⟩ <;> simp [orPanic]
      rw [bind_assoc_run, M.bind_ok_run (touch_run E a _ _ _)]
      exact hend fs _ _ hfs (.fresh hfound signed oneTime s hsigned ho hi _ rfl) _ rfl
    have hf2' : ∀ g ∈ f2, g ∈ w0.faults := fun g hg => hfs0 g (hf1 g (hf2 g hg))
    cases hpid : msg.preKeyID with
    | none =>
      simp only [hpid] at hrest
      exact hrest none f2 hf2' rfl
    | some id =>
      simp only [hpid] at hrest
      rw [bind_assoc_run, bind_assoc_run]
      refine storeCall_bind P (fun f3 hf3 => ?_) (fun fs _ => hearly _ _ (by simp)) (fun fs _ => hearly _ _ (by simp))
      refine optKeyPair_bind P (fun oneTime ho => ?_) (fun r hr => hearly _ _ hr)
      exact hrest oneTime f3 (fun g hg => hf2' g (hf3 g hg)) ho

theorem withRand_bind {α β} {x : M Bytes α} {f : α → M World β} {w : World} (P : Res β → World → Prop)
    (hok : ∀ a rd, x w.rand = (.ok a, rd) → P (f a { w with rand := rd }).1 (f a { w with rand := rd }).2)
    (hb : ∀ (r' : Res β) rd, r'.Bad → P r' { w with rand := rd }) :
    P ((withRand x >>= f) w).1 ((withRand x >>= f) w).2 := by
  rw [M.bind_run, withRand_run]
  rcases h : x w.rand with ⟨r, rd⟩
  cases r with
  | ok a => exact hok a rd h
  | err e => exact hb (.err e) rd (by simp)
  | panic => exact hb .panic rd (by simp)

theorem preKey_outcome (E : Env) (a : Address) (msg : PreKeyMsg) (w : World) :
    PreKeyOutcome E a msg w (decryptPreKey E a msg w).1 (decryptPreKey E a msg w).2 := by
  unfold decryptPreKey
  refine storeCall_bind (PreKeyOutcome E a msg w) (fun f1 hf1 => ?_) (fun fs _ => .early _ _ (by simp))
    (fun fs _ => .early _ _ (by simp))
  simp only
  refine processPreKey_bind (w0 := w) (PreKeyOutcome E a msg w) ⟨f1, rfl, hf1⟩ (fun r fs hr => .early _ _ hr)
    (fun fs id rec known ht hp hk => .processed _ _ (by simp) id rec w.rand ht hp known hk) ?_
  rintro f2 id rec hf2 ht hp w' rfl
  refine withRand_bind (PreKeyOutcome E a msg w) (fun out rd hd => ?_)
    (fun r rd hr => .processed _ _ hr id rec rd ht hp _ (.inr rfl))
  obtain ⟨p, rec'⟩ := out
  simp only at hd ⊢
  rw [M.bind_ok_run (touch_run E a _ _ _)]
  simp only
  rw [mid_mid]
  refine storeCall_bind (PreKeyOutcome E a msg w) (fun f3 hf3 => ?_)
    (fun fs h => .decrypted _ _ (by simp) id rec rec' p rd ht hp hd _ _ (.inl ⟨rfl, rfl, hf2 _ h⟩))
    (fun fs h => .decrypted _ _ (by simp) id rec rec' p rd ht hp hd _ _ (.inr (.inl ⟨upd_mid .., rfl, .inl (hf2 _ h)⟩)))
  simp only
  rw [upd_mid]
  cases id with
  | none => exact .done _ none rec rec' p rd ht hp hd
  | some i =>
    refine storeCall_bind (PreKeyOutcome E a msg w) (fun f4 hf4 => ?_)
      (fun fs h => .decrypted _ _ (by simp) (some i) rec rec' p rd ht hp hd _ _ (.inr (.inl ⟨rfl, rfl, .inr ⟨hf2 _ (hf3 _ h), rfl⟩⟩)))
      (fun fs h => .decrypted _ _ (by simp) (some i) rec rec' p rd ht hp hd _ _ (.inr (.inr ⟨rfl, rfl, hf2 _ (hf3 _ h)⟩)))
    exact .done _ (some i) rec rec' p rd ht hp hd

/-! ## DecryptMessage, Signal messages -/

/-- Result of trying to decrypt with a record: the plaintext and new record, or nil and the old record. -/
inductive Tried (E : Env) (rec : Record) (msg : Signal) (rd : Bytes) : Option Bytes → Record → Bytes → Prop
  | ok (p : Bytes) (rec' : Record) (rd' : Bytes) (h : decryptRecord E.C rec msg rd = (.ok (p, rec'), rd')) :
      Tried E rec msg rd (some p) rec' rd'
  | failed (e : Err) (rd' : Bytes) (h : decryptRecord E.C rec msg rd = (.err e, rd')) : Tried E rec msg rd none rec rd'

/-- Every outcome of `DecryptMessage` on a Signal message. -/
inductive SignalOutcome (E : Env) (a : Address) (msg : Signal) (w : World) : Res (Option Bytes) → World → Prop
  /-- stopped before anything was changed -/
  | early (r : Res (Option Bytes)) (fs : List Fault) (rd : Bytes) (hr : r.Bad) :
      SignalOutcome E a msg w r { w with faults := fs, rand := rd }
  /-- stopped after decryption was tried -/
  | stopped (r : Res (Option Bytes)) (fs : List Fault) (hr : r.Bad) (rec rec' : Record) (pt : Option Bytes) (rd : Bytes)
      (h1 : w.sessions a = some rec) (h2 : Tried E rec msg w.rand pt rec' rd)
      (sessions : Address → Option Record) (known : Address → Option PubKey)
      (hs : sessions = mid E a true w.sessions rec' ∨ (sessions = upd w.sessions a (some rec') ∧ Fault.after ∈ w.faults ∧
        ∃ st k, rec'.current = some st ∧ st.remoteIdentityKey = .ok (some k) ∧ E.trusted w.known a k .receiving = true))
      (hk : known = w.known ∨ ∃ st k, rec'.current = some st ∧ st.remoteIdentityKey = .ok (some k) ∧
        E.trusted w.known a k .receiving = true ∧ known = upd w.known a (some k)) :
      SignalOutcome E a msg w r { w with faults := fs, sessions := sessions, known := known, rand := rd }
  /-- normal return, with or without a plaintext -/
  | done (fs : List Fault) (rec rec' : Record) (pt : Option Bytes) (rd : Bytes) (st : SState) (k : PubKey)
      (h1 : w.sessions a = some rec) (h2 : Tried E rec msg w.rand pt rec' rd)
      (h3 : rec'.current = some st) (h4 : st.remoteIdentityKey = .ok (some k))
      (ht : E.trusted w.known a k .receiving = true) :
      SignalOutcome E a msg w (.ok pt)
        { w with faults := fs, sessions := upd w.sessions a (some rec'), known := upd w.known a (some k), rand := rd }

theorem signal_outcome (E : Env) (a : Address) (msg : Signal) (w : World) :
    SignalOutcome E a msg w (decryptSignal E a msg w).1 (decryptSignal E a msg w).2 := by
  unfold decryptSignal
  refine storeCall_bind (SignalOutcome E a msg w) (fun f1 hf1 => ?_) (fun fs _ => .early _ _ w.rand (by simp))
    (fun fs _ => .early _ _ w.rand (by simp))
  simp only
  cases hrec : w.sessions a with
  | none => exact .early _ _ w.rand (by simp)
  | some rec =>
  simp only
  have key : ∀ (pt : Option Bytes) rec' rd, Tried E rec msg w.rand pt rec' rd → ∀ w1 : World,
      w1 = { w with faults := f1, rand := rd } →
      SignalOutcome E a msg w
        ((touch E a true rec' >>= fun _ => match rec'.current with
          | none => (M.throw .mustHaveState : M World (Option Bytes))
          | some state =>
            match state.remoteIdentityKey with
            | .ok (some theirIdentityKey) => do
              let trusted ← isTrusted E a theirIdentityKey .receiving
              if trusted then
                storeIdentity a theirIdentityKey
                storeSession a rec'
                return pt
              else M.throw (.untrustedIdentity a)
            | .panic => M.panic
            | _ => M.throw .mustHaveIdentity) w1).1
        ((touch E a true rec' >>= fun _ => match rec'.current with
          | none => (M.throw .mustHaveState : M World (Option Bytes))
          | some state =>
            match state.remoteIdentityKey with
            | .ok (some theirIdentityKey) => do
              let trusted ← isTrusted E a theirIdentityKey .receiving
              if trusted then
                storeIdentity a theirIdentityKey
                storeSession a rec'
                return pt
              else M.throw (.untrustedIdentity a)
            | .panic => M.panic
            | _ => M.throw .mustHaveIdentity) w1).2 := by
    rintro pt rec' rd htried w1 rfl
    rw [M.bind_ok_run (touch_run E a true _ _)]
    have stop : ∀ (r : Res (Option Bytes)) fs, r.Bad → SignalOutcome E a msg w r
        { w with faults := fs, sessions := mid E a true w.sessions rec', rand := rd } :=
      fun r fs hr => .stopped r fs hr rec rec' pt rd hrec htried _ w.known (.inl rfl) (.inl rfl)
    cases hst : rec'.current with
    | none => exact stop _ _ (by simp)
    | some st =>
    simp only
    have hk : ∀ r : Res (Option PubKey), st.remoteIdentityKey = r → (∃ k, r = .ok (some k)) ∨ r = .ok none ∨ (∃ e, r = .err e) ∨ r = .panic := by
      intro r _
      cases r with
      | ok o => cases o with
        | none => exact .inr (.inl rfl)
        | some k => exact .inl ⟨k, rfl⟩
      | err e => exact .inr (.inr (.inl ⟨e, rfl⟩))
      | panic => exact .inr (.inr (.inr rfl))
    obtain ⟨k, hk⟩ | hk | ⟨e, hk⟩ | hk := hk _ rfl
    rotate_left
    · rw [hk]; exact stop _ _ (by simp)
    · rw [hk]; exact stop _ _ (by simp)
    · rw [hk]; exact stop _ _ (by simp)
    rw [hk]
    simp only
    refine storeCall_bind (SignalOutcome E a msg w) (fun f2 hf2 => ?_) (fun fs _ => stop _ _ (by simp))
      (fun fs _ => stop _ _ (by simp))
    simp only
    by_cases ht : E.trusted w.known a k .receiving = true
    rotate_left
    · rw [if_neg ht]; exact stop _ _ (by simp)
    rw [if_pos ht]
    refine storeCall_bind (SignalOutcome E a msg w) (fun f3 hf3 => ?_) (fun fs _ => stop _ _ (by simp))
      (fun fs _ => .stopped _ _ (by simp) rec rec' pt rd hrec htried _ _ (.inl rfl) (.inr ⟨st, k, hst, hk, ht, rfl⟩))
    refine storeCall_bind (SignalOutcome E a msg w) (fun f4 hf4 => ?_)
      (fun fs _ => .stopped _ _ (by simp) rec rec' pt rd hrec htried _ _ (.inl rfl) (.inr ⟨st, k, hst, hk, ht, rfl⟩))
      (fun fs h => .stopped _ _ (by simp) rec rec' pt rd hrec htried _ _ (.inr ⟨upd_mid .., hf1 _ (hf2 _ (hf3 _ h)), st, k, hst, hk, ht⟩)
        (.inr ⟨st, k, hst, hk, ht, rfl⟩))
    simp only [M.pure_run, upd_mid]
    exact .done _ rec rec' pt rd st k hrec htried hst hk ht
  rw [M.bind_run, M.attempt, withRand_run]
  simp only
  rcases hd : decryptRecord E.C rec msg w.rand with ⟨r, rd⟩
  cases r with
  | ok out =>
    obtain ⟨p, rec'⟩ := out
    exact key (some p) rec' rd (.ok p rec' rd hd) _ rfl
  | err e => exact key none rec rd (.failed e rd hd) _ rfl
  | panic => exact .early _ _ _ (by simp)

/-! ## ProcessPreKeyBundle -/

/-- The state `ProcessPreKeyBundle` creates from a bundle and randomness. -/
inductive FromBundle (E : Env) (w : World) (b : Bundle) : SState → Bytes → Prop
  | mk (base : KeyPair) (rd1 rd2 : Bytes) (s : SState) (hb : generateKeyPair E.C w.rand = (.ok base, rd1))
      (hi : initializeAliceSession E.C
        ⟨w.identity, base, b.identityKey, b.signedPreKeyPublic, b.preKeyPublic, b.signedPreKeyPublic⟩ rd1 = (.ok s, rd2))
      (s' : SState) (hs' : s' = { s.setUnacknowledgedPreKeyMessage b.preKeyID b.signedPreKeyID base.pub with localRegistrationId := w.regId, remoteRegistrationId := b.registrationID, aliceBaseKey := base.pub.bytes }) :
      FromBundle E w b s' rd2

/-- Every outcome of `ProcessPreKeyBundle`. -/
inductive BundleOutcome (E : Env) (a : Address) (b : Bundle) (w : World) : Res Unit → World → Prop
  /-- stopped before anything was changed -/
  | early (r : Res Unit) (fs : List Fault) (rd : Bytes) (hr : r.Bad) :
      BundleOutcome E a b w r { w with faults := fs, rand := rd }
  /-- the session was set up, and then a store call failed -/
  | stopped (r : Res Unit) (fs : List Fault) (hr : r.Bad) (s : SState) (rd : Bytes)
      (ht : E.trusted w.known a b.identityKey .sending = true)
      (hv : b.identityKey.verifySignature E.C b.signedPreKeySignature [b.signedPreKeyPublic.bytes] = .ok true)
      (h : FromBundle E w b s rd) (sessions : Address → Option Record) (known : Address → Option PubKey)
      (hk : (known = w.known ∧ sessions = w.sessions) ∨ (known = upd w.known a (some b.identityKey) ∧
        (sessions = w.sessions ∨ sessions = mid E a (w.sessions a).isSome w.sessions (((w.sessions a).getD {}).promoteState s) ∨
        (sessions = upd w.sessions a (some (((w.sessions a).getD {}).promoteState s)) ∧ Fault.after ∈ w.faults)))) :
      BundleOutcome E a b w r { w with faults := fs, sessions := sessions, known := known, rand := rd }
  /-- success -/
  | done (fs : List Fault) (s : SState) (rd : Bytes)
      (ht : E.trusted w.known a b.identityKey .sending = true)
      (hv : b.identityKey.verifySignature E.C b.signedPreKeySignature [b.signedPreKeyPublic.bytes] = .ok true)
      (h : FromBundle E w b s rd) :
      BundleOutcome E a b w (.ok ())
        { w with faults := fs, sessions := upd w.sessions a (some (((w.sessions a).getD {}).promoteState s)), known := upd w.known a (some b.identityKey), rand := rd }

theorem bundle_outcome (E : Env) (a : Address) (b : Bundle) (w : World) :
    BundleOutcome E a b w (processPreKeyBundle E a b w).1 (processPreKeyBundle E a b w).2 := by
  unfold processPreKeyBundle
  refine storeCall_bind (BundleOutcome E a b w) (fun f1 hf1 => ?_) (fun fs _ => .early _ _ w.rand (by simp))
    (fun fs _ => .early _ _ w.rand (by simp))
  simp only
  by_cases ht : E.trusted w.known a b.identityKey .sending = true
  rotate_left
  · rw [if_neg ht]; exact .early _ _ w.rand (by simp)
  rw [if_pos ht]
  refine lift_bind (BundleOutcome E a b w) (fun ok hv => ?_) (fun r hr => .early _ _ w.rand hr)
  cases ok with
  | false => exact .early _ _ w.rand (by simp)
  | true =>
  simp only [if_true]
  refine storeCall_bind (BundleOutcome E a b w) (fun f2 hf2 => ?_) (fun fs _ => .early _ _ w.rand (by simp))
    (fun fs _ => .early _ _ w.rand (by simp))
  simp only
  refine withRand_bind (BundleOutcome E a b w) (fun base rd1 hb => ?_) (fun r rd hr => .early _ _ rd hr)
  rw [M.bind_ok_run (M.get_run _)]
  refine withRand_bind (BundleOutcome E a b w) (fun s rd2 hi => ?_) (fun r rd hr => .early _ _ rd hr)
  have hfb := FromBundle.mk (E := E) (w := w) (b := b) base rd1 rd2 s hb hi _ rfl
  refine storeCall_bind (BundleOutcome E a b w) (fun f3 hf3 => ?_)
    (fun fs _ => .stopped _ _ (by simp) _ rd2 ht hv hfb _ _ (.inl ⟨rfl, rfl⟩))
    (fun fs _ => .stopped _ _ (by simp) _ rd2 ht hv hfb _ _ (.inr ⟨rfl, .inl rfl⟩))
  simp only
  rw [M.bind_ok_run (touch_run E a _ _ _)]
  obtain ⟨r, hr⟩ : ∃ r, r = Record.promoteState ((w.sessions a).getD {}) ({ s.setUnacknowledgedPreKeyMessage b.preKeyID b.signedPreKeyID base.pub with localRegistrationId := w.regId, remoteRegistrationId := b.registrationID, aliceBaseKey := base.pub.bytes }) := ⟨_, rfl⟩
  rw [← hr]
  have hbind : ∀ (x : M World Unit) (s : World), x s = (x >>= fun u => (pure u : M World Unit)) s := by
    intro x s
    rw [M.bind_run]
    rcases x s with ⟨r, s'⟩
    cases r <;> rfl
  rw [hbind (storeSession a r)]
  refine storeCall_bind (BundleOutcome E a b w) (fun f4 hf4 => ?_)
    (fun fs _ => .stopped _ _ (by simp) _ rd2 ht hv hfb _ _ (.inr ⟨rfl, .inr (.inl (by rw [hr]))⟩))
    (fun fs h => .stopped _ _ (by simp) _ rd2 ht hv hfb _ _ (.inr ⟨rfl, .inr (.inr ⟨by rw [hr]; exact upd_mid .., hf1 _ (hf2 _ (hf3 _ h))⟩)⟩))
  simp only [M.pure_run, upd_mid, hr]
  exact .done _ _ rd2 ht hv hfb

end Verif
