import Verif.Spec.Unrandom
import Verif.Proofs.Messages

/-!
# Helper lemmas for results that do not depend on the random bytes
-/

namespace Verif

/-- Two results are the same up to relations on values and on states. -/
def AlikeRes {σ α} (R : α → α → Prop) (Q : σ → σ → Prop) : Res α × σ → Res α × σ → Prop
  | (.ok x, s), (.ok x', s') => R x x' ∧ Q s s'
  | (.err e, s), (.err e', s') => e = e' ∧ Q s s'
  | (.panic, s), (.panic, s') => Q s s'
  | _, _ => False

/-- Two programs do the same up to relations. -/
def RunsAlike {σ α} (P Q : σ → σ → Prop) (R : α → α → Prop) (x x' : M σ α) : Prop :=
  ∀ s s', P s s' → AlikeRes R Q (x s) (x' s')

theorem RunsAlike.bind {σ α β} {P Q Q' : σ → σ → Prop} {R : α → α → Prop} {R' : β → β → Prop} {x x' : M σ α} {f f' : α → M σ β}
    (hx : RunsAlike P Q R x x') (hQ : ∀ s s', Q s s' → Q' s s') (hf : ∀ y y', R y y' → RunsAlike Q Q' R' (f y) (f' y')) :
    RunsAlike P Q' R' (x >>= f) (x' >>= f') := by
  intro s s' hP
  have h := hx s s' hP
  rw [M.bind_run, M.bind_run]
  rcases h1 : x s with ⟨r, t⟩
  rcases h2 : x' s' with ⟨r', t'⟩
  rw [h1, h2] at h
  cases r <;> cases r' <;> simp only [AlikeRes] at h ⊢
  · exact hf _ _ h.1 _ _ h.2
  · exact ⟨h.1, hQ _ _ h.2⟩
  · exact hQ _ _ h

theorem RunsAlike.pure {σ α} {P : σ → σ → Prop} {R : α → α → Prop} {x x' : α} (h : R x x') : RunsAlike P P R (Pure.pure x) (Pure.pure x') :=
  fun s s' hP => ⟨h, hP⟩

theorem RunsAlike.throw {σ α} {P : σ → σ → Prop} {R : α → α → Prop} (e : Err) : RunsAlike P P R (M.throw e : M σ α) (M.throw e) :=
  fun s s' hP => ⟨rfl, hP⟩

/-- Two results of pure code are the same up to a relation. -/
def AlikeVal {α} (R : α → α → Prop) : Res α → Res α → Prop
  | .ok x, .ok x' => R x x'
  | .err e, .err e' => e = e'
  | .panic, .panic => True
  | _, _ => False

theorem AlikeVal.refl {α} {R : α → α → Prop} (h : ∀ x, R x x) (r : Res α) : AlikeVal R r r := by
  cases r <;> simp [AlikeVal, h]

theorem AlikeVal.bind {α β} {R : α → α → Prop} {R' : β → β → Prop} {x x' : Res α} {f f' : α → Res β}
    (hx : AlikeVal R x x') (hf : ∀ y y', R y y' → AlikeVal R' (f y) (f' y')) : AlikeVal R' (x >>= f) (x' >>= f') := by
  cases x <;> cases x' <;> simp only [AlikeVal] at hx
  · exact hf _ _ hx
  · subst hx; simp [AlikeVal]
  · simp [AlikeVal]

theorem RunsAlike.lift {σ α} {P : σ → σ → Prop} {R : α → α → Prop} {x x' : Res α} (h : AlikeVal R x x') :
    RunsAlike P P R (M.lift x) (M.lift x') := by
  intro s s' hP
  rw [M.lift_run, M.lift_run]
  cases x <;> cases x' <;> simp only [AlikeVal] at h <;> simp_all [AlikeRes]

theorem RunsAlike.attempt {σ α} {P Q : σ → σ → Prop} {R : α → α → Prop} {x x' : M σ α} (h : RunsAlike P Q R x x') :
    RunsAlike P Q (fun a b => match a, b with | .ok a, .ok b => R a b | .error e, .error e' => e = e' | _, _ => False)
      (M.attempt x) (M.attempt x') := by
  intro s s' hP
  have h := h s s' hP
  unfold M.attempt
  rcases h1 : x s with ⟨r, t⟩
  rcases h2 : x' s' with ⟨r', t'⟩
  rw [h1, h2] at h
  cases r <;> cases r' <;> simp only [AlikeRes] at h ⊢ <;> exact h

/-! ## The session cipher -/

/-- As many random bytes. -/
def SameLength (r r' : Bytes) : Prop := r'.length = r.length

theorem readFull_alike (n : Nat) : RunsAlike SameLength SameLength SameLength (readFull n) (readFull n) := by
  intro r r' h
  unfold SameLength at h
  unfold readFull
  simp only [h]
  split
  · exact ⟨by simp [SameLength, h], by simp [SameLength, h]⟩
  · simp [AlikeRes, SameLength]

theorem generateKeyPair_alike (C : Crypto) : RunsAlike SameLength SameLength (fun _ _ => True) (generateKeyPair C) (generateKeyPair C) := by
  unfold generateKeyPair generatePrivateKey
  refine RunsAlike.bind (R := fun _ _ => True) (Q := SameLength) ?_ (fun _ _ h => h) fun _ _ _ => RunsAlike.pure trivial
  refine RunsAlike.bind (readFull_alike 32) (fun _ _ h => h) fun y y' h => ?_
  refine RunsAlike.lift ?_
  unfold newPrivateKey
  unfold SameLength at h
  simp only [h]
  split <;> simp [AlikeVal]

theorem createChain_alike (C : Crypto) (r r' : RootKey) (k k' : PrivKey) (q : PubKey) (h : (C.dh k.key q.key).isSome = (C.dh k'.key q.key).isSome) :
    AlikeVal (fun _ _ => True) (r.createChain C k q) (r'.createChain C k' q) := by
  unfold RootKey.createChain PrivKey.agreement PubKey.keyBytes
  cases h1 : C.dh k.key q.key with
  | none =>
    cases h2 : C.dh k'.key q.key with
    | none => simp [AlikeVal]
    | some d' => simp [h1, h2] at h
  | some d =>
    cases h2 : C.dh k'.key q.key with
    | none => simp [h1, h2] at h
    | some d' =>
      simp only [Res.ofOption_some, Res.bind_ok, newRootKey, newChainKey]
      simp [AlikeVal, C.hkdf_len]

namespace SState

/-- The state with other own keys. -/
def own (s : SState) (root : Bytes) (chain : Option PBChain) : SState := { s with rootKey := root, senderChain := chain }

variable (root : Bytes) (chain : Option PBChain)

theorem own_setMessageKeys (s : SState) (k : PubKey) (mk : MessageKeys) :
    AlikeVal (fun t t' => t' = t.own root chain) (s.setMessageKeys k mk) ((s.own root chain).setMessageKeys k mk) := by
  unfold setMessageKeys receiverChain own
  simp only
  cases findChain k.bytes s.receiverChains 0 <;> simp [AlikeVal]

theorem own_setReceiverChainKey (s : SState) (k : PubKey) (ck : ChainKey) :
    AlikeVal (fun t t' => t' = t.own root chain) (s.setReceiverChainKey k ck) ((s.own root chain).setReceiverChainKey k ck) := by
  unfold setReceiverChainKey receiverChain own
  simp only
  cases findChain k.bytes s.receiverChains 0 <;> simp [AlikeVal]

theorem own_takeMessageKeys (s : SState) (k : PubKey) (n : UInt32) :
    AlikeVal (fun x x' => x' = (x.1, x.2.own root chain)) (s.takeMessageKeys k n) ((s.own root chain).takeMessageKeys k n) := by
  unfold takeMessageKeys receiverChain own
  simp only
  cases findChain k.bytes s.receiverChains 0 with
  | none => simp [AlikeVal]
  | some x =>
    simp only
    cases (List.filter (fun k => decide (k.index = n)) x.2.messageKeys).getLast? with
    | none => simp [AlikeVal]
    | some mk =>
      refine AlikeVal.bind (AlikeVal.refl (R := (· = ·)) (fun _ => rfl) _) ?_
      rintro y _ rfl
      simp [AlikeVal]

end SState

theorem own_skipLoop (C : Crypto) (root : Bytes) (chain : Option PBChain) (k : PubKey) (n : UInt32) (fuel : Nat) (ck : ChainKey) (s : SState) :
    AlikeVal (fun x x' => x' = (x.1, x.2.own root chain)) (skipLoop C k n fuel ck s) (skipLoop C k n fuel ck (s.own root chain)) := by
  induction fuel generalizing ck s with
  | zero => simp [skipLoop, AlikeVal]
  | succ fuel ih =>
    unfold skipLoop
    split
    · refine AlikeVal.bind (s.own_setMessageKeys root chain k _) ?_
      rintro y _ rfl
      exact ih _ _
    · simp [AlikeVal]

theorem own_messageKeysFor (C : Crypto) (root : Bytes) (chain : Option PBChain) (s : SState) (k : PubKey) (ck : ChainKey) (n : UInt32) :
    AlikeVal (fun x x' => x' = (x.1, x.2.own root chain)) (messageKeysFor C s k ck n) (messageKeysFor C (s.own root chain) k ck n) := by
  have rest : AlikeVal (fun x x' => x' = (x.1, x.2.own root chain))
      (do
        let (ck, s) ← skipLoop C k n (n.toNat - ck.index.toNat) ck s
        let s ← s.setReceiverChainKey k ck
        (pure (ck.messageKeys C, s) : Res (MessageKeys × SState)))
      (do
        let (ck, s) ← skipLoop C k n (n.toNat - ck.index.toNat) ck (s.own root chain)
        let s ← s.setReceiverChainKey k ck
        (pure (ck.messageKeys C, s) : Res (MessageKeys × SState))) := by
    refine AlikeVal.bind (own_skipLoop C root chain k n _ ck s) ?_
    rintro ⟨ck1, s1⟩ _ rfl
    refine AlikeVal.bind (s1.own_setReceiverChainKey root chain k ck1) ?_
    rintro s2 _ rfl
    simp [AlikeVal]
  unfold messageKeysFor
  split
  · refine AlikeVal.bind (s.own_takeMessageKeys root chain k n) ?_
    rintro ⟨o, s1⟩ _ rfl
    cases o <;> simp [AlikeVal]
  · simp only
    split
    · refine AlikeVal.bind (R := (· = ·)) (AlikeVal.refl (fun _ => rfl) s.sessionWithSelf) ?_
      rintro b _ rfl
      cases b with
      | false => simp [AlikeVal]
      | true => exact rest
    · exact rest

theorem chainKeyFor_alike (C : Crypto) (s : SState) (q : PubKey) (hq : OrderOfKey C q) :
    RunsAlike SameLength SameLength (fun x x' => ∃ root chain, x' = (x.1, x.2.own root chain)) (chainKeyFor C s q) (chainKeyFor C s q) := by
  unfold chainKeyFor
  refine RunsAlike.bind (RunsAlike.lift (AlikeVal.refl (R := (· = ·)) (fun _ => rfl) _)) (fun _ _ h => h) ?_
  rintro o _ rfl
  cases o with
  | some c => exact RunsAlike.pure ⟨s.rootKey, s.senderChain, rfl⟩
  | none =>
    refine RunsAlike.bind (RunsAlike.lift (AlikeVal.refl (R := (· = ·)) (fun _ => rfl) _)) (fun _ _ h => h) ?_
    rintro rk _ rfl
    refine RunsAlike.bind (RunsAlike.lift (AlikeVal.refl (R := (· = ·)) (fun _ => rfl) _)) (fun _ _ h => h) ?_
    rintro pk _ rfl
    refine RunsAlike.bind (RunsAlike.lift (AlikeVal.refl (R := (· = ·)) (fun _ => rfl) _)) (fun _ _ h => h) ?_
    rintro ⟨rr, rc⟩ _ rfl
    refine RunsAlike.bind (generateKeyPair_alike C) (fun _ _ h => h) fun kp kp' _ => ?_
    refine RunsAlike.bind (RunsAlike.lift (createChain_alike C _ _ _ _ q (hq _ _))) (fun _ _ h => h) ?_
    rintro ⟨sr, sc⟩ ⟨sr', sc'⟩ _
    refine RunsAlike.bind (RunsAlike.lift (AlikeVal.refl (R := (· = ·)) (fun _ => rfl) _)) (fun _ _ h => h) ?_
    rintro ck _ rfl
    refine RunsAlike.pure ⟨sr'.key, some ⟨kp'.pub.bytes, kp'.priv.bytes, some ⟨sc'.index, sc'.key⟩, []⟩, ?_⟩
    simp only [SState.own, SState.setSenderChain, SState.addReceiverChain]
    split <;> rfl

/-- What two runs of the decryption with one state give. -/
def SamePlain (x x' : Bytes × SState) : Prop := x'.1 = x.1 ∧ x.2.SameButOwnKeys x'.2

theorem decryptMessageSession_alike (C : Crypto) (s : SState) (m : Signal) (hq : OrderOfKey C m.senderRatchetKey) :
    RunsAlike SameLength SameLength SamePlain (decryptMessageSession C s m) (decryptMessageSession C s m) := by
  unfold decryptMessageSession
  generalize hsc : s.senderChain = sc
  rcases sc with _ | c
  · exact RunsAlike.throw _
  simp only
  split
  · exact RunsAlike.throw _
  refine RunsAlike.bind (chainKeyFor_alike C s _ hq) (fun _ _ h => h) ?_
  rintro ⟨ck, s1⟩ _ ⟨root, chain, rfl⟩
  refine RunsAlike.lift ?_
  refine AlikeVal.bind (own_messageKeysFor C root chain s1 _ ck _) ?_
  rintro ⟨mk, s2⟩ _ rfl
  refine AlikeVal.bind (R := (· = ·)) (AlikeVal.refl (fun _ => rfl) s2.remoteIdentityKey) ?_
  rintro o _ rfl
  cases o with
  | none => simp [AlikeVal]
  | some rk =>
    refine AlikeVal.bind (R := (· = ·)) (AlikeVal.refl (fun _ => rfl) s2.localIdentityKey) ?_
    rintro lk _ rfl
    refine AlikeVal.bind (R := (· = ·)) (AlikeVal.refl (fun _ => rfl) _) ?_
    rintro valid _ rfl
    cases valid with
    | false => simp [AlikeVal]
    | true =>
      refine AlikeVal.bind (R := (· = ·)) (AlikeVal.refl (fun _ => rfl) _) ?_
      rintro p _ rfl
      exact ⟨rfl, root, chain, rfl⟩

theorem tryPrevious_alike (C : Crypto) (m : Signal) (hq : OrderOfKey C m.senderRatchetKey) (l : List SState) (i : Nat)
    (f f' : Option (Nat × SState × Bytes)) 
    (hf : (f = none ∧ f' = none) ∨ ∃ i s s' p, f = some (i, s, p) ∧ f' = some (i, s', p) ∧ s.SameButOwnKeys s') :
    RunsAlike SameLength SameLength
      (fun f f' => (f = none ∧ f' = none) ∨ ∃ i s s' p, f = some (i, s, p) ∧ f' = some (i, s', p) ∧ s.SameButOwnKeys s')
      (tryPrevious C m l i f) (tryPrevious C m l i f') := by
  induction l generalizing i f f' with
  | nil => exact RunsAlike.pure hf
  | cons s l ih =>
    unfold tryPrevious
    refine RunsAlike.bind (RunsAlike.attempt (decryptMessageSession_alike C s m hq)) (fun _ _ h => h) ?_
    intro y y' h
    cases y with
    | ok y =>
      cases y' with
      | error e => exact h.elim
      | ok y' =>
        obtain ⟨p, t⟩ := y
        obtain ⟨p', t'⟩ := y'
        obtain ⟨h1, h2⟩ := h
        simp only at h1
        subst h1
        exact ih _ _ _ (.inr ⟨_, _, _, _, rfl, rfl, h2⟩)
    | error e =>
      cases y' with
      | ok y' => exact h.elim
      | error e' =>
        simp only at h
        subst h
        cases e <;> first | exact RunsAlike.throw _ | exact ih _ _ _ hf

/-- What two runs of the decryption with one record give. -/
def SameRead (x x' : Bytes × Record) : Prop := x'.1 = x.1 ∧ x.2.SameButOwnKeys x'.2

theorem decryptPrevious_alike (C : Crypto) (r : Record) (m : Signal) (hq : OrderOfKey C m.senderRatchetKey) :
    RunsAlike SameLength SameLength SameRead (decryptPrevious C r m) (decryptPrevious C r m) := by
  unfold decryptPrevious
  refine RunsAlike.bind (RunsAlike.lift (AlikeVal.refl (R := (· = ·)) (fun _ => rfl) _)) (fun _ _ h => h) ?_
  rintro l _ rfl
  refine RunsAlike.bind (tryPrevious_alike C m hq l 0 none none (.inl ⟨rfl, rfl⟩)) (fun _ _ h => h) ?_
  rintro f f' (⟨rfl, rfl⟩ | ⟨i, s, s', p, rfl, rfl, h⟩)
  · exact RunsAlike.throw _
  · refine RunsAlike.pure ⟨rfl, ?_⟩
    unfold Record.promoteOldState
    simp only
    split
    · refine ⟨rfl, ?_⟩
      cases hc : r.current with
      | none => exact .inl ⟨rfl, rfl⟩
      | some t => exact .inr ⟨t, t, rfl, rfl, t.rootKey, t.senderChain, rfl⟩
    · exact ⟨rfl, .inr ⟨s, s', rfl, rfl, h⟩⟩

theorem decryptRecord_alike (C : Crypto) (r : Record) (m : Signal) (hq : OrderOfKey C m.senderRatchetKey) :
    RunsAlike SameLength SameLength SameRead (decryptRecord C r m) (decryptRecord C r m) := by
  unfold decryptRecord
  generalize hc : r.current = c
  rcases c with _ | s
  · exact decryptPrevious_alike C r m hq
  refine RunsAlike.bind (RunsAlike.attempt (decryptMessageSession_alike C s m hq)) (fun _ _ h => h) ?_
  intro y y' h
  cases y with
  | ok y =>
    cases y' with
    | error e => exact h.elim
    | ok y' =>
      obtain ⟨p, t⟩ := y
      obtain ⟨p', t'⟩ := y'
      exact RunsAlike.pure ⟨h.1, rfl, .inr ⟨t, t', rfl, rfl, h.2⟩⟩
  | error e =>
    cases y' with
    | ok y' => exact h.elim
    | error e' =>
      simp only at h
      subst h
      cases e <;> first | exact RunsAlike.throw _ | exact decryptPrevious_alike C r m hq

/-! ## The calls -/

theorem Record.SameButOwnKeys.refl (r : Record) : r.SameButOwnKeys r := by
  refine ⟨rfl, ?_⟩
  cases r.current with
  | none => exact .inl ⟨rfl, rfl⟩
  | some t => exact .inr ⟨t, t, rfl, rfl, t.rootKey, t.senderChain, rfl⟩

theorem OnlyRand.near {w w' : World} (h : OnlyRand w w') (a : Address) : World.SameButOwnKeys a w w' := by
  obtain ⟨rd, hl, rfl⟩ := h
  refine ⟨rfl, rfl, rfl, rfl, rfl, rfl, hl, fun _ _ => rfl, ?_⟩
  cases h : w.sessions a with
  | none => exact .inl ⟨rfl, rfl⟩
  | some r => exact .inr ⟨r, r, rfl, rfl, .refl r⟩

theorem storeCall_alike {α} {P : World → World → Prop} {R : α → α → Prop} {act act' : World → α × World}
    (hP : ∀ w w' fs, P w w' → w'.faults = w.faults ∧ P { w with faults := fs } { w' with faults := fs })
    (h : ∀ w w', P w w' → R (act w).1 (act' w').1 ∧ P (act w).2 (act' w').2) : RunsAlike P P R (storeCall act) (storeCall act') := by
  intro w w' hw
  have hf := (hP w w' [] hw).1
  unfold storeCall
  rw [hf]
  cases hfs : w.faults with
  | nil => exact h w w' hw
  | cons f fs =>
    have h1 := (hP w w' fs hw).2
    cases f with
    | none => exact h _ _ h1
    | before => exact ⟨rfl, h1⟩
    | after => exact ⟨rfl, (h _ _ h1).2⟩

theorem OnlyRand.faults (w w' : World) (fs : List Fault) (h : OnlyRand w w') :
    w'.faults = w.faults ∧ OnlyRand { w with faults := fs } { w' with faults := fs } := by
  obtain ⟨rd, hl, rfl⟩ := h
  exact ⟨rfl, rd, hl, rfl⟩

theorem near_faults (a : Address) (w w' : World) (fs : List Fault) (h : World.SameButOwnKeys a w w') :
    w'.faults = w.faults ∧ World.SameButOwnKeys a { w with faults := fs } { w' with faults := fs } :=
  ⟨h.faults, h.preKeys, h.signedPreKeys, h.known, h.identity, h.regId, rfl, h.rand, h.others, h.peer⟩

/-- A store call that reads the same. -/
theorem storeCall_rand {α} {act : World → α × World}
    (h : ∀ w w', OnlyRand w w' → (act w').1 = (act w).1 ∧ OnlyRand (act w).2 (act w').2) :
    RunsAlike OnlyRand OnlyRand (fun x x' => x' = x) (storeCall act) (storeCall act) :=
  storeCall_alike OnlyRand.faults h

theorem get_rand : RunsAlike OnlyRand OnlyRand OnlyRand (M.get : M World World) M.get := fun _ _ h => ⟨h, h⟩

theorem optKeyPair_rand (o : Option PreKeyRec) : RunsAlike OnlyRand OnlyRand (fun x x' => x' = x) (optKeyPair o) (optKeyPair o) := by
  cases o with
  | none => exact RunsAlike.pure rfl
  | some p =>
    simp only [optKeyPair]
    refine RunsAlike.bind (RunsAlike.lift (AlikeVal.refl (R := fun x x' => x' = x) (fun _ => rfl) _)) (fun _ _ h => h) ?_
    rintro _ k rfl
    exact RunsAlike.pure rfl

theorem touch_rand (E : Env) (a : Address) (b : Bool) (r : Record) :
    RunsAlike OnlyRand OnlyRand (fun _ _ => True) (touch E a b r) (touch E a b r) := by
  rintro w w' ⟨rd, hl, rfl⟩
  unfold touch
  split <;> exact ⟨trivial, rd, hl, rfl⟩

theorem processPreKey_rand (E : Env) (a : Address) (l : Bool) (r : Record) (m : PreKeyMsg) :
    RunsAlike OnlyRand OnlyRand (fun x x' => x' = x) (processPreKey E a l r m) (processPreKey E a l r m) := by
  unfold processPreKey
  refine RunsAlike.bind (storeCall_rand fun w w' ⟨rd, hl, h⟩ => by subst h; exact ⟨rfl, rd, hl, rfl⟩) (fun _ _ h => h) ?_
  rintro _ t rfl
  cases t with
  | false => exact RunsAlike.throw _
  | true =>
    simp only [if_true]
    refine RunsAlike.bind (R := fun x x' => x' = x) (Q := OnlyRand) ?_ (fun _ _ h => h) ?_
    rotate_left
    · rintro _ out rfl
      refine RunsAlike.bind (storeCall_rand fun w w' ⟨rd, hl, h⟩ => by subst h; exact ⟨rfl, rd, hl, rfl⟩) (fun _ _ h => h) ?_
      intro _ _ _
      exact RunsAlike.pure rfl
    unfold processPreKeyV3
    refine RunsAlike.bind (RunsAlike.lift (AlikeVal.refl (R := fun x x' => x' = x) (fun _ => rfl) _)) (fun _ _ h => h) ?_
    rintro _ found rfl
    cases found with
    | true => exact RunsAlike.pure rfl
    | false =>
      simp only [Bool.false_eq_true, if_false]
      refine RunsAlike.bind (R := fun x x' => x' = x) (Q := OnlyRand) ?_ (fun _ _ h => h) ?_
      · refine RunsAlike.bind (storeCall_rand fun w w' ⟨rd, hl, h⟩ => by subst h; exact ⟨rfl, rd, hl, rfl⟩) (fun _ _ h => h) ?_
        rintro _ o rfl
        exact optKeyPair_rand o
      rintro _ signed rfl
      have last : ∀ one, RunsAlike OnlyRand OnlyRand (fun x x' => x' = x)
          (do
            let w ← M.get
            let s ← M.lift (orPanic (initializeBobSession E.C
              { ourIdentityKeyPair := w.identity, ourSignedPreKeyPair := signed,
                ourOneTimePreKeyPair := one, ourRatchetKeyPair := signed,
                theirIdentityKey := m.identityKey, theirBaseKey := m.baseKey }))
            let s := { s with localRegistrationId := w.regId, remoteRegistrationId := m.registrationID,
                              aliceBaseKey := m.baseKey.bytes }
            let record := r.promoteState s
            touch E a l record
            (pure (m.preKeyID, record) : M World (Option UInt32 × Record)))
          (do
            let w ← M.get
            let s ← M.lift (orPanic (initializeBobSession E.C
              { ourIdentityKeyPair := w.identity, ourSignedPreKeyPair := signed,
                ourOneTimePreKeyPair := one, ourRatchetKeyPair := signed,
                theirIdentityKey := m.identityKey, theirBaseKey := m.baseKey }))
            let s := { s with localRegistrationId := w.regId, remoteRegistrationId := m.registrationID,
                              aliceBaseKey := m.baseKey.bytes }
            let record := r.promoteState s
            touch E a l record
            (pure (m.preKeyID, record) : M World (Option UInt32 × Record))) := by
        intro one
        refine RunsAlike.bind get_rand (fun _ _ h => h) ?_
        rintro w _ ⟨rd, hl, rfl⟩
        refine RunsAlike.bind (RunsAlike.lift (AlikeVal.refl (R := fun x x' => x' = x) (fun _ => rfl) _)) (fun _ _ h => h) ?_
        rintro _ s rfl
        refine RunsAlike.bind (touch_rand E a l _) (fun _ _ h => h) fun _ _ _ => ?_
        exact RunsAlike.pure rfl
      cases hid : m.preKeyID with
      | none =>
        simp only [hid] at last
        exact last none
      | some i =>
        simp only [hid] at last
        refine RunsAlike.bind (R := fun x x' => x' = x) (Q := OnlyRand) ?_ (fun _ _ h => h) ?_
        · refine RunsAlike.bind (storeCall_rand fun w w' ⟨rd, hl, h⟩ => by subst h; exact ⟨rfl, rd, hl, rfl⟩) (fun _ _ h => h) ?_
          rintro _ o rfl
          exact optKeyPair_rand o
        rintro _ one rfl
        exact last one

theorem withRand_alike {α} {R : α → α → Prop} {x x' : M Bytes α} (h : RunsAlike SameLength SameLength R x x') :
    RunsAlike OnlyRand OnlyRand R (withRand x) (withRand x') := by
  rintro w w' ⟨rd, hl, rfl⟩
  have := h w.rand rd hl
  unfold withRand
  simp only
  rcases h1 : x w.rand with ⟨r, t⟩
  rcases h2 : x' rd with ⟨r', t'⟩
  rw [h1, h2] at this
  cases r <;> cases r' <;> simp only [AlikeRes] at this ⊢
  · exact ⟨this.1, t', this.2, rfl⟩
  · exact ⟨this.1, t', this.2, rfl⟩
  · exact ⟨t', this, rfl⟩

theorem near_sessions {a : Address} {w w' : World} (h : World.SameButOwnKeys a w w') {r r' : Record} (hr : r.SameButOwnKeys r') :
    World.SameButOwnKeys a { w with sessions := upd w.sessions a (some r) } { w' with sessions := upd w'.sessions a (some r') } := by
  refine ⟨h.preKeys, h.signedPreKeys, h.known, h.identity, h.regId, h.faults, h.rand, fun b hb => ?_, .inr ⟨r, r', ?_, ?_, hr⟩⟩
  · simp only [upd_ne _ _ hb]; exact h.others b hb
  · simp
  · simp

theorem touch_near (E : Env) (a : Address) (b : Bool) {r r' : Record} (hr : r.SameButOwnKeys r') :
    RunsAlike (World.SameButOwnKeys a) (World.SameButOwnKeys a) (fun _ _ => True) (touch E a b r) (touch E a b r') := by
  intro w w' h
  unfold touch
  split
  · exact ⟨trivial, near_sessions h hr⟩
  · exact ⟨trivial, h⟩

theorem storeSession_near (a : Address) {r r' : Record} (hr : r.SameButOwnKeys r') :
    RunsAlike (World.SameButOwnKeys a) (World.SameButOwnKeys a) (fun _ _ => True) (storeSession a r) (storeSession a r') :=
  storeCall_alike (near_faults a) fun _ _ h => ⟨trivial, near_sessions h hr⟩

theorem deletePreKey_near (a : Address) (id : UInt32) :
    RunsAlike (World.SameButOwnKeys a) (World.SameButOwnKeys a) (fun _ _ => True) (deletePreKey id) (deletePreKey id) :=
  storeCall_alike (near_faults a) fun _ _ h =>
    ⟨trivial, by simp only [h.preKeys], h.signedPreKeys, h.known, h.identity, h.regId, h.faults, h.rand, h.others, h.peer⟩

theorem storeIdentity_near (a b : Address) (k : PubKey) :
    RunsAlike (World.SameButOwnKeys a) (World.SameButOwnKeys a) (fun _ _ => True) (storeIdentity b k) (storeIdentity b k) :=
  storeCall_alike (near_faults a) fun _ _ h =>
    ⟨trivial, h.preKeys, h.signedPreKeys, by simp only [h.known], h.identity, h.regId, h.faults, h.rand, h.others, h.peer⟩

theorem isTrusted_near (E : Env) (a b : Address) (k : PubKey) (d : Direction) :
    RunsAlike (World.SameButOwnKeys a) (World.SameButOwnKeys a) (fun x x' => x' = x) (isTrusted E b k d) (isTrusted E b k d) :=
  storeCall_alike (near_faults a) fun _ _ h => ⟨by simp only [h.known], h⟩

theorem RunsAlike.weaken {σ α} {P P' Q : σ → σ → Prop} {R : α → α → Prop} {x x' : M σ α} (h : RunsAlike P' Q R x x') (hP : ∀ s s', P s s' → P' s s') :
    RunsAlike P Q R x x' := fun s s' hs => h s s' (hP s s' hs)

theorem decryptPreKey_alike (E : Env) (a : Address) (m : PreKeyMsg) (hq : OrderOfKey E.C m.message.senderRatchetKey) :
    RunsAlike OnlyRand (World.SameButOwnKeys a) (fun x x' => x' = x) (decryptPreKey E a m) (decryptPreKey E a m) := by
  unfold decryptPreKey
  refine RunsAlike.bind (storeCall_rand fun w w' ⟨rd, hl, h⟩ => by subst h; exact ⟨rfl, rd, hl, rfl⟩) (fun _ _ h => h.near a) ?_
  rintro _ stored rfl
  refine RunsAlike.bind (processPreKey_rand E a _ _ m) (fun _ _ h => h.near a) ?_
  rintro _ ⟨id, rec⟩ rfl
  refine RunsAlike.bind (withRand_alike (decryptRecord_alike E.C rec m.message hq)) (fun _ _ h => h.near a) ?_
  rintro ⟨p, r⟩ ⟨p', r'⟩ ⟨h1, h2⟩
  simp only at h1 h2
  subst h1
  refine RunsAlike.weaken ?_ (fun _ _ h => h.near a)
  refine RunsAlike.bind (touch_near E a _ h2) (fun _ _ h => h) fun _ _ _ => ?_
  refine RunsAlike.bind (storeSession_near a h2) (fun _ _ h => h) fun _ _ _ => ?_
  cases id with
  | none => exact RunsAlike.pure rfl
  | some i => exact RunsAlike.bind (deletePreKey_near a i) (fun _ _ h => h) fun _ _ _ => RunsAlike.pure rfl

theorem decryptSignal_alike (E : Env) (a : Address) (m : Signal) (hq : OrderOfKey E.C m.senderRatchetKey) :
    RunsAlike OnlyRand (World.SameButOwnKeys a) (fun x x' => x' = x) (decryptSignal E a m) (decryptSignal E a m) := by
  unfold decryptSignal
  refine RunsAlike.bind (storeCall_rand fun w w' ⟨rd, hl, h⟩ => by subst h; exact ⟨rfl, rd, hl, rfl⟩) (fun _ _ h => h.near a) ?_
  rintro _ stored rfl
  cases stored with
  | none => exact (RunsAlike.throw (P := World.SameButOwnKeys a) _).weaken fun _ _ h => h.near a
  | some rec =>
    refine RunsAlike.bind (RunsAlike.attempt (withRand_alike (decryptRecord_alike E.C rec m hq))) (fun _ _ h => h.near a) ?_
    have tail : ∀ (pt : Option Bytes) (r r' : Record), r.SameButOwnKeys r' → RunsAlike OnlyRand (World.SameButOwnKeys a) (fun x x' => x' = x)
        (do
          touch E a true r
          match r.current with
          | none => (M.throw .mustHaveState : M World (Option Bytes))
          | some state =>
            match state.remoteIdentityKey with
            | .ok (some theirIdentityKey) => do
              let trusted ← isTrusted E a theirIdentityKey .receiving
              if trusted then do
                storeIdentity a theirIdentityKey
                storeSession a r
                return pt
              else M.throw (.untrustedIdentity a)
            | .panic => M.panic
            | _ => M.throw .mustHaveIdentity)
        (do
          touch E a true r'
          match r'.current with
          | none => (M.throw .mustHaveState : M World (Option Bytes))
          | some state =>
            match state.remoteIdentityKey with
            | .ok (some theirIdentityKey) => do
              let trusted ← isTrusted E a theirIdentityKey .receiving
              if trusted then do
                storeIdentity a theirIdentityKey
                storeSession a r'
                return pt
              else M.throw (.untrustedIdentity a)
            | .panic => M.panic
            | _ => M.throw .mustHaveIdentity) := by
      intro pt r r' hr
      refine RunsAlike.weaken ?_ (fun _ _ h => h.near a)
      refine RunsAlike.bind (touch_near E a true hr) (fun _ _ h => h) fun _ _ _ => ?_
      obtain ⟨h1, ⟨h2, h3⟩ | ⟨s, s', h2, h3, root, chain, h4⟩⟩ := id hr
      · rw [h2, h3]; exact RunsAlike.throw _
      · rw [h2, h3]
        subst h4
        simp only
        rw [show SState.remoteIdentityKey { s with rootKey := root, senderChain := chain } = s.remoteIdentityKey from rfl]
        cases s.remoteIdentityKey with
        | panic => exact fun _ _ h => h
        | err e => exact RunsAlike.throw _
        | ok o =>
          cases o with
          | none => exact RunsAlike.throw _
          | some k =>
            refine RunsAlike.bind (isTrusted_near E a a k _) (fun _ _ h => h) ?_
            rintro _ t rfl
            cases t with
            | false => exact RunsAlike.throw _
            | true =>
              simp only [if_true]
              refine RunsAlike.bind (storeIdentity_near a a k) (fun _ _ h => h) fun _ _ _ => ?_
              refine RunsAlike.bind (storeSession_near a hr) (fun _ _ h => h) fun _ _ _ => ?_
              exact RunsAlike.pure rfl
    intro y y' h
    cases y with
    | ok y =>
      cases y' with
      | error e => exact h.elim
      | ok y' =>
        obtain ⟨p, r⟩ := y
        obtain ⟨p', r'⟩ := y'
        obtain ⟨h1, h2⟩ := h
        simp only at h1 h2
        subst h1
        exact tail _ _ _ h2
    | error e =>
      cases y' with
      | ok y' => exact h.elim
      | error e' => exact tail _ _ _ (.refl rec)

theorem encryptMessage_rand (E : Env) (a : Address) (pt : Bytes) :
    RunsAlike OnlyRand OnlyRand (fun x x' => x' = x) (encryptMessage E a pt) (encryptMessage E a pt) := by
  unfold encryptMessage
  refine RunsAlike.bind (storeCall_rand fun w w' ⟨rd, hl, h⟩ => by subst h; exact ⟨rfl, rd, hl, rfl⟩) (fun _ _ h => h) ?_
  rintro _ stored rfl
  cases stored with
  | none => exact RunsAlike.throw _
  | some r =>
    simp only
    cases r.current with
    | none => exact RunsAlike.throw _
    | some s =>
      refine RunsAlike.bind (RunsAlike.lift (AlikeVal.refl (R := fun x x' => x' = x) (fun _ => rfl) _)) (fun _ _ h => h) ?_
      rintro _ ⟨m, s1, k⟩ rfl
      refine RunsAlike.bind (touch_rand E a true _) (fun _ _ h => h) fun _ _ _ => ?_
      refine RunsAlike.bind (storeCall_rand fun w w' ⟨rd, hl, h⟩ => by subst h; exact ⟨rfl, rd, hl, rfl⟩) (fun _ _ h => h) ?_
      rintro _ t rfl
      cases t with
      | false => exact RunsAlike.throw _
      | true =>
        simp only [if_true]
        refine RunsAlike.bind (storeCall_rand fun w w' ⟨rd, hl, h⟩ => by subst h; exact ⟨rfl, rd, hl, rfl⟩) (fun _ _ h => h) fun _ _ _ => ?_
        refine RunsAlike.bind (storeCall_rand fun w w' ⟨rd, hl, h⟩ => by subst h; exact ⟨rfl, rd, hl, rfl⟩) (fun _ _ h => h) fun _ _ _ => ?_
        exact RunsAlike.pure rfl

theorem decryptMessage_alike (E : Env) (a : Address) (c : Ciphertext) (hq : ∀ m, c.inner = some m → OrderOfKey E.C m.senderRatchetKey) :
    RunsAlike OnlyRand (World.SameButOwnKeys a) (fun x x' => x' = x) (decryptMessage E a c) (decryptMessage E a c) := by
  unfold decryptMessage
  cases c with
  | preKey m =>
    refine RunsAlike.bind (decryptPreKey_alike E a m (hq _ rfl)) (fun _ _ h => h) ?_
    rintro _ p rfl
    exact RunsAlike.pure rfl
  | signal m => exact decryptSignal_alike E a m (hq _ rfl)
  | _ => exact (RunsAlike.throw (P := World.SameButOwnKeys a) _).weaken fun _ _ h => h.near a

/-! ## Groups -/

theorem gStoreCall_rand {α} {act : GWorld → α × GWorld}
    (h : ∀ w w', GOnlyRand w w' → (act w').1 = (act w).1 ∧ GOnlyRand (act w).2 (act w').2) :
    RunsAlike GOnlyRand GOnlyRand (fun x x' => x' = x) (gStoreCall act) (gStoreCall act) := by
  intro w w' hw
  obtain ⟨rd, srd, h1, h2, rfl⟩ := id hw
  unfold gStoreCall
  simp only
  cases hfs : w.faults with
  | nil => exact h w _ ⟨rd, srd, h1, h2, by rw [← hfs]⟩
  | cons f fs =>
    have hw' : GOnlyRand { w with faults := fs } { w with rand := rd, sysRand := srd, faults := fs } := ⟨rd, srd, h1, h2, rfl⟩
    cases f with
    | none => exact h _ _ hw'
    | before => exact ⟨rfl, hw'⟩
    | after => exact ⟨rfl, (h _ _ hw').2⟩

theorem gLoad_rand (k : Address × DistId) : RunsAlike GOnlyRand GOnlyRand (fun x x' => x' = x) (gLoad k) (gLoad k) :=
  gStoreCall_rand fun w w' hw => by
    obtain ⟨rd, srd, h1, h2, rfl⟩ := id hw
    exact ⟨rfl, hw⟩

theorem gStore_rand (k : Address × DistId) (r : GRecord) :
    RunsAlike GOnlyRand GOnlyRand (fun x x' => x' = x) (gStore k r) (gStore k r) :=
  gStoreCall_rand fun w w' hw => by
    obtain ⟨rd, srd, h1, h2, rfl⟩ := id hw
    exact ⟨rfl, rd, srd, h1, h2, rfl⟩

theorem gTouch_rand (al : Bool) (k : Address × DistId) (b : Bool) (r : GRecord) :
    RunsAlike GOnlyRand GOnlyRand (fun _ _ => True) (gTouch al k b r) (gTouch al k b r) := by
  rintro w w' ⟨rd, srd, h1, h2, rfl⟩
  unfold gTouch
  split <;> exact ⟨trivial, rd, srd, h1, h2, rfl⟩

theorem gWithRand_alike {α} {R : α → α → Prop} {x x' : M Bytes α} (h : RunsAlike SameLength SameLength R x x') :
    RunsAlike GOnlyRand GOnlyRand R (gWithRand x) (gWithRand x') := by
  rintro w w' ⟨rd, srd, hl, hl2, rfl⟩
  have := h w.rand rd hl
  unfold gWithRand
  simp only
  rcases h1 : x w.rand with ⟨r, t⟩
  rcases h2 : x' rd with ⟨r', t'⟩
  rw [h1, h2] at this
  cases r <;> cases r' <;> simp only [AlikeRes] at this ⊢
  · exact ⟨this.1, t', srd, this.2, hl2, rfl⟩
  · exact ⟨this.1, t', srd, this.2, hl2, rfl⟩
  · exact ⟨t', srd, this, hl2, rfl⟩

theorem groupDecrypt_rand (C : Crypto) (al : Bool) (a : Address) (m : SenderKeyMsg) :
    RunsAlike GOnlyRand GOnlyRand (fun x x' => x' = x) (groupDecrypt C al a m) (groupDecrypt C al a m) := by
  unfold groupDecrypt
  refine RunsAlike.bind (gLoad_rand _) (fun _ _ h => h) ?_
  rintro _ stored rfl
  cases stored with
  | none => exact RunsAlike.throw _
  | some r =>
    simp only
    cases GRecord.stateForChainID r m.chainID with
    | none => exact RunsAlike.throw _
    | some s =>
      simp only
      split
      · exact RunsAlike.throw _
      refine RunsAlike.bind (RunsAlike.lift (AlikeVal.refl (R := fun x x' => x' = x) (fun _ => rfl) _)) (fun _ _ h => h) ?_
      rintro _ k rfl
      refine RunsAlike.bind (RunsAlike.lift (AlikeVal.refl (R := fun x x' => x' = x) (fun _ => rfl) _)) (fun _ _ h => h) ?_
      rintro _ v rfl
      cases v with
      | false => exact RunsAlike.throw _
      | true =>
        simp only [if_true]
        refine RunsAlike.bind (RunsAlike.lift (AlikeVal.refl (R := fun x x' => x' = x) (fun _ => rfl) _)) (fun _ _ h => h) ?_
        rintro _ ⟨mk, s1⟩ rfl
        refine RunsAlike.bind (gTouch_rand al _ true _) (fun _ _ h => h) fun _ _ _ => ?_
        refine RunsAlike.bind (RunsAlike.lift (AlikeVal.refl (R := fun x x' => x' = x) (fun _ => rfl) _)) (fun _ _ h => h) ?_
        rintro _ p rfl
        refine RunsAlike.bind (gStore_rand _ _) (fun _ _ h => h) fun _ _ _ => ?_
        exact RunsAlike.pure rfl

theorem newSenderKey_unrandom (C : Crypto) (v : UInt8) (d : DistId) (cid it : UInt32) (ct : Bytes) (k : PrivKey) :
    RunsAlike SameLength SameLength SameButSignature (newSenderKey C v d cid it ct k) (newSenderKey C v d cid it ct k) := by
  unfold newSenderKey PrivKey.sign
  refine RunsAlike.bind (R := fun x x' => x.length = 64 ∧ x'.length = 64) (Q := SameLength) ?_ (fun _ _ h => h) ?_
  · refine RunsAlike.bind (readFull_alike 64) (fun _ _ h => h) fun y y' _ => ?_
    exact RunsAlike.pure ⟨C.sign_len _ _ _, C.sign_len _ _ _⟩
  · rintro y y' ⟨h1, h2⟩
    exact RunsAlike.pure ⟨_, y, y', h1, h2, rfl, rfl⟩

theorem groupEncrypt_rand (C : Crypto) (al : Bool) (a : Address) (d : DistId) (pt : Bytes) :
    RunsAlike GOnlyRand GOnlyRand SameButSignature (groupEncrypt C al a d pt) (groupEncrypt C al a d pt) := by
  unfold groupEncrypt
  refine RunsAlike.bind (gLoad_rand _) (fun _ _ h => h) ?_
  rintro _ stored rfl
  cases stored with
  | none => exact RunsAlike.throw _
  | some r =>
    refine RunsAlike.bind (RunsAlike.lift (AlikeVal.refl (R := fun x x' => x' = x) (fun _ => rfl) _)) (fun _ _ h => h) ?_
    rintro _ s rfl
    refine RunsAlike.bind (RunsAlike.lift (AlikeVal.refl (R := fun x x' => x' = x) (fun _ => rfl) _)) (fun _ _ h => h) ?_
    rintro _ ct rfl
    refine RunsAlike.bind (RunsAlike.lift (AlikeVal.refl (R := fun x x' => x' = x) (fun _ => rfl) _)) (fun _ _ h => h) ?_
    rintro _ k rfl
    refine RunsAlike.bind (gWithRand_alike (newSenderKey_unrandom C _ _ _ _ _ _)) (fun _ _ h => h) fun m m' hm => ?_
    refine RunsAlike.bind (gTouch_rand al _ true _) (fun _ _ h => h) fun _ _ _ => ?_
    refine RunsAlike.bind (gStore_rand _ _) (fun _ _ h => h) fun _ _ _ => ?_
    exact RunsAlike.pure hm

end Verif
