import Verif.Proofs.Alike
import Verif.Proofs.Reading

/-!
# The registration id of a pre-key message changes nothing but itself
-/

namespace Verif

/-! ## Two runs from related worlds -/

/-- From worlds related by `Q`, the two computations end in worlds related by `Q`, with related results. -/
def MSim {σ α β} (Q : σ → σ → Prop) (R : α → β → Prop) (x : M σ α) (y : M σ β) : Prop :=
  ∀ w w', Q w w' → Q (x w).2 (y w').2 ∧ Res.Like R (x w).1 (y w').1

theorem MSim.bind {σ α β γ δ} {Q : σ → σ → Prop} {R : α → β → Prop} {S : γ → δ → Prop} {x : M σ α} {y : M σ β} {f : α → M σ γ} {g : β → M σ δ}
    (h : MSim Q R x y) (hf : ∀ a b, R a b → MSim Q S (f a) (g b)) : MSim Q S (x >>= f) (y >>= g) := by
  intro w w' hw
  have h1 := h w w' hw
  simp only [M.bind_run]
  generalize x w = u at h1 ⊢
  generalize y w' = v at h1 ⊢
  obtain ⟨r, w1⟩ := u
  obtain ⟨r', w1'⟩ := v
  simp only at h1
  obtain ⟨h1, h2⟩ := h1
  cases r <;> cases r' <;> simp_all [Res.Like]
  exact hf _ _ h2 w1 w1' h1

theorem MSim.lift {σ α β} {Q : σ → σ → Prop} {R : α → β → Prop} {x : Res α} {y : Res β} (h : Res.Like R x y) :
    MSim Q R (M.lift x) (M.lift y) := fun _ _ hw => ⟨hw, h⟩

theorem MSim.pure {σ α β} {Q : σ → σ → Prop} {R : α → β → Prop} {a : α} {b : β} (h : R a b) : MSim Q R (pure a) (pure b) := fun _ _ hw => ⟨hw, h⟩

theorem MSim.throw {σ α β} {Q : σ → σ → Prop} {R : α → β → Prop} {e : Err} : MSim Q R (M.throw e : M σ α) (M.throw e : M σ β) :=
  fun _ _ hw => ⟨hw, by simp [Res.Like]⟩

/-! ## The same state with another registration id -/

/-- The state with another id of the peer. -/
def SState.reg (i : UInt32) (s : SState) : SState := { s with remoteRegistrationId := i }

theorem addReceiverChain_reg (s : SState) (k : PubKey) (ck : ChainKey) (i : UInt32) : (s.reg i).addReceiverChain k ck = (s.addReceiverChain k ck).reg i := by
  unfold SState.addReceiverChain
  rw [show (s.reg i).receiverChains = s.receiverChains from rfl]
  simp only
  split <;> rfl

theorem chainKeyFor_reg (C : Crypto) (s : SState) (k : PubKey) (i : UInt32) :
    MLike (fun x y => y = (x.1, x.2.reg i)) (chainKeyFor C s k) (chainKeyFor C (s.reg i) k) := by
  unfold chainKeyFor
  refine (MLike.eq (M.lift (s.receiverChainKey k))).bind ?_
  rintro o _ rfl
  cases o with
  | some ch => exact MLike.pure rfl
  | none =>
    simp only
    refine (MLike.eq (M.lift s.getRootKey)).bind ?_
    rintro rk _ rfl
    refine (MLike.eq (M.lift s.senderRatchetPrivateKey)).bind ?_
    rintro priv _ rfl
    refine (MLike.eq _).bind ?_
    rintro x _ rfl
    obtain ⟨rr, rc⟩ := x
    simp only
    refine (MLike.eq _).bind ?_
    rintro kp _ rfl
    refine (MLike.eq _).bind ?_
    rintro x _ rfl
    obtain ⟨sr, sc⟩ := x
    simp only
    refine (MLike.eq (M.lift s.senderChainKey)).bind ?_
    rintro ck _ rfl
    refine MLike.pure ?_
    rw [Prod.mk.injEq]
    refine ⟨rfl, ?_⟩
    have := addReceiverChain_reg { s with rootKey := sr.key } k rc i
    simp only [SState.reg] at this
    simp only [SState.reg, this, SState.setSenderChain]

theorem setMessageKeys_reg (s : SState) (k : PubKey) (mk : MessageKeys) (i : UInt32) :
    Res.Like (fun x y => y = x.reg i) (s.setMessageKeys k mk) ((s.reg i).setMessageKeys k mk) := by
  unfold SState.setMessageKeys
  rw [show (s.reg i).receiverChain k = s.receiverChain k from rfl]
  cases s.receiverChain k with
  | none => simp [Res.Like]
  | some x => exact rfl

theorem skipLoop_reg (C : Crypto) (k : PubKey) (n : UInt32) (i : UInt32) (fuel : Nat) : ∀ (ck : ChainKey) (s : SState),
    Res.Like (fun x y => y = (x.1, x.2.reg i)) (skipLoop C k n fuel ck s) (skipLoop C k n fuel ck (s.reg i)) := by
  induction fuel with
  | zero => exact fun ck s => rfl
  | succ fuel ih =>
    intro ck s
    unfold skipLoop
    split
    · refine (setMessageKeys_reg s k _ i).bind ?_
      rintro x _ rfl
      exact ih _ _
    · exact rfl

theorem messageKeysFor_reg (C : Crypto) (s : SState) (k : PubKey) (ck : ChainKey) (n i : UInt32) :
    Res.Like (fun x y => y = (x.1, x.2.reg i)) (messageKeysFor C s k ck n) (messageKeysFor C (s.reg i) k ck n) := by
  unfold messageKeysFor
  split
  · have h : Res.Like (fun x y => y = (x.1, x.2.reg i)) (s.takeMessageKeys k n) ((s.reg i).takeMessageKeys k n) := by
      unfold SState.takeMessageKeys
      rw [show (s.reg i).receiverChain k = s.receiverChain k from rfl]
      cases s.receiverChain k with
      | none => exact rfl
      | some x =>
        obtain ⟨idx, chain⟩ := x
        simp only
        cases (chain.messageKeys.filter fun k => k.index = n).getLast? with
        | none => exact rfl
        | some mk =>
          simp only
          refine (Res.Like.eq _).bind ?_
          rintro mk' _ rfl
          exact rfl
    refine h.bind ?_
    rintro ⟨o, x⟩ _ rfl
    simp only
    cases o with
    | none => simp [Res.Like]
    | some mk => exact rfl
  · have h : Res.Like (fun x y => y = (x.1, x.2.reg i)) (do
        let (ck, s) ← skipLoop C k n (n.toNat - ck.index.toNat) ck s
        let s ← s.setReceiverChainKey k ck
        return (ck.messageKeys C, s)) (do
        let (ck, s) ← skipLoop C k n (n.toNat - ck.index.toNat) ck (s.reg i)
        let s ← s.setReceiverChainKey k ck
        return (ck.messageKeys C, s)) := by
      refine (skipLoop_reg C k n i _ ck s).bind ?_
      rintro ⟨ck', x⟩ _ rfl
      simp only
      have h2 : Res.Like (fun x y => y = x.reg i) (x.setReceiverChainKey k ck') ((x.reg i).setReceiverChainKey k ck') := by
        unfold SState.setReceiverChainKey
        rw [show (x.reg i).receiverChain k = x.receiverChain k from rfl]
        cases x.receiverChain k with
        | none => simp [Res.Like]
        | some z => exact rfl
      refine h2.bind ?_
      rintro y _ rfl
      exact rfl
    simp only
    split
    · refine (Res.Like.eq s.sessionWithSelf).bind ?_
      rintro b _ rfl
      cases b with
      | false => simp [Res.Like]
      | true => simpa using h
    · exact h

theorem decryptMessageSession_reg (C : Crypto) (s : SState) (m : Signal) (i : UInt32) :
    MLike (fun x y => y = (x.1, x.2.reg i)) (decryptMessageSession C s m) (decryptMessageSession C (s.reg i) m) := by
  unfold decryptMessageSession
  rw [show (s.reg i).senderChain = s.senderChain from rfl]
  cases s.senderChain with
  | none => exact fun w => ⟨rfl, by simp [Res.Like]⟩
  | some c =>
    simp only
    rw [show (s.reg i).version = s.version from rfl]
    split
    · exact fun w => ⟨rfl, by simp [Res.Like]⟩
    · refine (chainKeyFor_reg C s _ i).bind ?_
      rintro ⟨ck, x⟩ _ rfl
      simp only
      refine MLike.lift ?_
      refine (messageKeysFor_reg C x _ ck _ i).bind ?_
      rintro ⟨mk, y⟩ _ rfl
      simp only
      refine (Res.Like.eq y.remoteIdentityKey).bind ?_
      rintro o _ rfl
      cases o with
      | none => simp [Res.Like]
      | some rk =>
        simp only
        refine (Res.Like.eq y.localIdentityKey).bind ?_
        rintro lk _ rfl
        refine (Res.Like.eq _).bind ?_
        rintro b _ rfl
        cases b with
        | false => simp [Res.Like]
        | true =>
          simp only [if_true]
          refine (Res.Like.eq _).bind ?_
          rintro p _ rfl
          exact rfl

theorem MLike.attempt {σ α β} {R : α → β → Prop} {x : M σ α} {y : M σ β} (h : MLike R x y) :
    MLike (fun a b => match a, b with | .ok a, .ok b => R a b | .error e, .error f => e = f | _, _ => False) (M.attempt x) (M.attempt y) := by
  intro w
  have := h w
  unfold M.attempt
  generalize x w = u at this ⊢
  generalize y w = v at this ⊢
  obtain ⟨r, w1⟩ := u
  obtain ⟨r', w1'⟩ := v
  simp only at this
  obtain ⟨rfl, h2⟩ := this
  cases r <;> cases r' <;> simp_all [Res.Like]

/-- The same record, or the same apart from the registration id of its current state. -/
def Record.SameReg (r r' : Record) : Prop := r' = r ∨ ∃ s i, r.current = some s ∧ r' = { r with current := some (s.reg i) }

theorem decryptRecord_reg (C : Crypto) {r r' : Record} (m : Signal) (h : r.SameReg r') :
    MLike (fun x y => y.1 = x.1) (decryptRecord C r m) (decryptRecord C r' m) := by
  rcases h with rfl | ⟨s, i, hs, rfl⟩
  · exact MLike.refl (R := fun x y : Bytes × Record => y.1 = x.1) (fun _ => rfl) _
  · have hp : MLike (fun x y : Bytes × Record => y.1 = x.1) (decryptPrevious C r m) (decryptPrevious C { r with current := some (s.reg i) } m) := by
      unfold decryptPrevious
      refine (MLike.eq (M.lift r.previousStates)).bind ?_
      rintro prev _ rfl
      refine (MLike.eq _).bind ?_
      rintro o _ rfl
      cases o with
      | none => exact fun w => ⟨rfl, by simp [Res.Like]⟩
      | some x => exact MLike.pure rfl
    unfold decryptRecord
    rw [hs]
    simp only
    refine (decryptMessageSession_reg C s m i).attempt.bind ?_
    intro a b hab
    match a, b, hab with
    | .ok (p, s1), .ok (q, s2), h => exact MLike.pure (by cases h; rfl)
    | .error e, .error _, rfl =>
      cases e
      case duplicateMessage => exact fun w => ⟨rfl, by simp [Res.Like]⟩
      all_goals exact hp

/-! ## The call -/

/-- The two worlds differ at most in the session with `a`. -/
def SameBut (a : Address) (w w' : World) : Prop :=
  w' = { w with sessions := w'.sessions } ∧ ∀ b, b ≠ a → w'.sessions b = w.sessions b

theorem SameBut.refl (a : Address) (w : World) : SameBut a w w := ⟨rfl, fun _ _ => rfl⟩

theorem storeCall_sim {α β} {a : Address} {R : α → β → Prop} {act : World → α × World} {act' : World → β × World}
    (h : ∀ w w', SameBut a w w' → SameBut a (act w).2 (act' w').2 ∧ R (act w).1 (act' w').1) :
    MSim (SameBut a) R (storeCall act) (storeCall act') := by
  intro w w' hw
  have hf : w'.faults = w.faults := by rw [hw.1]
  unfold storeCall
  rw [hf]
  have hw2 : ∀ fs, SameBut a { w with faults := fs } { w' with faults := fs } := by
    intro fs
    refine ⟨?_, hw.2⟩
    rw [hw.1]
  cases w.faults with
  | nil => exact h w w' hw
  | cons f fs =>
    have := h _ _ (hw2 fs)
    cases f with
    | none => exact this
    | before => exact ⟨hw2 fs, by simp [Res.Like]⟩
    | after => exact ⟨this.1, by simp [Res.Like]⟩

theorem touch_sim (E : Env) (a : Address) (l : Bool) (r r' : Record) : MSim (SameBut a) (fun _ _ => True) (touch E a l r) (touch E a l r') := by
  intro w w' hw
  unfold touch
  cases (E.aliased && l) with
  | false => exact ⟨hw, by simp [Res.Like]⟩
  | true =>
    refine ⟨⟨?_, ?_⟩, by simp [Res.Like]⟩
    · simp only [if_true]
      conv => lhs; rw [hw.1]
    · intro b hb
      simp only [if_true, upd_ne _ _ hb]
      exact hw.2 b hb

theorem withRand_sim {α β} {a : Address} {R : α → β → Prop} {x : M Bytes α} {y : M Bytes β} (h : MLike R x y) :
    MSim (SameBut a) R (withRand x) (withRand y) := by
  intro w w' hw
  have hr : w'.rand = w.rand := by rw [hw.1]
  have := h w.rand
  unfold withRand
  rw [hr]
  refine ⟨⟨?_, hw.2⟩, this.2⟩
  simp only [this.1]
  conv => lhs; rw [hw.1]

theorem optKeyPair_sim {a : Address} (o : Option PreKeyRec) : MSim (SameBut a) Eq (optKeyPair o) (optKeyPair o) := by
  unfold optKeyPair
  cases o with
  | none => exact MSim.pure rfl
  | some p =>
    refine (MSim.lift (Res.Like.eq _)).bind ?_
    rintro k _ rfl
    exact MSim.pure rfl

theorem processPreKeyV3_sim (E : Env) (a : Address) (l : Bool) (r : Record) (m : PreKeyMsg) (i : UInt32) (b : Bytes) :
    MSim (SameBut a) (fun x y => y.1 = x.1 ∧ x.2.SameReg y.2) (processPreKeyV3 E a l r m)
      (processPreKeyV3 E a l r { m with registrationID := i, serialized := b }) := by
  unfold processPreKeyV3
  refine (MSim.lift (Res.Like.eq (r.hasSessionState m.version.toUInt32 m.baseKey.bytes))).bind ?_
  rintro found _ rfl
  cases found with
  | true => exact MSim.pure ⟨rfl, .inl rfl⟩
  | false =>
    simp only [Bool.false_eq_true, if_false]
    have h1 : ∀ id : UInt32, MSim (SameBut a) Eq (loadSignedPreKey id >>= optKeyPair) (loadSignedPreKey id >>= optKeyPair) := by
      intro id
      refine (storeCall_sim fun w w' hw => ⟨hw, by rw [hw.1]⟩ : MSim (SameBut a) Eq (loadSignedPreKey id) (loadSignedPreKey id)).bind ?_
      rintro o _ rfl
      exact optKeyPair_sim o
    refine (h1 _).bind ?_
    rintro sk _ rfl
    have h2 : ∀ id : UInt32, MSim (SameBut a) Eq (loadPreKey id >>= optKeyPair) (loadPreKey id >>= optKeyPair) := by
      intro id
      refine (storeCall_sim fun w w' hw => ⟨hw, by rw [hw.1]⟩ : MSim (SameBut a) Eq (loadPreKey id) (loadPreKey id)).bind ?_
      rintro o _ rfl
      exact optKeyPair_sim o
    have h3 : MSim (SameBut a) (SameBut a) (M.get : M World World) M.get := fun w w' hw => ⟨hw, hw⟩
    cases m.preKeyID with
    | none =>
      refine (MSim.pure (R := Eq) rfl).bind ?_
      rintro ok _ rfl
      refine h3.bind ?_
      intro w w' hw
      have e1 : w'.identity = w.identity := by rw [hw.1]
      have e2 : w'.regId = w.regId := by rw [hw.1]
      rw [e1, e2]
      refine (MSim.lift (Res.Like.eq _)).bind ?_
      rintro s _ rfl
      refine (touch_sim E a l _ _).bind ?_
      intro _ _ _
      exact MSim.pure ⟨rfl, .inr ⟨_, i, rfl, rfl⟩⟩
    | some id =>
      refine (h2 id).bind ?_
      rintro ok _ rfl
      refine h3.bind ?_
      intro w w' hw
      have e1 : w'.identity = w.identity := by rw [hw.1]
      have e2 : w'.regId = w.regId := by rw [hw.1]
      rw [e1, e2]
      refine (MSim.lift (Res.Like.eq _)).bind ?_
      rintro s _ rfl
      refine (touch_sim E a l _ _).bind ?_
      intro _ _ _
      exact MSim.pure ⟨rfl, .inr ⟨_, i, rfl, rfl⟩⟩

theorem decryptPreKey_sim (E : Env) (a : Address) (m : PreKeyMsg) (i : UInt32) (b : Bytes) (w : World) :
    SameBut a (decryptPreKey E a m w).2 (decryptPreKey E a { m with registrationID := i, serialized := b } w).2 ∧
    (decryptPreKey E a { m with registrationID := i, serialized := b } w).1 = (decryptPreKey E a m w).1 := by
  have key : ∀ stored : Option Record, MSim (SameBut a) Eq
      (do let (preKeyID, record) ← processPreKey E a stored.isSome (stored.getD {}) m
          let (plaintext, record) ← withRand (decryptRecord E.C record m.message)
          touch E a stored.isSome record
          storeSession a record
          match preKeyID with
          | some id => deletePreKey id
          | none => pure ()
          return plaintext)
      (do let (preKeyID, record) ← processPreKey E a stored.isSome (stored.getD {}) { m with registrationID := i, serialized := b }
          let (plaintext, record) ← withRand (decryptRecord E.C record m.message)
          touch E a stored.isSome record
          storeSession a record
          match preKeyID with
          | some id => deletePreKey id
          | none => pure ()
          return plaintext) := by
    intro stored
    have hp : MSim (SameBut a) (fun x y => y.1 = x.1 ∧ x.2.SameReg y.2) (processPreKey E a stored.isSome (stored.getD {}) m)
        (processPreKey E a stored.isSome (stored.getD {}) { m with registrationID := i, serialized := b }) := by
      unfold processPreKey
      refine (storeCall_sim fun w w' hw => ⟨hw, by rw [hw.1]⟩ : MSim (SameBut a) Eq (isTrusted E a m.identityKey .receiving) (isTrusted E a m.identityKey .receiving)).bind ?_
      rintro t _ rfl
      cases t with
      | false => exact MSim.throw
      | true =>
        simp only [if_true]
        refine (processPreKeyV3_sim E a _ _ m i b).bind ?_
        intro x y hxy
        refine (storeCall_sim (R := fun _ _ => True) fun w w' hw => ⟨⟨?_, hw.2⟩, trivial⟩ :
          MSim (SameBut a) (fun _ _ => True) (storeIdentity a m.identityKey) (storeIdentity a m.identityKey)).bind ?_
        · conv => lhs; rw [hw.1]
        · intro _ _ _
          exact MSim.pure hxy
    refine hp.bind ?_
    rintro ⟨_, r⟩ ⟨pid, r'⟩ ⟨rfl, hr⟩
    simp only
    refine (withRand_sim (decryptRecord_reg E.C m.message hr)).bind ?_
    rintro ⟨p, r1⟩ ⟨_, r2⟩ rfl
    simp only
    refine (touch_sim E a _ _ _).bind fun _ _ _ => ?_
    refine (storeCall_sim (R := fun _ _ => True) fun w w' hw => ⟨⟨?_, ?_⟩, trivial⟩ :
      MSim (SameBut a) (fun _ _ => True) (storeSession a r1) (storeSession a r2)).bind fun _ _ _ => ?_
    · simp only
      conv => lhs; rw [hw.1]
    · intro c hc
      simp only [upd_ne _ _ hc]
      exact hw.2 c hc
    cases pid with
    | none => exact MSim.pure rfl
    | some id =>
      simp only
      refine (storeCall_sim (R := fun _ _ => True) fun w w' hw => ⟨⟨?_, hw.2⟩, trivial⟩ :
        MSim (SameBut a) (fun _ _ => True) (deletePreKey id) (deletePreKey id)).bind fun _ _ _ => MSim.pure rfl
      simp only
      conv => lhs; rw [hw.1]
  have like_eq : ∀ {x y : Res Bytes}, Res.Like Eq x y → y = x := by
    intro x y h
    cases x <;> cases y <;> simp_all [Res.Like]
  unfold decryptPreKey
  simp only [M.bind_run (loadSession a)]
  cases h : loadSession a w with
  | mk r w1 =>
    cases r with
    | ok stored =>
      simp only
      have := key stored w1 w1 (SameBut.refl a w1)
      exact ⟨this.1, like_eq this.2⟩
    | err e => exact ⟨SameBut.refl _ _, rfl⟩
    | panic => exact ⟨SameBut.refl _ _, rfl⟩

end Verif
