import Verif.Spec.PreKeys
import Verif.Proofs.Transcript

/-! # Calls commute with a replacement of the pre-keys they do not use -/

namespace Verif

section

variable {P S : UInt32 → Bool} {pk spk : UInt32 → Option PreKeyRec}

/-- Running on the other stores is running and then replacing. -/
def Framed (P S : UInt32 → Bool) (pk spk : UInt32 → Option PreKeyRec) {α} (f : M World α) (w : World) : Prop :=
  f (w.withOtherPreKeys P S pk spk) = ((f w).1, (f w).2.withOtherPreKeys P S pk spk)

theorem Framed.bind {α β} {x : M World α} {f : α → M World β} {w : World} (hx : Framed P S pk spk x w)
    (hf : ∀ a w', x w = (.ok a, w') → Framed P S pk spk (f a) w') : Framed P S pk spk (x >>= f) w := by
  unfold Framed at *
  rw [M.bind_run, M.bind_run, hx]
  rcases h : x w with ⟨r, w'⟩
  cases r with
  | ok a => exact hf a w' h
  | err e => rfl
  | panic => rfl

theorem Framed.pure {α} (a : α) (w : World) : Framed P S pk spk (pure a) w := rfl
theorem Framed.throw {α} (e : Err) (w : World) : Framed P S pk spk (M.throw e : M World α) w := rfl
theorem Framed.panic {α} (w : World) : Framed P S pk spk (M.panic : M World α) w := rfl
theorem Framed.lift {α} (r : Res α) (w : World) : Framed P S pk spk (M.lift r) w := rfl

theorem Framed.get_bind {β} {f : World → M World β} {w : World} (hf : Framed P S pk spk (f w) w)
    (e : f (w.withOtherPreKeys P S pk spk) = f w) : Framed P S pk spk (M.get >>= f) w := by
  unfold Framed at *
  rw [M.bind_run, M.bind_run]
  simp only [M.get_run, e]
  exact hf

theorem Framed.storeCall {α} {act : World → α × World} (w : World)
    (h : ∀ w, act (w.withOtherPreKeys P S pk spk) = ((act w).1, (act w).2.withOtherPreKeys P S pk spk)) :
    Framed P S pk spk (storeCall act) w := by
  have h' : ∀ fs, act { w.withOtherPreKeys P S pk spk with faults := fs } =
      ((act { w with faults := fs }).1, (act { w with faults := fs }).2.withOtherPreKeys P S pk spk) :=
    fun fs => h { w with faults := fs }
  unfold Framed Verif.storeCall
  have e : (w.withOtherPreKeys P S pk spk).faults = w.faults := rfl
  rw [e]
  rcases w.faults with _ | ⟨f, fs⟩
  · simp only [h]
  · cases f
    · simp only [h']
    · rfl
    · simp only [h']

theorem Framed.loadSession (a : Address) (w : World) : Framed P S pk spk (loadSession a) w := .storeCall w fun _ => rfl
theorem Framed.storeSession (a : Address) (r : Record) (w : World) : Framed P S pk spk (storeSession a r) w :=
  .storeCall w fun _ => rfl
theorem Framed.isTrusted (E : Env) (a : Address) (k : PubKey) (d : Direction) (w : World) :
    Framed P S pk spk (isTrusted E a k d) w := .storeCall w fun _ => rfl
theorem Framed.storeIdentity (a : Address) (k : PubKey) (w : World) : Framed P S pk spk (storeIdentity a k) w :=
  .storeCall w fun _ => rfl

theorem Framed.loadPreKey {id : UInt32} (h : P id = true) (w : World) : Framed P S pk spk (loadPreKey id) w :=
  .storeCall w fun _ => by simp [World.withOtherPreKeys, h]

theorem Framed.loadSignedPreKey {id : UInt32} (h : S id = true) (w : World) : Framed P S pk spk (loadSignedPreKey id) w :=
  .storeCall w fun _ => by simp [World.withOtherPreKeys, h]

theorem Framed.deletePreKey {id : UInt32} (h : P id = true) (w : World) : Framed P S pk spk (deletePreKey id) w := by
  refine .storeCall w fun w => ?_
  simp only [World.withOtherPreKeys, Prod.mk.injEq, true_and]
  congr 1
  funext i
  unfold upd
  by_cases hi : i = id
  · subst hi; simp [h]
  · simp [hi]

theorem Framed.withRand {α} (x : M Bytes α) (w : World) : Framed P S pk spk (withRand x) w := rfl

theorem Framed.touch (E : Env) (a : Address) (l : Bool) (r : Record) (w : World) : Framed P S pk spk (touch E a l r) w := by
  unfold Framed Verif.touch
  split <;> rfl

theorem Framed.attempt {α} {x : M World α} {w : World} (h : Framed P S pk spk x w) : Framed P S pk spk (M.attempt x) w := by
  unfold Framed at *
  unfold M.attempt
  rw [h]
  rcases x w with ⟨r, w'⟩
  cases r <;> rfl

theorem Framed.ite {α} {c : Prop} [Decidable c] {x y : M World α} {w : World} (hx : Framed P S pk spk x w)
    (hy : Framed P S pk spk y w) : Framed P S pk spk (if c then x else y) w := by
  split
  · exact hx
  · exact hy

theorem Framed.optKeyPair (o : Option PreKeyRec) (w : World) : Framed P S pk spk (optKeyPair o) w := by
  cases o with
  | none => exact .pure _ _
  | some p => exact .bind (.lift _ _) fun _ _ _ => .pure _ _

theorem Framed.encryptMessage (E : Env) (a : Address) (p : Bytes) (w : World) :
    Framed P S pk spk (encryptMessage E a p) w := by
  refine .bind (.loadSession a w) fun o w1 _ => ?_
  cases o with
  | none => exact .throw _ _
  | some record =>
    dsimp only
    split
    · exact .throw _ _
    · refine .bind (.lift _ _) fun x w2 _ => ?_
      obtain ⟨msg, s', k⟩ := x
      refine .bind (.touch ..) fun _ w3 _ => .bind (.isTrusted ..) fun t w4 _ => .ite ?_ (.throw _ _)
      exact .bind (.storeIdentity ..) fun _ w5 _ => .bind (.storeSession ..) fun _ _ _ => .pure _ _

theorem Framed.decryptSignal (E : Env) (a : Address) (m : Signal) (w : World) :
    Framed P S pk spk (decryptSignal E a m) w := by
  refine .bind (.loadSession a w) fun o w1 _ => ?_
  cases o with
  | none => exact .throw _ _
  | some record =>
    dsimp only
    refine .bind (.attempt (.withRand ..)) fun out w2 _ => ?_
    rcases out with e | ⟨p, r⟩
    all_goals
      refine .bind (.touch ..) fun _ w3 _ => ?_
      dsimp only
      split
      · exact .throw _ _
      · split
        · exact .bind (.isTrusted ..) fun t w4 _ => .ite
            (.bind (.storeIdentity ..) fun _ w5 _ => .bind (.storeSession ..) fun _ _ _ => .pure _ _) (.throw _ _)
        · exact .panic _
        · exact .throw _ _

theorem Framed.processPreKeyBundle (E : Env) (a : Address) (b : Bundle) (w : World) :
    Framed P S pk spk (processPreKeyBundle E a b) w := by
  refine .bind (.isTrusted ..) fun t w1 _ => .ite ?_ (.throw _ _)
  refine .bind (.lift _ _) fun ok w2 _ => .ite ?_ (.throw _ _)
  refine .bind (.loadSession ..) fun stored w3 _ => ?_
  refine .bind (.withRand ..) fun kp w4 _ => .get_bind ?_ rfl
  refine .bind (.withRand ..) fun s w5 _ => .bind (.storeIdentity ..) fun _ w6 _ => .bind (.touch ..) fun _ w7 _ => ?_
  exact .storeSession ..

theorem Framed.processPreKeyV3 (E : Env) (a : Address) (l : Bool) (r : Record) (m : PreKeyMsg) (w : World)
    (h : r.hasSessionState m.version.toUInt32 m.baseKey.bytes = .ok true ∨
      (S m.signedPreKeyID = true ∧ ∀ id, m.preKeyID = some id → P id = true)) :
    Framed P S pk spk (processPreKeyV3 E a l r m) w := by
  refine .bind (.lift _ _) fun found w1 hfound => ?_
  cases found with
  | true => exact .pure _ _
  | false =>
    rcases h with h | ⟨hs, hp⟩
    · rw [h] at hfound; cases hfound
    refine .bind (.bind (.loadSignedPreKey hs _) fun _ _ _ => .optKeyPair ..) fun k w2 _ => ?_
    have tail : ∀ (k' : Option KeyPair) (w3 : World), Framed P S pk spk (do
        let w ← M.get
        let s ← M.lift (orPanic (initializeBobSession E.C
          { ourIdentityKeyPair := w.identity, ourSignedPreKeyPair := k,
            ourOneTimePreKeyPair := k', ourRatchetKeyPair := k,
            theirIdentityKey := m.identityKey, theirBaseKey := m.baseKey }))
        let s := { s with localRegistrationId := w.regId, remoteRegistrationId := m.registrationID,
                          aliceBaseKey := m.baseKey.bytes }
        let record := r.promoteState s
        Verif.touch E a l record
        return (m.preKeyID, record)) w3 := by
      intro k' w3
      refine .get_bind ?_ rfl
      exact .bind (.lift _ _) fun s w5 _ => .bind (.touch ..) fun _ w6 _ => .pure _ _
    dsimp only
    split
    · exact tail _ _
    · rename_i id hid
      exact .bind (.bind (.loadPreKey (hp id hid) _) fun _ _ _ => .optKeyPair ..) fun k' w3 _ => tail _ _

theorem Framed.decryptPreKey (E : Env) (a : Address) (m : PreKeyMsg) (w : World)
    (h : ((w.sessions a).getD {}).hasSessionState m.version.toUInt32 m.baseKey.bytes = .ok true ∨
      (S m.signedPreKeyID = true ∧ ∀ id, m.preKeyID = some id → P id = true)) :
    Framed P S pk spk (decryptPreKey E a m) w := by
  refine .bind (.loadSession ..) fun stored w1 hl => ?_
  obtain ⟨rfl, fs, rfl, hfs⟩ : stored = w.sessions a ∧ ∃ fs, w1 = { w with faults := fs } ∧ ∀ g ∈ fs, g ∈ w.faults := by
    unfold Verif.loadSession Verif.storeCall at hl
    split at hl
    · cases hl; exact ⟨rfl, w.faults, rfl, fun _ h => h⟩
    · rename_i fs he
      cases hl; exact ⟨rfl, fs, rfl, fun g hg => by rw [he]; simp [hg]⟩
    · cases hl
    · cases hl
  have hproc : Framed P S pk spk (processPreKey E a (w.sessions a).isSome ((w.sessions a).getD {}) m) { w with faults := fs } :=
    .bind (.isTrusted ..) fun t w2 _ => .ite
      (.bind (.processPreKeyV3 E a _ _ m _ h) fun _ w3 _ => .bind (.storeIdentity ..) fun _ _ _ => .pure _ _) (.throw _ _)
  refine .bind hproc fun x w2 hx => ?_
  obtain ⟨id, rec⟩ := x
  refine .bind (.withRand ..) fun y w3 _ => ?_
  obtain ⟨p, rec'⟩ := y
  refine .bind (.touch ..) fun _ w4 _ => .bind (.storeSession ..) fun _ w5 _ => ?_
  dsimp only
  split
  · rename_i i
    refine .bind (.deletePreKey ?_ _) fun _ _ _ => .pure _ _
    have hP := processPreKey_ok hfs hx
    generalize hid : some i = id at hP
    cases hP with
    | found _ => cases hid
    | fresh hno =>
      rcases h with h | ⟨_, hp⟩
      · rw [h] at hno; cases hno
      · exact hp i hid.symm
  · exact Framed.pure p w5

end

end Verif
