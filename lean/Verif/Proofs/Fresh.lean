import Verif.Spec.Fresh
import Verif.Proofs.Reuse
import Verif.Proofs.Openness
import Verif.Proofs.Transcript

/-!
# Lemmas for C120: where private keys come from, and which random bytes are read
-/

namespace Verif

/-! ## Reading random bytes -/

/-- With at least `n` random bytes the computation reads some first `k ≤ n` of them and does not depend on the others. -/
def M.Takes {α} (n : Nat) (x : M Bytes α) : Prop :=
  ∀ rd : Bytes, n ≤ rd.length → ∃ k, k ≤ n ∧ (x rd).2 = rd.drop k ∧ ∀ rest, x (rd.take k ++ rest) = ((x rd).1, rest)

theorem M.Takes.zero {α} {x : M Bytes α} (r : Res α) (h : ∀ rd, x rd = (r, rd)) : M.Takes 0 x :=
  fun rd _ => ⟨0, Nat.le_refl _, by simp [h], fun rest => by simp [h]⟩

theorem M.Takes.mono {α} {x : M Bytes α} {n m : Nat} (h : M.Takes n x) (hm : n ≤ m) : M.Takes m x := fun rd hrd => by
  obtain ⟨k, hk, h1, h2⟩ := h rd (Nat.le_trans hm hrd)
  exact ⟨k, Nat.le_trans hk hm, h1, h2⟩

theorem take_add_append (rd rest : Bytes) (k l : Nat) :
    rd.take (k + l) ++ rest = rd.take k ++ ((rd.drop k).take l ++ rest) := by
  rw [List.take_add, List.append_assoc]

theorem M.Takes.bindOk {α β} {x : M Bytes α} {f : α → M Bytes β} {n m : Nat} (hx : M.Takes n x)
    (hf : ∀ a rd rd', x rd = (.ok a, rd') → M.Takes m (f a)) : M.Takes (n + m) (x >>= f) := by
  intro rd hrd
  obtain ⟨k, hk, h1, h2⟩ := hx rd (by omega)
  rcases h : x rd with ⟨r, rd'⟩
  rw [h] at h1 h2
  simp only at h1 h2
  subst h1
  cases r with
  | ok a =>
    obtain ⟨l, hl, h3, h4⟩ := hf a _ _ h (rd.drop k) (by rw [List.length_drop]; omega)
    refine ⟨k + l, by omega, by simp only [M.bind_run, h, h3, List.drop_drop], fun rest => ?_⟩
    rw [M.bind_run, take_add_append, h2]
    simp only [h4, M.bind_run, h]
  | err e => exact ⟨k, by omega, by simp [M.bind_run, h], fun rest => by simp [M.bind_run, h, h2]⟩
  | panic => exact ⟨k, by omega, by simp [M.bind_run, h], fun rest => by simp [M.bind_run, h, h2]⟩

theorem M.Takes.bind {α β} {x : M Bytes α} {f : α → M Bytes β} {n m : Nat} (hx : M.Takes n x) (hf : ∀ a, M.Takes m (f a)) :
    M.Takes (n + m) (x >>= f) := hx.bindOk fun a _ _ _ => hf a

theorem M.Takes.attempt {α} {x : M Bytes α} {n : Nat} (hx : M.Takes n x) : M.Takes n (M.attempt x) := by
  intro rd hrd
  obtain ⟨k, hk, h1, h2⟩ := hx rd hrd
  rcases h : x rd with ⟨r, rd'⟩
  rw [h] at h1 h2
  simp only at h1 h2
  subst h1
  refine ⟨k, hk, ?_, fun rest => ?_⟩
  · cases r <;> simp [M.attempt, h]
  · cases r <;> simp [M.attempt, h, h2]

theorem M.Takes.lift {α} (r : Res α) : M.Takes 0 (M.lift r : M Bytes α) := .zero r fun _ => rfl

theorem generateKeyPair_takes (C : Crypto) : M.Takes 32 (generateKeyPair C) := by
  intro rd hrd
  obtain ⟨k, hk, _⟩ := generateKeyPair_run C rd hrd
  refine ⟨32, Nat.le_refl _, by rw [hk], fun rest => ?_⟩
  have hl : 32 ≤ (rd.take 32 ++ rest).length := by rw [List.length_append, List.length_take]; omega
  have ht : (rd.take 32 ++ rest).take 32 = rd.take 32 := by
    rw [List.take_append_of_le_length (by rw [List.length_take]; omega), List.take_take, Nat.min_self]
  have hd : (rd.take 32 ++ rest).drop 32 = rest := by
    have : (rd.take 32).length = 32 := by rw [List.length_take]; omega
    exact List.drop_left' this
  simp only [generateKeyPair, generatePrivateKey, M.bind_run, readFull_ok 32 _ hl, readFull_ok 32 _ hrd, ht, hd]
  cases newPrivateKey (rd.take 32) <;> rfl

theorem chainKeyFor_takes (C : Crypto) (s : SState) (eph : PubKey) : M.Takes 32 (chainKeyFor C s eph) := by
  unfold chainKeyFor
  refine (M.Takes.bind (n := 0) (m := 32) (.lift _) fun o => ?_).mono (by omega)
  cases o with
  | some c => exact (M.Takes.zero _ fun _ => rfl).mono (by omega)
  | none =>
    refine (M.Takes.bind (n := 0) (m := 32) (.lift _) fun _ => ?_).mono (by omega)
    refine (M.Takes.bind (n := 0) (m := 32) (.lift _) fun _ => ?_).mono (by omega)
    refine (M.Takes.bind (n := 0) (m := 32) (.lift _) fun _ => ?_).mono (by omega)
    refine (M.Takes.bind (n := 32) (m := 0) (generateKeyPair_takes C) fun _ => ?_).mono (by omega)
    refine (M.Takes.bind (n := 0) (m := 0) (.lift _) fun _ => ?_).mono (by omega)
    refine (M.Takes.bind (n := 0) (m := 0) (.lift _) fun _ => ?_).mono (by omega)
    exact M.Takes.zero _ fun _ => rfl

theorem decryptMessageSession_takes (C : Crypto) (s : SState) (m : Signal) : M.Takes 32 (decryptMessageSession C s m) := by
  unfold decryptMessageSession
  split
  · exact (M.Takes.zero _ fun _ => rfl).mono (by omega)
  · split
    · exact (M.Takes.zero _ fun _ => rfl).mono (by omega)
    · exact (M.Takes.bind (n := 32) (m := 0) (chainKeyFor_takes C s _) fun _ => .lift _).mono (by omega)

theorem tryPrevious_takes (C : Crypto) (m : Signal) (l : List SState) (i : Nat) (f : Option (Nat × SState × Bytes)) :
    M.Takes (32 * l.length) (tryPrevious C m l i f) := by
  induction l generalizing i f with
  | nil => exact M.Takes.zero _ fun _ => rfl
  | cons s l ih =>
    unfold tryPrevious
    refine (M.Takes.bind (n := 32) (m := 32 * l.length) (decryptMessageSession_takes C s m).attempt fun o => ?_).mono
      (by rw [List.length_cons]; omega)
    cases o with
    | ok o => obtain ⟨_, _⟩ := o; exact ih _ _
    | error er => cases er <;> first | exact ih _ _ | exact (M.Takes.zero _ fun _ => rfl).mono (by omega)

theorem decryptPrevious_takes (C : Crypto) (r : Record) (m : Signal) (hr : r.WF) : M.Takes (32 * 40) (decryptPrevious C r m) := by
  obtain ⟨l, _, hp, hl⟩ := hr.states
  have hlen : l.length ≤ 40 := by
    have := hr.count
    rw [hp, List.length_map] at this
    exact this
  unfold decryptPrevious
  refine (M.Takes.bindOk (n := 0) (m := 32 * 40) (.lift _) fun l' rd rd' h => ?_).mono (by omega)
  rw [M.lift_run, hl] at h
  cases h
  refine (M.Takes.bind (n := 32 * l.length) (m := 0) (tryPrevious_takes C m l 0 none) fun o => ?_).mono (by omega)
  rcases o with _ | ⟨_, _, _⟩
  · exact M.Takes.zero _ fun _ => rfl
  · exact M.Takes.zero _ fun _ => rfl

theorem decryptRecord_takes (C : Crypto) (r : Record) (m : Signal) (hr : r.WF) : M.Takes (32 * 41) (decryptRecord C r m) := by
  unfold decryptRecord
  cases r.current with
  | none => exact (decryptPrevious_takes C r m hr).mono (by omega)
  | some s =>
    refine (M.Takes.bind (n := 32) (m := 32 * 40) (decryptMessageSession_takes C s m).attempt fun o => ?_).mono (by omega)
    cases o with
    | ok o => obtain ⟨_, _⟩ := o; exact (M.Takes.zero _ fun _ => rfl).mono (by omega)
    | error er =>
      cases er <;> first | exact decryptPrevious_takes C r m hr | exact (M.Takes.zero _ fun _ => rfl).mono (by omega)

theorem initializeAlice_takes (C : Crypto) (p : AliceParameters) : M.Takes 32 (initializeAliceSession C p) := by
  unfold initializeAliceSession
  exact (M.Takes.bind (n := 32) (m := 0) (generateKeyPair_takes C) fun _ => .lift _).mono (by omega)

/-! ## The same for the session API -/

/-- The same for code that uses the stores, in one world. -/
def M.TakesAt {α} (n : Nat) (x : M World α) (w : World) : Prop :=
  n ≤ w.rand.length → ∃ k, k ≤ n ∧ (x w).2.rand = w.rand.drop k ∧
    ∀ rest, x { w with rand := w.rand.take k ++ rest } = ((x w).1, { (x w).2 with rand := rest })

theorem M.TakesAt.mono {α} {x : M World α} {n m : Nat} {w : World} (h : M.TakesAt n x w) (hm : n ≤ m) : M.TakesAt m x w := fun hrd => by
  obtain ⟨k, hk, h1, h2⟩ := h (Nat.le_trans hm hrd)
  exact ⟨k, Nat.le_trans hk hm, h1, h2⟩

theorem M.TakesAt.none {α} {x : M World α} {w : World} (h1 : (x w).2.rand = w.rand)
    (h : ∀ rest, x { w with rand := rest } = ((x w).1, { (x w).2 with rand := rest })) : M.TakesAt 0 x w :=
  fun _ => ⟨0, Nat.le_refl _, by simpa using h1, fun rest => by simpa using h rest⟩

theorem M.TakesAt.bind {α β} {x : M World α} {f : α → M World β} {n m : Nat} {w : World} (hx : M.TakesAt n x w)
    (hf : ∀ a w', x w = (.ok a, w') → M.TakesAt m (f a) w') : M.TakesAt (n + m) (x >>= f) w := by
  intro hrd
  obtain ⟨k, hk, h1, h2⟩ := hx (by omega)
  rcases h : x w with ⟨r, w'⟩
  rw [h] at h1 h2
  simp only at h1 h2
  cases r with
  | ok a =>
    obtain ⟨l, hl, h3, h4⟩ := hf a w' h (by rw [h1, List.length_drop]; omega)
    refine ⟨k + l, by omega, by simp only [M.bind_run, h, h3, h1, List.drop_drop], fun rest => ?_⟩
    rw [M.bind_run, take_add_append, h2]
    rw [h1] at h4
    simp only [h4, M.bind_run, h]
  | err e => exact ⟨k, by omega, by simp [M.bind_run, h, h1], fun rest => by simp [M.bind_run, h, h2]⟩
  | panic => exact ⟨k, by omega, by simp [M.bind_run, h, h1], fun rest => by simp [M.bind_run, h, h2]⟩

theorem M.TakesAt.attempt {α} {x : M World α} {n : Nat} {w : World} (hx : M.TakesAt n x w) : M.TakesAt n (M.attempt x) w := by
  intro hrd
  obtain ⟨k, hk, h1, h2⟩ := hx hrd
  rcases h : x w with ⟨r, w'⟩
  rw [h] at h1 h2
  simp only at h1 h2
  refine ⟨k, hk, ?_, fun rest => ?_⟩
  · cases r <;> simp [M.attempt, h, h1]
  · cases r <;> simp [M.attempt, h, h2]

theorem storeCall_takes {α} (act : World → α × World) (w : World) (h1 : ∀ v, (act v).2.rand = v.rand)
    (h : ∀ v rest, act { v with rand := rest } = ((act v).1, { (act v).2 with rand := rest })) : M.TakesAt 0 (storeCall act) w := by
  refine .none ?_ fun rest => ?_
  · unfold storeCall
    split <;> simp [h1]
  · unfold storeCall
    simp only
    have h' : ∀ fs, act { w with rand := rest, faults := fs } =
        ((act { w with faults := fs }).1, { (act { w with faults := fs }).2 with rand := rest }) := fun fs => h { w with faults := fs } rest
    split <;> simp [h']

theorem lift_takes {α} (r : Res α) (w : World) : M.TakesAt 0 (M.lift r : M World α) w := .none rfl fun _ => rfl

theorem pure_takes {α} (a : α) (w : World) : M.TakesAt 0 (pure a : M World α) w := .none rfl fun _ => rfl

theorem throw_takes {α} (e : Err) (w : World) : M.TakesAt 0 (M.throw e : M World α) w := .none rfl fun _ => rfl

theorem touch_takes (E : Env) (a : Address) (l : Bool) (r : Record) (w : World) : M.TakesAt 0 (touch E a l r) w := by
  refine .none ?_ fun rest => ?_
  · rw [touch_run]
  · rw [touch_run, touch_run]

theorem withRand_takes {α} {x : M Bytes α} {n : Nat} (h : M.Takes n x) (w : World) : M.TakesAt n (withRand x) w := by
  intro hrd
  obtain ⟨k, hk, h1, h2⟩ := h w.rand hrd
  exact ⟨k, hk, h1, fun rest => by simp only [withRand_run, h2]⟩

theorem get_takes {α} {f : World → M World α} {n : Nat} {w : World} (h : M.TakesAt n (f w) w)
    (hf : ∀ rest, f { w with rand := rest } = f w) : M.TakesAt n (M.get >>= f) w := by
  intro hrd
  obtain ⟨k, hk, h1, h2⟩ := h hrd
  refine ⟨k, hk, h1, fun rest => ?_⟩
  have : ∀ v, (M.get >>= f) v = f v v := fun _ => rfl
  rw [this, this, hf, h2]

theorem loadSession_takes (a : Address) (w : World) : M.TakesAt 0 (loadSession a) w := storeCall_takes _ _ (fun _ => rfl) fun _ _ => rfl
theorem storeSession_takes (a : Address) (r : Record) (w : World) : M.TakesAt 0 (storeSession a r) w :=
  storeCall_takes _ _ (fun _ => rfl) fun _ _ => rfl
theorem loadPreKey_takes (id : UInt32) (w : World) : M.TakesAt 0 (loadPreKey id) w := storeCall_takes _ _ (fun _ => rfl) fun _ _ => rfl
theorem deletePreKey_takes (id : UInt32) (w : World) : M.TakesAt 0 (deletePreKey id) w := storeCall_takes _ _ (fun _ => rfl) fun _ _ => rfl
theorem loadSignedPreKey_takes (id : UInt32) (w : World) : M.TakesAt 0 (loadSignedPreKey id) w :=
  storeCall_takes _ _ (fun _ => rfl) fun _ _ => rfl
theorem isTrusted_takes (E : Env) (a : Address) (k : PubKey) (d : Direction) (w : World) : M.TakesAt 0 (isTrusted E a k d) w :=
  storeCall_takes _ _ (fun _ => rfl) fun _ _ => rfl
theorem storeIdentity_takes (a : Address) (k : PubKey) (w : World) : M.TakesAt 0 (storeIdentity a k) w :=
  storeCall_takes _ _ (fun _ => rfl) fun _ _ => rfl

theorem M.TakesAt.bindZ {α β} {x : M World α} {f : α → M World β} {m : Nat} {w : World} (hx : M.TakesAt 0 x w)
    (hf : ∀ a w', x w = (.ok a, w') → M.TakesAt m (f a) w') : M.TakesAt m (x >>= f) w :=
  (hx.bind hf).mono (by omega)

theorem encryptMessage_takes (E : Env) (a : Address) (pt : Bytes) (w : World) : M.TakesAt 0 (encryptMessage E a pt) w := by
  unfold encryptMessage
  refine (loadSession_takes a w).bindZ fun o w1 _ => ?_
  cases o with
  | none => exact throw_takes _ _
  | some record =>
  cases hc : record.current with
  | none => simp only [hc]; exact throw_takes _ _
  | some state =>
  simp only [hc]
  refine (lift_takes _ _).bindZ fun x w2 _ => ?_
  obtain ⟨msg, state', k⟩ := x
  refine (touch_takes E a true _ _).bindZ fun _ w3 _ => ?_
  refine (isTrusted_takes E a k .sending _).bindZ fun t w4 _ => ?_
  cases t with
  | false => exact throw_takes _ _
  | true =>
    refine (storeIdentity_takes a k _).bindZ fun _ w5 _ => ?_
    refine (storeSession_takes a _ _).bindZ fun _ w6 _ => ?_
    exact pure_takes _ _

theorem optKeyPair_takes (o : Option PreKeyRec) (w : World) : M.TakesAt 0 (optKeyPair o) w := by
  cases o with
  | none => exact pure_takes _ _
  | some p => exact (lift_takes _ _).bindZ fun _ _ _ => pure_takes _ _

theorem processPreKeyV3_takes (E : Env) (a : Address) (l : Bool) (r : Record) (m : PreKeyMsg) (w : World) :
    M.TakesAt 0 (processPreKeyV3 E a l r m) w := by
  unfold processPreKeyV3
  refine (lift_takes _ _).bindZ fun f w1 _ => ?_
  cases f with
  | true => exact pure_takes _ _
  | false =>
    simp only [Bool.false_eq_true, if_false]
    refine M.TakesAt.bindZ ((loadSignedPreKey_takes _ _).bindZ fun o w2 _ => optKeyPair_takes o w2) fun signed w3 _ => ?_
    have rest : ∀ (pid : Option UInt32) (oneTime : Option KeyPair) (w4 : World), M.TakesAt 0 (do
        let w ← M.get
        let s ← M.lift (orPanic (initializeBobSession E.C
          { ourIdentityKeyPair := w.identity, ourSignedPreKeyPair := signed,
            ourOneTimePreKeyPair := oneTime, ourRatchetKeyPair := signed,
            theirIdentityKey := m.identityKey, theirBaseKey := m.baseKey }))
        let s := { s with localRegistrationId := w.regId, remoteRegistrationId := m.registrationID, aliceBaseKey := m.baseKey.bytes }
        let record := r.promoteState s
        touch E a l record
        return (pid, record)) w4 := by
      intro pid oneTime w4
      refine get_takes ?_ fun _ => rfl
      refine (lift_takes _ _).bindZ fun s w5 _ => ?_
      exact (touch_takes _ _ _ _ _).bindZ fun _ _ _ => pure_takes _ _
    cases m.preKeyID with
    | none => exact (pure_takes _ _).bindZ fun o w4 _ => rest _ o w4
    | some id =>
      exact M.TakesAt.bindZ ((loadPreKey_takes _ _).bindZ fun o w2 _ => optKeyPair_takes o w2) fun o w4 _ => rest _ o w4

theorem processPreKey_takes (E : Env) (a : Address) (l : Bool) (r : Record) (m : PreKeyMsg) (w : World) :
    M.TakesAt 0 (processPreKey E a l r m) w := by
  unfold processPreKey
  refine (isTrusted_takes E a _ _ _).bindZ fun t w1 _ => ?_
  cases t with
  | false => exact throw_takes _ _
  | true =>
    refine (processPreKeyV3_takes E a l r m _).bindZ fun o w2 _ => ?_
    exact (storeIdentity_takes _ _ _).bindZ fun _ _ _ => pure_takes _ _

theorem loadSession_ok {a : Address} {w w1 : World} {o : Option Record} (h : loadSession a w = (.ok o, w1)) :
    o = w.sessions a ∧ ∃ fs, (∀ g ∈ fs, g ∈ w.faults) ∧ w1 = { w with faults := fs } := by
  rcases load_cases a w with ⟨fs, hfs, h1⟩ | h1
  · rw [h] at h1
    simp only [Prod.mk.injEq, Res.ok.injEq] at h1
    exact ⟨h1.1, fs, hfs, h1.2⟩
  · rw [h] at h1
    exact absurd rfl (h1 o)

theorem decryptMessage_takes (E : Env) (a : Address) (c : Ciphertext) (w : World) (hw : w.WF) :
    M.TakesAt (32 * 41) (decryptMessage E a c) w := by
  have hwf : ((w.sessions a).getD {}).WF := hw.getD a
  cases c with
  | senderKey m => exact (throw_takes _ _).mono (by omega)
  | plaintext m => exact (throw_takes _ _).mono (by omega)
  | signal m =>
    unfold decryptMessage decryptSignal
    refine (loadSession_takes a w).bindZ fun o w1 h1 => ?_
    obtain ⟨rfl, fs, hfs, rfl⟩ := loadSession_ok h1
    cases hr : w.sessions a with
    | none => exact (throw_takes _ _).mono (by omega)
    | some record =>
    rw [hr] at hwf
    simp only
    refine (M.TakesAt.bind (n := 32 * 41) (m := 0) (withRand_takes (decryptRecord_takes E.C record m hwf) _).attempt fun out w2 _ => ?_).mono (by omega)
    have rest : ∀ (pt : Option Bytes) (record : Record) (w3 : World), M.TakesAt 0 (do
        touch E a true record
        match record.current with
        | none => M.throw .mustHaveState
        | some state =>
          match state.remoteIdentityKey with
          | .ok (some theirIdentityKey) =>
            let trusted ← isTrusted E a theirIdentityKey .receiving
            if trusted then
              storeIdentity a theirIdentityKey
              storeSession a record
              return pt
            else M.throw (.untrustedIdentity a)
          | .panic => M.panic
          | _ => M.throw .mustHaveIdentity) w3 := by
      intro pt record w3
      refine (touch_takes _ _ _ _ _).bindZ fun _ w4 _ => ?_
      cases record.current with
      | none => exact throw_takes _ _
      | some state =>
        simp only
        split
        · refine (isTrusted_takes E a _ _ _).bindZ fun t w5 _ => ?_
          cases t with
          | false => exact throw_takes _ _
          | true => exact (storeIdentity_takes _ _ _).bindZ fun _ _ _ => (storeSession_takes _ _ _).bindZ fun _ _ _ => pure_takes _ _
        · exact .none rfl fun _ => rfl
        · exact throw_takes _ _
    rcases out with e | ⟨p, r⟩
    · exact rest none record w2
    · exact rest (some p) r w2
  | preKey m =>
    unfold decryptMessage
    refine M.TakesAt.bind (m := 0) ?_ fun _ _ _ => pure_takes _ _
    unfold decryptPreKey
    refine (loadSession_takes a w).bindZ fun o w1 h1 => ?_
    obtain ⟨rfl, fs, hfs, rfl⟩ := loadSession_ok h1
    refine (processPreKey_takes E a _ _ m _).bindZ fun x w2 h2 => ?_
    obtain ⟨id, rec⟩ := x
    have hrec := (processPreKey_ok hfs h2).WF hwf
    simp only
    refine (M.TakesAt.bind (n := 32 * 41) (m := 0) (withRand_takes (decryptRecord_takes E.C rec m.message hrec) _) fun out w3 _ => ?_).mono (by omega)
    obtain ⟨p, r⟩ := out
    simp only
    refine (touch_takes _ _ _ _ _).bindZ fun _ w4 _ => ?_
    refine (storeSession_takes _ _ _).bindZ fun _ w5 _ => ?_
    cases id with
    | none => exact pure_takes _ _
    | some id => exact (deletePreKey_takes _ _).bindZ fun _ _ _ => pure_takes _ _

theorem processPreKeyBundle_takes (E : Env) (a : Address) (b : Bundle) (w : World) : M.TakesAt 64 (processPreKeyBundle E a b) w := by
  unfold processPreKeyBundle
  refine (isTrusted_takes E a _ _ _).bindZ fun t w1 _ => ?_
  cases t with
  | false => exact (throw_takes _ _).mono (by omega)
  | true =>
  simp only [if_true]
  refine (lift_takes _ _).bindZ fun ok w2 _ => ?_
  cases ok with
  | false => exact (throw_takes _ _).mono (by omega)
  | true =>
  simp only [if_true]
  refine (loadSession_takes a _).bindZ fun o w3 _ => ?_
  refine (M.TakesAt.bind (n := 32) (m := 32) (withRand_takes (generateKeyPair_takes E.C) _) fun base w4 _ => ?_).mono (by omega)
  refine get_takes ?_ fun _ => rfl
  refine (M.TakesAt.bind (n := 32) (m := 0) (withRand_takes (initializeAlice_takes E.C _) _) fun s w5 _ => ?_).mono (by omega)
  refine (storeIdentity_takes _ _ _).bindZ fun _ w6 _ => ?_
  refine (touch_takes _ _ _ _ _).bindZ fun _ w7 _ => ?_
  exact storeSession_takes _ _ _

/-! ## Where ratchet keys come from -/

theorem Drawn.of_drop {rd key : Bytes} {n : Nat} (h : 32 ≤ (rd.drop (32 * n)).length) (hk : key = clamp ((rd.drop (32 * n)).take 32)) :
    Drawn rd key := by
  refine ⟨n, ?_, hk⟩
  rw [List.length_drop] at h
  omega

theorem Record.WF.mem_states {r : Record} (h : r.WF) (s : SState) : r.HasState s ↔ s ∈ r.states := by
  obtain ⟨l, _, _, hl⟩ := h.states
  rw [h.hasState hl, states_eq h hl, List.mem_append, Option.mem_toList, or_comm]

theorem decrypt_ratchet {C : Crypto} {s s' : SState} {m : Signal} {rd rd' p : Bytes} (h : s.WF)
    (hd : decryptMessageSession C s m rd = (.ok (p, s'), rd')) :
    s'.ratchetPrivate = s.ratchetPrivate ∨ 32 ≤ rd.length ∧ s'.ratchetPrivate = clamp (rd.take 32) := by
  obtain ⟨_, s1, i, c, c', ck, mk, rk, lk, h1, h2, h3, h4, h5, h6, h7, h8, rfl⟩ := decrypted_shape h hd
  rcases chainKeyFor_ok h1 with ⟨_, rfl, _⟩ | ⟨_, root, ours, rRoot, kp, sRoot, sCk, cur, _, _, _, hg, hcc, _, rfl⟩
  · exact .inl rfl
  · obtain ⟨h9, h10, _⟩ := generateKeyPair_ok hg
    exact .inr ⟨h9, by rw [← h10]; rfl⟩

theorem decryptRecord_ratchet {C : Crypto} {r r' : Record} {m : Signal} {rd rd' p : Bytes} (h : r.WF)
    (hd : decryptRecord C r m rd = (.ok (p, r'), rd')) {u : SState} (hu : r'.HasState u) :
    (∃ s, r.HasState s ∧ u.ratchetPrivate = s.ratchetPrivate) ∨ Drawn rd u.ratchetPrivate := by
  obtain ⟨s, s', t, n, rd2, hs, h1, h2, h3, h4⟩ := decryptRecord_states h hd
  rw [(h.decrypt hd).mem_states, h4.mem_iff, List.mem_cons] at hu
  have hm : ∀ x, x = s ∨ x ∈ t → r.HasState x := fun x hx => by rw [h.mem_states, h3.mem_iff, List.mem_cons]; exact hx
  rcases hu with rfl | hu
  · rcases decrypt_ratchet hs h1 with h5 | ⟨h5, h6⟩
    · exact .inl ⟨s, hm s (.inl rfl), h5⟩
    · exact .inr (.of_drop h5 h6)
  · exact .inl ⟨u, hm u (.inr hu), rfl⟩

theorem FromBundle.ratchet {E : Env} {w : World} {b : Bundle} {s : SState} {rd : Bytes} (h : FromBundle E w b s rd) :
    64 ≤ w.rand.length ∧ rd = w.rand.drop 64 ∧ s.ratchetPrivate = clamp ((w.rand.drop 32).take 32) ∧
      ∃ base : PrivKey, base.key = clamp (w.rand.take 32) ∧ s.aliceBaseKey = (base.pub E.C).bytes ∧
        ∃ p, s.pendingPreKey = some p ∧ p.baseKey = (base.pub E.C).bytes := by
  obtain ⟨base, rd1, _, s0, hb, hi, _, rfl⟩ := h
  obtain ⟨kp, d1, d2, d3, d4, hg, _, _, _, _, rk, ck, hk, sr, sc, hc, rfl⟩ := initializeAlice_ok hi
  obtain ⟨h1, h2, h3, rfl⟩ := generateKeyPair_ok hb
  obtain ⟨h4, h5, _, rfl⟩ := generateKeyPair_ok hg
  rw [List.length_drop] at h4
  refine ⟨by omega, by rw [List.drop_drop], by rw [← h5]; rfl, base.priv, h2, ?_, _, rfl, ?_⟩
  · rw [← h3.symm]
  · rw [← h3.symm]

theorem Processed.ratchet {E : Env} {w : World} {r rec : Record} {m : PreKeyMsg} {id : Option UInt32} (h : r.WF)
    (hp : Processed E w r m id rec) {u : SState} (hu : rec.HasState u) :
    r.HasState u ∨ ∃ p, w.signedPreKeys m.signedPreKeyID = some p ∧ p.HasPrivate u.ratchetPrivate := by
  cases hp with
  | found _ => exact .inl hu
  | fresh hf signed oneTime s hs ho hi s' hs' =>
    rcases h.promoted_state hu with rfl | hu
    · right
      obtain ⟨sk, rt, _, _, _, _, e1, e2, _, _, _, _, rk, ck, _, rfl⟩ := initializeBob_ok hi
      simp only at e1 e2
      rcases hs with ⟨_, rfl⟩ | ⟨p, k, hp, hk, rfl⟩
      · cases e1
      · simp only [Option.some.injEq] at e2
        subst e2 hs'
        exact ⟨p, hp, k, hk, rfl⟩
    · exact .inl hu

theorem encrypt_ratchet {C : Crypto} {s s' : SState} {pt : Bytes} {msg : Ciphertext} {k : PubKey} (h : s.WF)
    (he : encryptState C s pt = .ok (msg, s', k)) : s'.ratchetPrivate = s.ratchetPrivate := by
  obtain ⟨c, ck, eph, lk, rk, sg, hc, hck, hl, heph, _, _, _, hr, hn, _, _, out, he', hout⟩ := h.encrypts C pt
  rw [he] at he'
  simp only [Res.ok.injEq, Prod.mk.injEq] at he'
  obtain ⟨rfl, rfl, _⟩ := he'
  simp [SState.ratchetPrivate, SState.setSenderChainKey, hc]

/-- Only the user changes the signed pre-keys. -/
theorem run_signedPreKeys (E : Env) (c : Call) (w : World) : (c.run E w).2.signedPreKeys = w.signedPreKeys ∨
    ∃ id p, c.op = .addSignedPreKey id p ∧ (c.run E w).2.signedPreKeys = upd w.signedPreKeys id (some p) := by
  obtain ⟨op, rd, fs⟩ := c
  cases op with
  | addPreKey id k => exact .inl rfl
  | addSignedPreKey id k => exact .inr ⟨id, k, rfl, rfl⟩
  | encrypt b pt =>
    left
    simp only [Call.run]
    have ho := encrypt_outcome E b pt { w with rand := rd, faults := fs }
    generalize encryptMessage E b pt _ = x at ho ⊢
    obtain ⟨r, w'⟩ := x
    simp only at ho ⊢
    cases ho <;> rfl
  | bundle b q =>
    left
    simp only [Call.run]
    have ho := bundle_outcome E b q { w with rand := rd, faults := fs }
    generalize processPreKeyBundle E b q _ = x at ho ⊢
    obtain ⟨r, w'⟩ := x
    simp only at ho ⊢
    cases ho <;> rfl
  | decrypt b m =>
    left
    simp only [Call.run]
    cases m with
    | senderKey m => rfl
    | plaintext m => rfl
    | signal m =>
      show (decryptSignal E b m _).2.signedPreKeys = _
      have ho := signal_outcome E b m { w with rand := rd, faults := fs }
      generalize decryptSignal E b m _ = x at ho ⊢
      obtain ⟨r, w'⟩ := x
      simp only at ho ⊢
      cases ho <;> rfl
    | preKey m =>
      rw [decryptMessage_preKey]
      have ho := preKey_outcome E b m { w with rand := rd, faults := fs }
      generalize decryptPreKey E b m _ = x at ho ⊢
      obtain ⟨r, w'⟩ := x
      simp only at ho ⊢
      cases ho <;> rfl

end Verif
