import Verif.Proofs.Steps
import Verif.Proofs.Encoding

/-!
When DecryptMessage cannot panic, and what sessions remember about their bundle.
-/

namespace Verif

theorem parsed_signal_length {bytes : Bytes} {m : Signal} (h : newSignalFromBytes bytes = .ok m) : 8 ≤ m.serialized.length := by
  cases bytes with
  | nil => simp [newSignalFromBytes] at h
  | cons b rest =>
    simp only [newSignalFromBytes] at h
    split at h
    · simp at h
    · split at h
      · simp at h
      · rename_i hl
        simp only [Res.bind_eq_ok, Res.pure_eq, Res.ok.injEq] at h
        obtain ⟨_, _, _, _, rfl⟩ := h
        simp only; omega

theorem parsed_preKey_length {bytes : Bytes} {m : PreKeyMsg} (h : newPreKeyFromBytes bytes = .ok m) : 8 ≤ m.message.serialized.length := by
  cases bytes with
  | nil => simp [newPreKeyFromBytes] at h
  | cons b rest =>
    simp only [newPreKeyFromBytes] at h
    split at h
    · simp at h
    · simp only [Res.bind_eq_ok, Res.pure_eq, Res.ok.injEq] at h
      obtain ⟨_, _, _, _, _, _, msg, hm, rfl⟩ := h
      exact parsed_signal_length hm

theorem bind_no_panic {σ α β} {x : M σ α} {f : α → M σ β} {s : σ} (h : (x s).1 ≠ .panic) (hf : ∀ a s', x s = (.ok a, s') → (f a s').1 ≠ .panic) :
    ((x >>= f) s).1 ≠ .panic := by
  rw [M.bind_run]
  rcases hx : x s with ⟨r, s'⟩
  rw [hx] at h
  cases r with
  | ok a => exact hf a s' hx
  | err e => simp
  | panic => simp at h

theorem storeCall_no_panic {α} (act : World → α × World) (w : World) : (storeCall act w).1 ≠ .panic := by
  unfold storeCall
  split <;> simp

theorem attempt_no_panic {σ α} {x : M σ α} {s : σ} (h : (x s).1 ≠ .panic) : (M.attempt x s).1 ≠ .panic := by
  unfold M.attempt
  rcases hx : x s with ⟨r, s'⟩
  rw [hx] at h
  cases r <;> simp_all

theorem SState.WF.no_panic {C : Crypto} {s : SState} (h : s.WF) {m : Signal} (hm : 8 ≤ m.serialized.length) (rd : Bytes) :
    (decryptMessageSession C s m rd).1 ≠ .panic := by
  have hc := h.decryptCases (C := C) m rd
  generalize decryptMessageSession C s m rd = x at hc
  cases hc with
  | short _ hs => omega
  | _ => simp

theorem tryPrevious_no_panic {C : Crypto} {m : Signal} (hm : 8 ≤ m.serialized.length) (l : List SState) (h : ∀ s ∈ l, s.WF) (i : Nat)
    (f : Option (Nat × SState × Bytes)) (rd : Bytes) : (tryPrevious C m l i f rd).1 ≠ .panic := by
  induction l generalizing i f rd with
  | nil => simp [tryPrevious]
  | cons s l ih =>
    unfold tryPrevious
    refine bind_no_panic (attempt_no_panic ((h s (by simp)).no_panic hm rd)) ?_
    intro o rd' _
    have ih' := fun i f rd => ih (fun t ht => h t (by simp [ht])) i f rd
    cases o with
    | ok o => obtain ⟨_, _⟩ := o; exact ih' _ _ _
    | error er => cases er <;> first | exact ih' _ _ _ | simp

theorem Record.WF.no_panic {C : Crypto} {r : Record} (h : r.WF) {m : Signal} (hm : 8 ≤ m.serialized.length) (rd : Bytes) :
    (decryptRecord C r m rd).1 ≠ .panic := by
  have hp : ∀ rd, (decryptPrevious C r m rd).1 ≠ .panic := by
    intro rd
    obtain ⟨l, hl, _, h2⟩ := h.states
    unfold decryptPrevious
    refine bind_no_panic (by rw [M.lift_run, h2]; simp) ?_
    intro l' rd' hl'
    rw [M.lift_run, h2] at hl'
    simp only [Prod.mk.injEq, Res.ok.injEq] at hl'
    obtain ⟨rfl, rfl⟩ := hl'
    refine bind_no_panic (tryPrevious_no_panic hm l hl _ _ _) ?_
    intro o rd' _
    cases o with
    | none => simp
    | some o => obtain ⟨_, _, _⟩ := o; simp
  unfold decryptRecord
  cases hc : r.current with
  | none => exact hp rd
  | some s =>
    refine bind_no_panic (attempt_no_panic ((h.current s hc).no_panic hm rd)) ?_
    intro o rd' _
    cases o with
    | ok o => obtain ⟨_, _⟩ := o; simp
    | error er => cases er <;> first | exact hp _ | simp

theorem newKeyPair_no_panic (a b : Bytes) : newKeyPair a b ≠ .panic := by
  have h1 : newPrivateKey a ≠ .panic := by unfold newPrivateKey; split <;> simp
  have h2 : newPublicKey b ≠ .panic := by
    unfold newPublicKey newDJBPublicKey
    split
    · simp
    · split
      · split <;> simp
      · simp
  unfold newKeyPair
  cases h : newPrivateKey a with
  | panic => exact absurd h h1
  | err e => simp
  | ok k =>
    simp only [Res.bind_ok]
    cases h' : newPublicKey b with
    | panic => exact absurd h' h2
    | err e => simp
    | ok k => simp

theorem load_bind_no_panic {β} {act : World → Option PreKeyRec × World} {f : Option KeyPair → M World β} {w : World}
    (hf : ∀ fs k, ((act { w with faults := fs }).1 = none ∧ k = none ∨
      ∃ p k', (act { w with faults := fs }).1 = some p ∧ p.keyPair = .ok k' ∧ k = some k') →
      (f k (act { w with faults := fs }).2).1 ≠ .panic) :
    (((storeCall act >>= optKeyPair) >>= f) w).1 ≠ .panic := by
  rw [bind_assoc_run]
  refine storeCall_bind (fun r _ => r ≠ .panic) (fun fs _ => ?_) (fun _ _ => by simp) (fun _ _ => by simp)
  have hf' := hf fs
  generalize act { w with faults := fs } = x at hf' ⊢
  obtain ⟨o, w1⟩ := x
  simp only at hf' ⊢
  cases o with
  | none => exact hf' none (.inl ⟨rfl, rfl⟩)
  | some p =>
    refine bind_no_panic ?_ ?_
    · simp only [optKeyPair]
      refine bind_no_panic ?_ ?_
      · rw [M.lift_run]; exact newKeyPair_no_panic _ _
      · simp
    · intro k w2 hk
      simp only [optKeyPair, M.bind_run, M.lift_run] at hk
      cases hp : p.keyPair with
      | panic => exact absurd hp (newKeyPair_no_panic _ _)
      | err e => simp [hp] at hk
      | ok k' =>
        simp only [hp, M.pure_run, Prod.mk.injEq, Res.ok.injEq] at hk
        obtain ⟨rfl, rfl⟩ := hk
        exact hf' _ (.inr ⟨p, k', rfl, hp, rfl⟩)

theorem agreement_some {C : Crypto} {p : PrivKey} {q : PubKey} (h : (C.dh p.key q.keyBytes).isSome) : ∃ d, p.agreement C q = .ok d := by
  obtain ⟨d, hd⟩ := Option.isSome_iff_exists.mp h
  exact ⟨d, by simp [PrivKey.agreement, hd]⟩

theorem initializeBob_some {C : Crypto} {w : World} {m : PreKeyMsg} (h : m.Acceptable C w) {signed oneTime : Option KeyPair}
    (hs : LoadsPair w.signedPreKeys m.signedPreKeyID signed)
    (ho : match m.preKeyID with | none => oneTime = none | some id => LoadsPair w.preKeys id oneTime) :
    ∃ s, initializeBobSession C ⟨w.identity, signed, oneTime, signed, m.identityKey, m.baseKey⟩ = .ok s := by
  have hsi := h.signed
  rcases hs with ⟨h0, _⟩ | ⟨p, k, hp, hk, rfl⟩
  · simp [h0] at hsi
  obtain ⟨hp1, hp2⟩ := h.points p k hp hk
  obtain ⟨d1, h1⟩ := agreement_some hp1
  obtain ⟨d2, h2⟩ := agreement_some h.identity
  obtain ⟨d3, h3⟩ := agreement_some hp2
  have h4 : ∃ d4, (match oneTime with | some k => k.priv.agreement C m.baseKey | none => .ok []) = .ok d4 := by
    cases oneTime with
    | none => exact ⟨[], rfl⟩
    | some k1 =>
      cases hid : m.preKeyID with
      | none => simp [hid] at ho
      | some id =>
        simp only [hid] at ho
        rcases ho with ⟨_, h0⟩ | ⟨q, k2, hq, hk2, h0⟩
        · simp at h0
        · simp only [Option.some.injEq] at h0
          subst h0
          exact agreement_some (h.oneTime id q k1 hid hq hk2)
  obtain ⟨d4, h4⟩ := h4
  cases oneTime with
  | none =>
    simp only [Res.ok.injEq] at h4
    subst h4
    exact ⟨_, by simp only [initializeBobSession, deref, h1, h2, h3, Res.bind_ok, deriveKeys_ok]; rfl⟩
  | some k1 =>
    simp only at h4
    exact ⟨_, by simp only [initializeBobSession, deref, h1, h2, h3, h4, Res.bind_ok, deriveKeys_ok]; rfl⟩

/-- The current session, if any, is past its set-up. -/
def Record.Settled (r : Record) : Prop := ∀ s, r.current = some s → s.pendingPreKey = none

theorem Record.WF.decrypt_settled {C : Crypto} {r r' : Record} {m : Signal} {rd rd' p : Bytes} (h : r.WF)
    (hd : decryptRecord C r m rd = (.ok (p, r'), rd')) : r'.Settled := by
  intro t ht
  rcases decryptRecord_ok hd with ⟨s, s', hc, h1, rfl⟩ | ⟨prev, idx, s, s', rd1, rd2, hp, hi, h1, hrd, rfl⟩
  · simp only [Record.setSessionState, Option.some.injEq] at ht
    subst ht
    obtain ⟨_, s1, i, c, c', ck, mk, rk, lk, _, _, _, _, _, _, _, _, rfl⟩ := decrypted_shape (h.current s hc) h1
    rfl
  · obtain ⟨l, hl, hlen, hl2⟩ := h.states
    rw [hp] at hl2
    simp only [Res.ok.injEq] at hl2
    subst hl2
    have hidx : idx < prev.length := by
      rw [List.getElem?_eq_some_iff] at hi
      exact hi.1
    have hpl : r.previous.length = prev.length := by rw [hlen]; simp
    rw [Record.promoteOldState, if_neg (by omega)] at ht
    simp only [Record.promoteState, Option.some.injEq] at ht
    subst ht
    obtain ⟨_, s1, i, c, c', ck, mk, rk, lk, _, _, _, _, _, _, _, _, rfl⟩ :=
      decrypted_shape (hl s (List.mem_of_getElem? hi)) h1
    rfl

theorem encryptState_pending {C : Crypto} {s s' : SState} {pt : Bytes} {msg : Ciphertext} {k : PubKey} (h : s.WF)
    (he : encryptState C s pt = .ok (msg, s', k)) : s'.pendingPreKey = s.pendingPreKey ∧ s'.localRegistrationId = s.localRegistrationId ∧
      s'.localIdentityPublic = s.localIdentityPublic := by
  obtain ⟨c, ck, _, _, _, _, hc, _, _, _, _, _, _, _, _, _, _, out, he', _⟩ := h.encrypts C pt
  rw [he] at he'
  simp only [Res.ok.injEq, Prod.mk.injEq] at he'
  rw [he'.2.1]
  simp [SState.setSenderChainKey, hc]

theorem Processed.settled {E : Env} {w : World} {r rec : Record} {m : PreKeyMsg} {id : Option UInt32} (h : r.Settled)
    (hp : Processed E w r m id rec) : rec.Settled := by
  cases hp with
  | found _ => exact h
  | fresh hf signed oneTime s hs ho hi s' hs' =>
    intro t ht
    simp only [Record.promoteState, Option.some.injEq] at ht
    obtain ⟨_, _, _, _, _, _, _, _, _, _, _, _, rk, ck, _, rfl⟩ := initializeBob_ok hi
    subst ht hs'
    rfl

theorem settled_call {E : Env} {c : Call} {w : World} {a : Address} (hw : w.WF) (hb : ∀ b, c.op ≠ .bundle a b)
    (h : ((w.sessions a).getD {}).Settled) : (((c.run E w).2.sessions a).getD {}).Settled := by
  rcases call_changed E c w a with he | ⟨r', he, hst⟩
  · rw [he]; exact h
  · rw [he]
    have hwf : ((w.sessions a).getD {}).WF := hw.getD a
    generalize hop : c.op = op at hst hb
    generalize hr : (w.sessions a).getD {} = r at hst h hwf
    simp only [Option.getD_some]
    cases hst with
    | enc h2 h3 =>
      intro t ht
      simp only [Record.setSessionState, Option.some.injEq] at ht
      subst ht
      rw [(encryptState_pending (hwf.current _ h2) h3).1]
      exact h _ h2
    | dec hd => exact hwf.decrypt_settled hd
    | setUp hE hp _ => exact hp.settled h
    | preKey hp hd => exact (hp.WF hwf).decrypt_settled hd
    | bundle hfb => exact absurd rfl (hb _)

theorem settled_after {E : Env} {a : Address} (cs : List Call) (w : World) (hw : w.WF) (hb : ∀ c ∈ cs, ∀ b, c.op ≠ .bundle a b)
    (h : ((w.sessions a).getD {}).Settled) : (((after E cs w).sessions a).getD {}).Settled := by
  induction cs generalizing w with
  | nil => exact h
  | cons c cs ih =>
    exact ih (c.run E w).2 hw.call (fun c' hc' => hb c' (by simp [hc'])) (settled_call hw (hb c (by simp)) h)

/-- The record holds what a successful decryption left in it. -/
theorem decrypted_settled {E : Env} {w w1 : World} (hw : w.WF) {a : Address} {c : Ciphertext} {p : Bytes}
    (h : decryptMessage E a c w = (.ok (some p), w1)) : ((w1.sessions a).getD {}).Settled := by
  cases c with
  | senderKey m => simp [decryptMessage] at h
  | plaintext m => simp [decryptMessage] at h
  | signal m =>
    simp only [decryptMessage] at h
    have ho := signal_outcome E a m w
    rw [h] at ho
    cases ho with
    | early _ fs rd hb => exact absurd rfl (hb _)
    | stopped _ fs hb => exact absurd rfl (hb _)
    | done fs rec rec' pt rd st k h1 h2 h3 h4 ht =>
      cases h2 with
      | ok _ _ _ hd => simp only [upd_same, Option.getD_some]; exact (hw a _ h1).decrypt_settled hd
  | preKey m =>
    have ho := preKey_outcome E a m w
    rw [decryptMessage_preKey] at h
    generalize decryptPreKey E a m w = x at ho h
    obtain ⟨res, w'⟩ := x
    cases res with
    | err e => simp at h
    | panic => simp at h
    | ok q =>
    simp only [Prod.mk.injEq, Res.ok.injEq, Option.some.injEq] at ho h
    obtain ⟨rfl, rfl⟩ := h
    cases ho with
    | early _ fs hb => exact absurd rfl (hb q)
    | processed _ fs hb => exact absurd rfl (hb q)
    | decrypted _ fs hb => exact absurd rfl (hb q)
    | done fs id rec rec' p rd ht hpr hd =>
      simp only [upd_same, Option.getD_some]
      exact (hpr.WF (hw.getD a)).decrypt_settled hd

/-- What is remembered about the bundle in the current session. -/
def Record.Initiated (r : Record) (b : Bundle) (base : PubKey) (regId : UInt32) (id : PubKey) : Prop :=
  ∃ s, r.current = some s ∧ s.pendingPreKey = some { signedPreKeyId := Int32.ofUInt32 b.signedPreKeyID, baseKey := base.bytes, preKeyId := b.preKeyID.getD 0 } ∧
    s.localRegistrationId = regId ∧ s.localIdentityPublic = id.bytes

end Verif
