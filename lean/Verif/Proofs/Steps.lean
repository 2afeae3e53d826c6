import Verif.Proofs.Chains

/-!
How one call changes the record of an address, and histories of calls.
-/

namespace Verif

/-- How a call about address `a` can change its record. -/
inductive RecStep (E : Env) (w : World) (a : Address) : Op → Record → Record → Prop
  | enc {pt : Bytes} {r : Record} {st st' : SState} {msg : Ciphertext} {k : PubKey} (h2 : r.current = some st)
      (h3 : encryptState E.C st pt = .ok (msg, st', k)) : RecStep E w a (.encrypt a pt) r (r.setSessionState st')
  | dec {m : Signal} {r r' : Record} {p rd : Bytes} (hd : decryptRecord E.C r m w.rand = (.ok (p, r'), rd)) :
      RecStep E w a (.decrypt a (.signal m)) r r'
  /-- only in a sharing store: the session was set up, but the message did not decrypt -/
  | setUp {m : PreKeyMsg} {r rec : Record} {id : Option UInt32} (hE : E.aliased = true) (hp : Processed E w r m id rec)
      (hbad : (decryptMessage E a (.preKey m) w).1.Bad) :
      RecStep E w a (.decrypt a (.preKey m)) r rec
  | preKey {m : PreKeyMsg} {r rec r' : Record} {id : Option UInt32} {p rd : Bytes} (hp : Processed E w r m id rec)
      (hd : decryptRecord E.C rec m.message w.rand = (.ok (p, r'), rd)) : RecStep E w a (.decrypt a (.preKey m)) r r'
  | bundle {b : Bundle} {r : Record} {s : SState} {rd : Bytes} (h : FromBundle E w b s rd) :
      RecStep E w a (.bundle a b) r (r.promoteState s)

/-- The record after a call: unchanged, or changed by a step. -/
def Changed (E : Env) (w : World) (op : Op) (a : Address) (ss : Address → Option Record) : Prop :=
  ss a = w.sessions a ∨ ∃ r', ss a = some r' ∧ RecStep E w a op ((w.sessions a).getD {}) r'

theorem Changed.upd {E : Env} {w : World} {op : Op} {b a : Address} {r' : Record}
    (h : RecStep E w b op ((w.sessions b).getD {}) r') : Changed E w op a (upd w.sessions b (some r')) := by
  by_cases hab : a = b
  · subst hab; exact .inr ⟨r', upd_same _ _ _, h⟩
  · exact .inl (upd_ne _ _ hab)

theorem Changed.mid {E : Env} {w : World} {op : Op} {b a : Address} {r' : Record} {l : Bool}
    (h : E.aliased = true → RecStep E w b op ((w.sessions b).getD {}) r') : Changed E w op a (mid E b l w.sessions r') := by
  unfold Verif.mid
  split
  · rename_i hc
    simp only [Bool.and_eq_true] at hc
    exact Changed.upd (h hc.1)
  · exact .inl rfl

theorem call_changed (E : Env) (c : Call) (w : World) (a : Address) :
    Changed E { w with rand := c.rand, faults := c.faults } c.op a (c.run E w).2.sessions := by
  obtain ⟨op, rd, fs⟩ := c
  cases op with
  | addPreKey id k => exact .inl rfl
  | addSignedPreKey id k => exact .inl rfl
  | encrypt b pt =>
    simp only [Call.run]
    have ho := encrypt_outcome E b pt { w with rand := rd, faults := fs }
    generalize ({ w with rand := rd, faults := fs } : World) = w1 at ho ⊢
    generalize encryptMessage E b pt w1 = x at ho ⊢
    obtain ⟨r, w'⟩ := x
    simp only at ho ⊢
    cases ho with
    | early _ fs hr => exact .inl rfl
    | stopped _ fs hr rec st st' msg k h1 h2 h3 ss kn hs hk =>
      have hstep : RecStep E w1 b (.encrypt b pt) ((w1.sessions b).getD {}) (rec.setSessionState st') := by
        rw [h1]; exact .enc h2 h3
      rcases hs with rfl | ⟨rfl, _⟩
      · exact Changed.mid fun _ => hstep
      · exact Changed.upd hstep
    | done fs rec st st' msg k h1 h2 h3 ht =>
      have hstep : RecStep E w1 b (.encrypt b pt) ((w1.sessions b).getD {}) (rec.setSessionState st') := by
        rw [h1]; exact .enc h2 h3
      exact Changed.upd hstep
  | bundle b bd =>
    simp only [Call.run]
    have ho := bundle_outcome E b bd { w with rand := rd, faults := fs }
    generalize ({ w with rand := rd, faults := fs } : World) = w1 at ho ⊢
    generalize processPreKeyBundle E b bd w1 = x at ho ⊢
    obtain ⟨r, w'⟩ := x
    simp only at ho ⊢
    cases ho with
    | early _ fs rd hr => exact .inl rfl
    | stopped _ fs hr s rd ht hv h ss kn hk =>
      rcases hk with ⟨_, rfl⟩ | ⟨_, rfl | rfl | ⟨rfl, _⟩⟩
      · exact .inl rfl
      · exact .inl rfl
      · exact Changed.mid fun _ => .bundle h
      · exact Changed.upd (.bundle h)
    | done fs s rd ht hv h => exact Changed.upd (.bundle h)
  | decrypt b c =>
    simp only [Call.run]
    generalize ({ w with rand := rd, faults := fs } : World) = w1
    cases c with
    | senderKey m => exact .inl rfl
    | plaintext m => exact .inl rfl
    | signal m =>
      simp only [decryptMessage]
      have ho := signal_outcome E b m w1
      generalize decryptSignal E b m w1 = x at ho ⊢
      obtain ⟨r, w'⟩ := x
      simp only at ho ⊢
      have key : ∀ rec rec' pt rd, w1.sessions b = some rec → Tried E rec m w1.rand pt rec' rd →
          rec' = rec ∨ RecStep E w1 b (.decrypt b (.signal m)) ((w1.sessions b).getD {}) rec' := by
        intro rec rec' pt rd h1 h2
        cases h2 with
        | ok p _ _ hd => right; rw [h1]; exact .dec hd
        | failed => exact .inl rfl
      have self : ∀ rec, w1.sessions b = some rec → mid E b true w1.sessions rec = w1.sessions := by
        intro rec h1
        have := mid_self E b w1.sessions
        rw [h1] at this
        exact this
      cases ho with
      | early _ fs rd hr => exact .inl rfl
      | stopped _ fs hr rec rec' pt rd h1 h2 ss kn hs hk =>
        rcases key rec rec' pt rd h1 h2 with rfl | hstep
        · rcases hs with rfl | ⟨rfl, _⟩
          · left; simp only; rw [self _ h1]
          · left; simp only; rw [upd_self _ _ _ h1]
        · rcases hs with rfl | ⟨rfl, _⟩
          · exact Changed.mid fun _ => hstep
          · exact Changed.upd hstep
      | done fs rec rec' pt rd st k h1 h2 h3 h4 ht =>
        rcases key rec rec' pt rd h1 h2 with rfl | hstep
        · left; simp only; rw [upd_self _ _ _ h1]
        · exact Changed.upd hstep
    | preKey m =>
      rw [decryptMessage_preKey]
      have ho := preKey_outcome E b m w1
      generalize hx : decryptPreKey E b m w1 = x at ho ⊢
      obtain ⟨r, w'⟩ := x
      simp only at ho ⊢
      cases ho with
      | early _ fs hr => exact .inl rfl
      | processed _ fs hr id rec rd ht hp kn hk =>
        refine Changed.mid fun hE => .setUp hE hp ?_
        rw [decryptMessage_preKey, hx]
        cases r with
        | ok q => exact absurd hr (by simp)
        | err e => simp
        | panic => simp
      | decrypted _ fs hr id rec rec' p rd ht hp hd ss pk hs =>
        rcases hs with ⟨rfl, _⟩ | ⟨rfl, _⟩ | ⟨rfl, _⟩
        · exact Changed.mid fun _ => .preKey hp hd
        · exact Changed.upd (.preKey hp hd)
        · exact Changed.upd (.preKey hp hd)
      | done fs id rec rec' p rd ht hp hd => exact Changed.upd (.preKey hp hd)

/-- A plain message that the record does not open yields no plaintext and changes no session. -/
theorem signal_unopened_record {E : Env} {a : Address} {m : Signal} {w : World}
    (hno : ∀ r, w.sessions a = some r → (decryptRecord E.C r m w.rand).1.Bad) :
    (∀ p, (decryptMessage E a (.signal m) w).1 ≠ .ok (some p)) ∧ (decryptMessage E a (.signal m) w).2.sessions = w.sessions := by
  have htried : ∀ r rec' pt rd, w.sessions a = some r → Tried E r m w.rand pt rec' rd → pt = none ∧ rec' = r := by
    intro r rec' pt rd hr ht
    cases ht with
    | ok p _ _ hd => exact absurd (by rw [hd]) (hno r hr (p, rec'))
    | failed => exact ⟨rfl, rfl⟩
  have hmid : ∀ r, w.sessions a = some r → mid E a true w.sessions r = w.sessions := by
    intro r hr
    have := mid_self E a w.sessions
    rw [hr] at this
    exact this
  simp only [decryptMessage]
  have ho := signal_outcome E a m w
  generalize decryptSignal E a m w = x at ho ⊢
  obtain ⟨res, w'⟩ := x
  simp only at ho ⊢
  cases ho with
  | early _ fs rd hb => exact ⟨fun p hp => hb _ hp, rfl⟩
  | stopped _ fs hb rec rec' pt rd h1 h2 ss kn hs hk =>
    obtain ⟨rfl, rfl⟩ := htried rec rec' pt rd h1 h2
    refine ⟨fun p hp => hb _ hp, ?_⟩
    rcases hs with rfl | ⟨rfl, _⟩
    · exact hmid _ h1
    · exact upd_self _ _ _ h1
  | done fs rec rec' pt rd st k h1 h2 h3 h4 ht =>
    obtain ⟨rfl, rfl⟩ := htried rec rec' pt rd h1 h2
    exact ⟨by simp, upd_self _ _ _ h1⟩

/-- A plain message that no state of the record opens yields no plaintext and changes no session. -/
theorem signal_unopened {E : Env} {a : Address} {m : Signal} {w : World}
    (h : ∀ r s rd, w.sessions a = some r → r.HasState s → (decryptMessageSession E.C s m rd).1.Bad) :
    (∀ p, (decryptMessage E a (.signal m) w).1 ≠ .ok (some p)) ∧ (decryptMessage E a (.signal m) w).2.sessions = w.sessions := by
  refine signal_unopened_record fun r hr o ho => ?_
  rcases hx : decryptRecord E.C r m w.rand with ⟨x, rd'⟩
  rw [hx] at ho
  simp only at ho
  subst ho
  obtain ⟨p, r'⟩ := o
  obtain ⟨s, s', rd1, rd2, hs, hd'⟩ := decryptRecord_state hx
  have := h r s rd1 hr hs
  rw [hd'] at this
  exact this _ rfl

/-- Where the plaintext of a pre-key message comes from. -/
theorem preKey_plaintext {E : Env} {a : Address} {m : PreKeyMsg} {w : World} {p : Bytes}
    (hp : (decryptMessage E a (.preKey m) w).1 = .ok (some p)) :
    ∃ id rec rec' rd, Processed E w ((w.sessions a).getD {}) m id rec ∧ decryptRecord E.C rec m.message w.rand = (.ok (p, rec'), rd) := by
  rw [decryptMessage_preKey] at hp
  have ho := preKey_outcome E a m w
  generalize decryptPreKey E a m w = x at ho hp
  obtain ⟨res, w'⟩ := x
  cases res with
  | err e => simp at hp
  | panic => simp at hp
  | ok q =>
  simp only [Res.ok.injEq, Option.some.injEq] at ho hp
  subst hp
  cases ho with
  | early _ fs hb => exact absurd rfl (hb q)
  | processed _ fs hb => exact absurd rfl (hb q)
  | decrypted _ fs hb => exact absurd rfl (hb q)
  | done fs id rec rec' p rd ht hpr hd => exact ⟨id, rec, rec', rd, hpr, hd⟩

end Verif
