import Verif.Proofs.Trouble1

/-!
The invariant of a conversation with several sessions, under attack and with failing stores.
-/

namespace Verif

variable {d : Duo} {ident : Side → PubKey} {G : List PubKey} {F F' : List Bytes} {N N' : Nat} {S : MSys} {Ts : List Talk}

theorem Less.same {C : Crypto} (h : (F.map (publicKeyOf C)).Nodup) : Less C F F := ⟨fun _ hx => hx, h⟩

/-- All states of a record name the other side. -/
theorem MInv.remote (h : MInv d ident G F N S Ts) {s : Side} {rec : Record} (hr : (S.world s).sessions (d.address s.other) = some rec) {u : SState}
    (hu : rec.HasState u) : u.remoteIdentityKey = .ok (some (ident s.other)) := by
  obtain ⟨U, hU, _, hst⟩ := h.state hr hu
  have hrk := ((h.each U hU).view _ u hst).remoteKey
  simpa only [Side.as_other, Side.as_as] using hrk

/-- So does the state with which a record reads a message. -/
theorem MInv.tried (h : MInv d ident G F N S Ts) {s : Side} {rec rec' : Record} (hr : (S.world s).sessions (d.address s.other) = some rec) {m : Signal}
    {rd rd' : Bytes} {pt : Option Bytes} (ht : Tried (d.env s) rec m rd pt rec' rd') :
    ∃ st, rec'.current = some st ∧ st.remoteIdentityKey = .ok (some (ident s.other)) := by
  obtain ⟨l, hl⟩ := h.recs s rec hr
  cases ht with
  | ok p rec' rd' hd =>
    obtain ⟨u, u', rd1, rd2, h1, h2, h3⟩ := hl.wf.decrypted hd
    have hu : rec.HasState u := by
      rcases h3 with ⟨hc, _⟩ | ⟨l', idx, hp, hi, _⟩
      · exact .inl hc
      · exact (hl.wf.hasState hp u).mpr (.inr (List.mem_of_getElem? hi))
    refine ⟨u', h2, ?_⟩
    have := h.remote hr hu
    simp only [SState.remoteIdentityKey, (decryptMessageSession_keeps h1).2.2.2.1] at this ⊢
    exact this
  | failed e rd' hd =>
    cases hc : rec.current with
    | none => exact absurd hc hl.cur
    | some st => exact ⟨st, rfl, h.remote hr (.inl hc)⟩

/-- What DecryptMessage makes of the identity store, for messages that carry no other identity key than the other side's. -/
theorem MInv.known_decrypt (h : MInv d ident G F N S Ts) {s : Side} (c : Ciphertext)
    (hc : ∀ m, c = .preKey m → d.trusted s (S.world s).known (d.address s.other) m.identityKey .receiving = true → m.identityKey = ident s.other)
    (rand : Bytes) (faults : List Fault) :
    let W := (decryptMessage (d.env s) (d.address s.other) c { S.world s with rand := rand, faults := faults }).2
    W.known (d.address s.other) = none ∨ W.known (d.address s.other) = some (ident s.other) := by
  intro W
  rcases decrypt_known (d.env s) (d.address s.other) c { S.world s with rand := rand, faults := faults } with hk | ⟨k, hk, ht, hf⟩
  · have := h.known s
    rw [show W.known = _ from hk]
    exact this
  · rw [show W.known = _ from hk, upd_same]
    right
    rcases hf with ⟨m, rfl, rfl⟩ | ⟨m, rec, rec', pt, rd, st, rfl, h1, h2, h3, h4⟩
    · rw [hc m rfl ht]
    · obtain ⟨st', e1, e2⟩ := h.tried h1 h2
      rw [h3] at e1
      simp only [Option.some.injEq] at e1
      subst e1
      rw [h4] at e2
      simpa using e2

/-- A message that is not read changes nothing that matters. -/
theorem MInv.injected (htr : d.Trusting ident) (hnd : (F.map (publicKeyOf d.C)).Nodup) (h : MInv d ident G F N S Ts) {s : Side} {c : Ciphertext} {rand : Bytes}
    (hok : S.InjectionOk d s c rand) (faults : List Fault) :
    MInv d ident G F (N + 1) { S with world := upd S.world s (decryptMessage (d.env s) (d.address s.other) c { S.world s with rand := rand, faults := faults }).2 } Ts := by
  have hc : ∀ m, c = .preKey m → d.trusted s (S.world s).known (d.address s.other) m.identityKey .receiving = true → m.identityKey = ident s.other := by
    intro m hm ht
    rw [hok.identity m hm ht, (h.ids s.other).1]
  have hkn := h.known_decrypt c hc rand faults
  obtain ⟨w, hw⟩ : ∃ w : World, w = { S.world s with rand := rand, faults := faults } := ⟨_, rfl⟩
  have hcalm : w.calm = { S.world s with rand := rand, faults := [] } := by rw [hw]; rfl
  have hrej := hok.rejected
  rw [← hcalm] at hrej
  rw [← hw] at hkn ⊢
  have key : (decryptMessage (d.env s) (d.address s.other) c w).2.identity = w.identity ∧
      (decryptMessage (d.env s) (d.address s.other) c w).2.signedPreKeys = w.signedPreKeys ∧
      (decryptMessage (d.env s) (d.address s.other) c w).2.sessions = w.sessions ∧
      (decryptMessage (d.env s) (d.address s.other) c w).2.preKeys = w.preKeys := by
    cases c with
    | preKey m =>
      have hf := decrypt_faulty (d.env s) (hok.copying m rfl) (d.address s.other) (.preKey m) w
      rcases hf.stored with ⟨a1, a2, _⟩ | ⟨p, a1, _⟩
      · exact ⟨hf.identity, hf.signed, a1, a2⟩
      · exact absurd a1 (hrej p)
    | signal m =>
      simp only [decryptMessage] at hrej ⊢
      have hsess : w.sessions (d.address s.other) = (S.world s).sessions (d.address s.other) := by rw [hw]
      have hknown : w.known = (S.world s).known := by rw [hw]
      -- reading does not succeed
      have none_of : ∀ rec rec' pt rd, w.sessions (d.address s.other) = some rec → Tried (d.env s) rec m w.rand pt rec' rd → rec' = rec := by
        intro rec rec' pt rd h1 h2
        obtain ⟨st, e1, e2⟩ := h.tried (hsess ▸ h1) h2
        cases h2 with
        | failed e rd' hd => rfl
        | ok p rec' rd' hd =>
          have := signal_run (E := d.env s) (a := d.address s.other) (m := m) (w := w.calm) rfl h1 (.ok p _ _ hd) e1 e2
            (htr s _ _ (by rw [show w.calm.known = _ from hknown]; exact h.known s))
          exact absurd (by rw [this]) (hrej p)
      have ho := signal_outcome (d.env s) (d.address s.other) m w
      generalize decryptSignal (d.env s) (d.address s.other) m w = x at ho ⊢
      obtain ⟨r, w'⟩ := x
      simp only at ho ⊢
      cases ho with
      | early _ fs rd hr => exact ⟨rfl, rfl, rfl, rfl⟩
      | stopped _ fs hr rec rec' pt rd h1 h2 ss kn hs hk =>
        obtain rfl := none_of _ _ _ _ h1 h2
        refine ⟨rfl, rfl, ?_, rfl⟩
        rcases hs with rfl | ⟨rfl, _⟩
        · unfold mid
          split
          · exact upd_self _ _ _ h1
          · rfl
        · exact upd_self _ _ _ h1
      | done fs rec rec' pt rd st k h1 h2 h3 h4 ht =>
        obtain rfl := none_of _ _ _ _ h1 h2
        exact ⟨rfl, rfl, upd_self _ _ _ h1, rfl⟩
    | senderKey m => exact ⟨rfl, rfl, rfl, rfl⟩
    | plaintext m => exact ⟨rfl, rfl, rfl, rfl⟩
  obtain ⟨k1, k2, k3, k4⟩ := key
  have hws : w.sessions = (S.world s).sessions ∧ w.identity = (S.world s).identity ∧ w.signedPreKeys = (S.world s).signedPreKeys ∧ w.preKeys = (S.world s).preKeys := by
    rw [hw]; exact ⟨rfl, rfl, rfl, rfl⟩
  refine h.idle rfl rfl rfl ?_ ?_ (.same hnd) (Nat.le_succ _)
  · intro u
    by_cases hu : u = s
    · subst hu; simp only [upd_same]; exact hkn
    · simp only [upd_ne _ _ hu]; exact h.known u
  · intro u
    by_cases hu : u = s
    · subst hu
      simp only [upd_same]
      exact ⟨by rw [k3, hws.1], by rw [k1, hws.2.1], by rw [k2, hws.2.2.1], by rw [k4, hws.2.2.2]⟩
    · simp only [upd_ne _ _ hu, and_self]

/-- A session that has not arrived is not in the record. -/
theorem MInv.notHas (h : MInv d ident G F N S Ts) {T : Talk} (hT : T ∈ Ts) (hn : T.st .bob = none) : ¬ S.Has d T.x.other T.name := by
  rintro ⟨r, u, h1, h2, h3⟩
  have := (h.link T hT .bob u).mpr ⟨r, by rw [Side.as_bob]; exact h1, h2, h3⟩
  rw [hn] at this
  cases this

/-- What a side does that does not concern the other. -/
theorem MInv.elsewhere (hnd : (F.map (publicKeyOf d.C)).Nodup) (h : MInv d ident G F N S Ts) {s : Side} {W : World}
    (h1 : W.sessions (d.address s.other) = (S.world s).sessions (d.address s.other)) (h2 : W.known (d.address s.other) = (S.world s).known (d.address s.other))
    (h3 : W.identity = (S.world s).identity) (h4 : S.Keeps d s W) : MInv d ident G F (N + 1) { S with world := upd S.world s W } Ts := by
  refine h.frame rfl rfl rfl ?_ ?_ ?_ (.same hnd) (Nat.le_succ _)
  · intro u
    by_cases hu : u = s
    · subst hu; simp only [upd_same, h2]; exact h.known u
    · simp only [upd_ne _ _ hu]; exact h.known u
  · intro u
    by_cases hu : u = s
    · subst hu; simp only [upd_same]; exact ⟨h1, h3⟩
    · simp only [upd_ne _ _ hu, and_self]
  · intro T hT hn
    have hnot := h.notHas hT hn
    by_cases hu : T.x.other = s
    · subst hu
      simp only [upd_same]
      exact h4 (T.x, T.b, T.name) (by rw [h.list]; exact List.mem_map_of_mem hT) (Side.other_other _).symm hnot
    · simp only [upd_ne _ _ hu]
      exact ⟨trivial, fun _ _ => trivial⟩

end Verif
