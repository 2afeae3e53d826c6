import Verif.Proofs.Steps

/-!
# What session records hold: C11, C12, C14, C15, C19, C20
-/

namespace Verif

open Ex

/-! ## C11 -/

/-- C11: every stored record has at most 40 archived states, and every state of it has at most 5 receiving chains with
at most 2000 stored message keys each. -/
theorem C11_records_stay_bounded (E : Env) (w : World) (hw : Reachable E w) (a : Address) (r : Record) (h : w.sessions a = some r) :
    r.previous.length ≤ 40 ∧ ∀ s, r.HasState s → s.Bounded := by
  have hr := hw.WF a r h
  exact ⟨hr.count, fun s hs => ⟨(hr.state hs).chains, fun c hc => ((hr.state hs).chainWF c hc).count⟩⟩

example : Reachable copying bob3 ∧ (bob3.sessions alice).isSome := ⟨bob3_reachable, by decide +kernel⟩

/-! ## C20 -/

/-- C20: a session state of any shape survives serialisation (Go cannot hold byte strings of 2^64 bytes). -/
theorem C20_state_round_trip (s : SState) (h : s.marshal.length < 2 ^ 64) : SState.unmarshal s.marshal = .ok s :=
  SState.unmarshal_marshal s h

/-- C20: every state the library ever stores survives serialisation. -/
theorem C20_stored_state_round_trip (E : Env) (w : World) (hw : Reachable E w) (a : Address) (r : Record) (h : w.sessions a = some r)
    (s : SState) (hs : r.HasState s) : SState.unmarshal s.marshal = .ok s ∧ Record.ofBytes s.marshal = .ok { current := some s } := by
  have := ((hw.WF a r h).state hs).round_trip
  exact ⟨this, by simp [Record.ofBytes, this]⟩

/-- C20: the archive of a stored record is the serialisation of a list of states, and `PreviousStates` returns exactly
this list. -/
theorem C20_archive_is_recovered (E : Env) (w : World) (hw : Reachable E w) (a : Address) (r : Record) (h : w.sessions a = some r) :
    ∃ l : List SState, r.previous = l.map SState.marshal ∧ r.previousStates = .ok l := by
  obtain ⟨l, _, h1, h2⟩ := (hw.WF a r h).states
  exact ⟨l, h1, h2⟩

/-- C20: archiving the current state and reading the archive returns it last, after the states that were archived
before; at 40 archived states the oldest makes room. -/
theorem C20_archived_state_is_recovered (E : Env) (w : World) (hw : Reachable E w) (a : Address) (r : Record)
    (h : w.sessions a = some r) (s : SState) (hs : r.current = some s) (l : List SState) (hl : r.previousStates = .ok l) :
    r.archiveCurrentState.previousStates = .ok ((if l.length = 40 then l.drop 1 else l) ++ [s]) := by
  have hr := hw.WF a r h
  obtain ⟨l', hwf, hp, hl'⟩ := hr.states
  rw [hl] at hl'
  simp only [Res.ok.injEq] at hl'
  subst hl'
  have hc := hr.count
  rw [hp, List.length_map, show maxArchivedStates = 40 from rfl] at hc
  have hap : ∀ l0 : List SState, (∀ t ∈ l0, t.WF) → ∀ r0 : Record, r0.previous = l0.map SState.marshal ++ [s.marshal] → r0.previousStates = .ok (l0 ++ [s]) := by
    intro l0 h0 r0 hr0
    refine previousStates_map ?_ (by rw [hr0]; simp)
    intro t ht
    rcases List.mem_append.mp ht with ht | ht
    · exact h0 t ht
    · simp only [List.mem_singleton] at ht; subst ht; exact hr.current _ hs
  unfold Record.archiveCurrentState
  rw [hs]
  by_cases h40 : l.length = 40
  · rw [if_pos h40]
    refine hap (l.drop 1) (fun t ht => hwf t (List.mem_of_mem_drop ht)) _ ?_
    simp only [hp, List.length_map, show maxArchivedStates = 40 from rfl, h40, ge_iff_le, Nat.le_refl, if_true, List.map_drop]
  · rw [if_neg h40]
    refine hap l hwf _ ?_
    have : ¬ l.length ≥ 40 := by omega
    simp only [hp, List.length_map, show maxArchivedStates = 40 from rfl, if_neg this]

example : ∃ r s, alice3.sessions bob = some r ∧ r.current = some s ∧ r.HasState s := by
  have h : (match alice3.sessions bob with | some r => r.current.isSome | none => false) = true := by decide +kernel
  cases hr : alice3.sessions bob with
  | none => simp [hr] at h
  | some r =>
    simp only [hr] at h
    obtain ⟨s, hs⟩ := Option.isSome_iff_exists.mp h
    exact ⟨r, s, rfl, hs, .inl hs⟩

/-! ## C14 and C15 -/

theorem Record.WF.states_eq {r : Record} (h : r.WF) {l : List SState} (hl : r.previousStates = .ok l) :
    r.states = l ++ r.current.toList := by
  obtain ⟨l', hwf, hp, hl'⟩ := h.states
  rw [hl] at hl'
  simp only [Res.ok.injEq] at hl'
  subst hl'
  unfold Record.states
  rw [hp]
  congr 1
  clear hp hl
  induction l with
  | nil => rfl
  | cons s l ih =>
    rw [List.map_cons, List.filterMap_cons, (hwf s (by simp)).round_trip]
    simp only
    rw [ih (fun t ht => hwf t (by simp [ht]))]

theorem decrypt_label {C : Crypto} {s s' : SState} {m : Signal} {rd rd' p : Bytes}
    (h : decryptMessageSession C s m rd = (.ok (p, s'), rd')) : s'.label = s.label := by
  obtain ⟨h1, h2, h3, h4, h5, _⟩ := decryptMessageSession_keeps h
  simp [SState.label, SState.version, h1, h2, h3, h4, h5]

theorem Record.WF.decrypt_perm {C : Crypto} {r r' : Record} {m : Signal} {rd rd' p : Bytes} (h : r.WF)
    (hd : decryptRecord C r m rd = (.ok (p, r'), rd')) : (r'.states.map SState.label).Perm (r.states.map SState.label) := by
  have hr' := h.decrypt hd
  obtain ⟨s, s', rd1, rd2, h1, h2, h3⟩ := h.decrypted hd
  have hlab := decrypt_label h1
  rcases h3 with ⟨hc, hp, _⟩ | ⟨l, idx, hl, hi, hl', _⟩
  · unfold Record.states
    rw [hp, hc, h2]
    simp [hlab]
  · rw [h.states_eq hl, hr'.states_eq hl', h2]
    obtain ⟨hidx, hi'⟩ := List.getElem?_eq_some_iff.mp hi
    have hsplit : l = l.take idx ++ s :: l.drop (idx + 1) := by
      rw [← hi', List.getElem_cons_drop, List.take_append_drop]
    rw [List.eraseIdx_eq_take_drop_succ]
    conv => rhs; rw [hsplit]
    simp only [List.map_append, Option.toList_some, List.map_cons, List.map_nil, hlab, List.append_assoc, List.cons_append]
    refine List.Perm.append_left _ ?_
    rw [← List.append_assoc]
    exact List.perm_append_singleton _ _

/-- C14: delivering a pre-key message whose version and base key belong to a state of the record consumes no pre-key,
and leaves a record with the same sessions (whatever happens: success, error, panic, store failure, for both kinds of
stores): none is added and none is lost. -/
theorem C14_known_preKey_creates_nothing (E : Env) (w : World) (hw : Reachable E w) (a : Address) (m : PreKeyMsg) (r : Record)
    (h : w.sessions a = some r) (hk : r.Knows m.version.toUInt32 m.baseKey) :
    (decryptMessage E a (.preKey m) w).2.preKeys = w.preKeys ∧
    ∃ r', (decryptMessage E a (.preKey m) w).2.sessions a = some r' ∧ (r'.states.map SState.label).Perm (r.states.map SState.label) := by
  have hr := hw.WF a r h
  have hfound : ∀ id rec, Processed E w ((w.sessions a).getD {}) m id rec → id = none ∧ rec = r := by
    intro id rec hp
    rw [h] at hp
    rcases hr.hasSessionState m.version.toUInt32 m.baseKey with ⟨_, ht⟩ | ⟨hn, _⟩
    · cases hp with
      | found _ => exact ⟨rfl, rfl⟩
      | fresh hf => simp only [Option.getD_some] at hf; rw [ht] at hf; simp at hf
    · exact absurd hk hn
  have hself : mid E a (w.sessions a).isSome w.sessions r = w.sessions := by
    have := mid_self E a w.sessions
    rw [h] at this ⊢
    exact this
  have hmid : ∀ rec', mid E a (w.sessions a).isSome w.sessions rec' a = some r ∨ mid E a (w.sessions a).isSome w.sessions rec' a = some rec' := by
    intro rec'
    unfold mid
    split
    · exact .inr (upd_same _ _ _)
    · exact .inl h
  rw [decryptMessage_preKey]
  have ho := preKey_outcome E a m w
  generalize decryptPreKey E a m w = x at ho ⊢
  obtain ⟨res, w'⟩ := x
  simp only at ho ⊢
  cases ho with
  | early _ fs hr => exact ⟨rfl, r, h, .refl _⟩
  | processed _ fs hb id rec rd ht hp kn hkn =>
    obtain ⟨rfl, rfl⟩ := hfound id rec hp
    refine ⟨rfl, rec, ?_, .refl _⟩
    rw [show mid E a (w.sessions a).isSome w.sessions rec = w.sessions from hself]
    exact h
  | decrypted _ fs hb id rec rec' p rd ht hp hd ss pk hs =>
    obtain ⟨rfl, rfl⟩ := hfound id rec hp
    have hperm := hr.decrypt_perm hd
    rcases hs with ⟨rfl, rfl, _⟩ | ⟨rfl, rfl, _⟩ | ⟨rfl, rfl, _⟩
    · refine ⟨rfl, ?_⟩
      rcases hmid rec' with hm | hm
      · exact ⟨rec, hm, .refl _⟩
      · exact ⟨rec', hm, hperm⟩
    · exact ⟨rfl, rec', upd_same _ _ _, hperm⟩
    · exact ⟨rfl, rec', upd_same _ _ _, hperm⟩
  | done fs id rec rec' p rd ht hp hd =>
    obtain ⟨rfl, rfl⟩ := hfound id rec hp
    exact ⟨rfl, rec', upd_same _ _ _, hr.decrypt_perm hd⟩

theorem bob2_knows_m2 : ∃ m r, m2 = .preKey m ∧ bob2.sessions alice = some r ∧ r.Knows m.version.toUInt32 m.baseKey := by
  have h : (match m2, bob2.sessions alice with
    | .preKey m, some r => match r.current with
      | some s => decide (s.version = m.version.toUInt32) && decide (s.aliceBaseKey = m.baseKey.bytes)
      | none => false
    | _, _ => false) = true := by decide +kernel
  split at h
  · rename_i m r hm hr
    split at h
    · rename_i s hs
      simp only [Bool.and_eq_true, decide_eq_true_eq] at h
      exact ⟨m, r, hm, hr, s, .inl hs, h⟩
    · simp at h
  · simp at h

example : ∃ m r, Reachable copying bob2 ∧ m2 = .preKey m ∧ bob2.sessions alice = some r ∧ r.Knows m.version.toUInt32 m.baseKey ∧
    (decryptMessage copying alice (.preKey m) bob2).1 = .ok (some [4]) := by
  obtain ⟨m, r, h1, h2, h3⟩ := bob2_knows_m2
  exact ⟨m, r, bob2_reachable, h1, h2, h3, h1 ▸ m2_delivered⟩

/-- C15: when a message that belongs to a known session is decrypted, exactly one state of the record opened it. If it
was the current state, it stays current and the archive is unchanged. If it was an archived state, it becomes the
current one and disappears from the archive, the former current state becomes the newest archived one, and all other
archived states stay, in order. -/
theorem C15_promotion_loses_nothing (E : Env) (w : World) (hw : Reachable E w) (a : Address) (c : Ciphertext) (m : Signal) (p : Bytes)
    (r : Record) (h : w.sessions a = some r) (hc : c.inner = some m)
    (hk : ∀ pm, c = .preKey pm → r.Knows pm.version.toUInt32 pm.baseKey)
    (hd : (decryptMessage E a c w).1 = .ok (some p)) :
    ∃ (r' : Record) (s s' : SState) (rd1 rd2 : Bytes),
      (decryptMessage E a c w).2.sessions a = some r' ∧ r'.current = some s' ∧
      decryptMessageSession E.C s m rd1 = (.ok (p, s'), rd2) ∧ s'.label = s.label ∧
      ((r.current = some s ∧ r'.previous = r.previous) ∨
       ∃ (before after : List SState), r.previousStates = .ok (before ++ [s] ++ after) ∧
         r'.previousStates = .ok (before ++ after ++ r.current.toList)) := by
  have hr := hw.WF a r h
  have key : ∀ r' rd', decryptRecord E.C r m w.rand = (.ok (p, r'), rd') → ∀ ss : Address → Option Record, ss a = some r' →
      ∃ (r' : Record) (s s' : SState) (rd1 rd2 : Bytes), ss a = some r' ∧ r'.current = some s' ∧
      decryptMessageSession E.C s m rd1 = (.ok (p, s'), rd2) ∧ s'.label = s.label ∧
      ((r.current = some s ∧ r'.previous = r.previous) ∨
       ∃ (before after : List SState), r.previousStates = .ok (before ++ [s] ++ after) ∧
         r'.previousStates = .ok (before ++ after ++ r.current.toList)) := by
    intro r' rd' hdr ss hss
    obtain ⟨s, s', rd1, rd2, h1, h2, h3⟩ := hr.decrypted hdr
    refine ⟨r', s, s', rd1, rd2, hss, h2, h1, decrypt_label h1, ?_⟩
    rcases h3 with ⟨hcur, hp, _⟩ | ⟨l, idx, hl, hi, hl', _⟩
    · exact .inl ⟨hcur, hp⟩
    · refine .inr ⟨l.take idx, l.drop (idx + 1), ?_, ?_⟩
      · rw [hl]
        obtain ⟨hidx, hi'⟩ := List.getElem?_eq_some_iff.mp hi
        congr 1
        rw [List.append_assoc, ← hi', List.singleton_append, List.getElem_cons_drop, List.take_append_drop]
      · rw [hl', List.eraseIdx_eq_take_drop_succ]
  cases c with
  | preKey pm =>
    simp only [Ciphertext.inner, Option.some.injEq] at hc
    subst hc
    have hkn := hk pm rfl
    rw [decryptMessage_preKey] at hd ⊢
    have ho := preKey_outcome E a pm w
    generalize decryptPreKey E a pm w = x at ho hd ⊢
    obtain ⟨res, w'⟩ := x
    cases res with
    | err e => simp at hd
    | panic => simp at hd
    | ok q =>
    simp only [Res.ok.injEq, Option.some.injEq] at ho hd ⊢
    subst hd
    cases ho with
    | early _ fs hb => exact absurd rfl (hb q)
    | processed _ fs hb => exact absurd rfl (hb q)
    | decrypted _ fs hb => exact absurd rfl (hb q)
    | done fs id rec rec' p rd ht hp hd =>
      have hrec : rec = r := by
        rw [h] at hp
        rcases hr.hasSessionState pm.version.toUInt32 pm.baseKey with ⟨_, ht⟩ | ⟨hn, _⟩
        · cases hp with
          | found _ => rfl
          | fresh hf => simp only [Option.getD_some] at hf; rw [ht] at hf; simp at hf
        · exact absurd hkn hn
      subst hrec
      exact key rec' rd hd _ (upd_same _ _ _)
  | signal sm =>
    simp only [Ciphertext.inner, Option.some.injEq] at hc
    subst hc
    simp only [decryptMessage] at hd ⊢
    have ho := signal_outcome E a sm w
    generalize decryptSignal E a sm w = x at ho hd ⊢
    obtain ⟨res, w'⟩ := x
    simp only at ho hd ⊢
    subst hd
    cases ho with
    | early _ fs rd hb => exact absurd rfl (hb _)
    | stopped _ fs hb => exact absurd rfl (hb _)
    | done fs rec rec' pt rd st k h1 h2 h3 h4 ht =>
      rw [h] at h1
      simp only [Option.some.injEq] at h1
      subst h1
      cases h2 with
      | ok p _ _ hd => exact key rec' rd hd _ (upd_same _ _ _)
  | senderKey m => simp [Ciphertext.inner] at hc
  | plaintext m => simp [Ciphertext.inner] at hc

example : Reachable copying alice6 ∧ (decryptMessage copying bob r1 { alice6 with rand := randomness 80 }).1 = .ok (some [9]) ∧
    ((alice6.sessions bob).map fun r => r.previous.length) = some 1 ∧
    (alice7.sessions bob).bind (·.current) ≠ (alice6.sessions bob).bind (·.current) :=
  ⟨alice6_reachable, by decide +kernel⟩

/-! ## C12 -/

theorem state_tooFar {C : Crypto} {s : SState} (h : s.WF) {m : Signal} (hfar : s.position m.senderRatchetKey + 25000 < m.counter.toNat)
    (hself : ¬ s.WithSelf) (rd : Bytes) : (decryptMessageSession C s m rd).1.Bad := by
  have hc := h.decryptCases (C := C) m rd
  generalize hx : decryptMessageSession C s m rd = x at hc
  cases hc with
  | ok p s' rd' hd =>
    exfalso
    obtain ⟨_, _, ck, s1, mk, s2, rk, lk, h1, h2, _, _, _, _, rfl⟩ := decryptMessageSession_ok hx
    obtain ⟨hw, hck⟩ := h.chainKeyFor h1
    have hsame : s1.localIdentityPublic = s.localIdentityPublic ∧ s1.remoteIdentityPublic = s.remoteIdentityPublic ∧
        s1.position m.senderRatchetKey = s.position m.senderRatchetKey := by
      rcases chainKeyFor_cases (C := C) h m.senderRatchetKey rd with ⟨ck', s1', rd'', h1', hl, hr, hp⟩ | ⟨_, e, rd'', h1', _⟩
      · rw [h1] at h1'
        simp only [Prod.mk.injEq, Res.ok.injEq] at h1'
        obtain ⟨⟨rfl, rfl⟩, rfl⟩ := h1'
        exact ⟨hl, hr, hp⟩
      · rw [h1] at h1'; simp at h1'
    obtain ⟨hl, hr, hp⟩ := hsame
    have hself1 : ¬ s1.WithSelf := by unfold SState.WithSelf at hself ⊢; rwa [hl, hr]
    rcases (messageKeysFor_cases (C := C) hw m.counter hck).2 with ⟨_, _, h3⟩ | ⟨_, h3⟩ | ⟨hn, _⟩
    · rw [h2] at h3; simp at h3
    · rw [h2] at h3; simp at h3
    · exact hn ⟨by rw [hp]; exact hfar, hself1⟩
  | _ => simp

/-- C12: a plain message more than 25000 ahead of the position of every state of the session, none of which is with
oneself, returns no plaintext and changes no stored session, for every kind of store and failure. -/
theorem C12_too_far_is_rejected (E : Env) (w : World) (hw : Reachable E w) (a : Address) (m : Signal)
    (h : ∀ r s, w.sessions a = some r → r.HasState s →
      s.position m.senderRatchetKey + 25000 < m.counter.toNat ∧ ¬ s.WithSelf) :
    (∀ p, (decryptMessage E a (.signal m) w).1 ≠ .ok (some p)) ∧ (decryptMessage E a (.signal m) w).2.sessions = w.sessions :=
  signal_unopened fun r s rd hr hs => state_tooFar ((hw.WF a r hr).state hs) (h r s hr hs).1 (h r s hr hs).2 rd

/-- C12 for pre-key messages: in addition the message must be more than 25000 ahead of the start of the session it
sets up, and not come from our own identity. -/
theorem C12_too_far_preKey_is_rejected (E : Env) (w : World) (hw : Reachable E w) (a : Address) (m : PreKeyMsg)
    (hfar : 25000 < m.message.counter.toNat) (hself : m.identityKey ≠ w.identity.pub)
    (h : ∀ r s, w.sessions a = some r → r.HasState s →
      s.position m.message.senderRatchetKey + 25000 < m.message.counter.toNat ∧ ¬ s.WithSelf) :
    ∀ p, (decryptMessage E a (.preKey m) w).1 ≠ .ok (some p) := by
  intro p hp
  rw [decryptMessage_preKey] at hp
  have ho := preKey_outcome E a m w
  generalize decryptPreKey E a m w = x at ho hp
  obtain ⟨res, w'⟩ := x
  cases res with
  | err e => simp at hp
  | panic => simp at hp
  | ok q =>
  simp only [Res.ok.injEq, Option.some.injEq] at ho hp
  cases ho with
  | early _ fs hb => exact hb q rfl
  | processed _ fs hb => exact hb q rfl
  | decrypted _ fs hb => exact hb q rfl
  | done fs id rec rec' p rd ht hpr hd =>
    have hrec := hpr.WF (hw.WF.getD a)
    obtain ⟨s, s', rd1, rd2, hs, hd'⟩ := decryptRecord_state hd
    have hold : ∀ t, ((w.sessions a).getD {}).HasState t → t.position m.message.senderRatchetKey + 25000 < m.message.counter.toNat ∧ ¬ t.WithSelf := by
      intro t ht
      cases hr : w.sessions a with
      | none => rw [hr] at ht; simp [Record.HasState] at ht
      | some r => rw [hr] at ht; exact h r t hr ht
    have hthis : s.position m.message.senderRatchetKey + 25000 < m.message.counter.toNat ∧ ¬ s.WithSelf := by
      cases hpr with
      | found _ => exact hold s hs
      | fresh hf signed oneTime s0 hs0 ho hi s1 hs1 =>
        rcases hs with hs | ⟨b, hb, hb'⟩
        · simp only [Record.promoteState, Option.some.injEq] at hs
          subst hs
          obtain ⟨sg, rt, d1, d2, d3, d4, _, _, _, _, _, _, rk, ck, hk, rfl⟩ := initializeBob_ok hi
          subst hs1
          refine ⟨by simpa [SState.position, SState.setSenderChain] using hfar, ?_⟩
          intro hself'
          simp only [SState.WithSelf, SState.setSenderChain] at hself'
          exact hself (PubKey.bytes_inj hself').symm
        · refine hold s ?_
          simp only [Record.promoteState, Record.archiveCurrentState] at hb
          cases hc : ((w.sessions a).getD {}).current with
          | none => simp only [hc] at hb; exact .inr ⟨b, hb, hb'⟩
          | some t =>
            simp only [hc, List.mem_append, List.mem_singleton] at hb
            rcases hb with hb | rfl
            · refine .inr ⟨b, ?_, hb'⟩
              split at hb
              · exact List.mem_of_mem_drop hb
              · exact hb
            · rw [((hw.WF.getD a).current t hc).round_trip] at hb'
              simp only [Res.ok.injEq] at hb'
              subst hb'
              exact .inl hc
    have := state_tooFar (C := E.C) (hrec.state hs) hthis.1 hthis.2 rd1
    rw [hd'] at this
    exact this _ rfl

/-- C12, the limit is exact: on a receiving chain that a stored state already has, the error for messages too far in
the future is returned exactly for counters more than 25000 ahead, and never when the session is with oneself. -/
theorem C12_limit_is_exact (E : Env) (w : World) (hw : Reachable E w) (a : Address) (r : Record) (h : w.sessions a = some r)
    (s : SState) (hs : r.HasState s) (m : Signal) (hv : m.version = 3)
    (hc : ∃ c ∈ s.receiverChains, c.senderRatchetKey = m.senderRatchetKey.bytes) (rd : Bytes) :
    (decryptMessageSession E.C s m rd).1 = .err .tooFarInFuture ↔
      s.position m.senderRatchetKey + 25000 < m.counter.toNat ∧ ¬ s.WithSelf := by
  have hwf := (hw.WF a r h).state hs
  have hsome : ∃ i c, s.receiverChain m.senderRatchetKey = some (i, c) := by
    obtain ⟨c, hc1, hc2⟩ := hc
    have hf := findChain_find? m.senderRatchetKey.bytes s.receiverChains 0
    have : (s.receiverChains.find? fun c => c.senderRatchetKey = m.senderRatchetKey.bytes).isSome := by
      rw [List.find?_isSome]; exact ⟨c, hc1, by simpa using hc2⟩
    rw [← hf] at this
    cases hx : SState.findChain m.senderRatchetKey.bytes s.receiverChains 0 with
    | none => simp [hx] at this
    | some x => exact ⟨x.1, x.2, hx⟩
  obtain ⟨i, c, hrc⟩ := hsome
  obtain ⟨ck0, hck0, hl0, _⟩ := (hwf.chainWF c (SState.receiverChain_mem hrc)).chain
  have hkey := PBChain.WF.receiverChainKey hrc hck0 hl0
  have hchain := chainKeyFor_known (C := E.C) rd hkey
  have hm := (messageKeysFor_cases (C := E.C) hwf m.counter hkey).2
  constructor
  · intro ht
    have hcases := hwf.decryptCases (C := E.C) m rd
    generalize hx : decryptMessageSession E.C s m rd = x at hcases ht
    cases hcases with
    | version hv' => exact absurd hv hv'
    | chain e rd' _ hn => rw [hrc] at hn; simp at hn
    | keys e rd' _ ck s1 h1 h2 he =>
      simp only [Res.err.injEq] at ht
      rw [hchain] at h1
      simp only [Prod.mk.injEq, Res.ok.injEq] at h1
      obtain ⟨⟨rfl, rfl⟩, rfl⟩ := h1
      subst ht
      rcases hm with ⟨h3, h4, _⟩ | ⟨_, h3⟩ | ⟨_, mk, s', h3, _⟩
      · exact ⟨h3, h4⟩
      · rw [h2] at h3; simp at h3
      · rw [h2] at h3; simp at h3
    | body e rd' _ ck s1 s2 mk h1 h2 he =>
      simp only [Res.err.injEq] at ht
      subst ht
      simp at he
    | short rd' hsh => simp at ht
    | ok p s' rd' hd => simp at ht
  · rintro ⟨h1, h2⟩
    rcases hm with ⟨_, _, h3⟩ | ⟨h3, _⟩ | ⟨h3, _⟩
    · obtain ⟨sc, hsc, _⟩ := hwf.sender
      unfold decryptMessageSession
      rw [hsc]
      have hvv : ¬ (m.version.toUInt32 ≠ s.version) := by rw [hv, hwf.versionEq]; decide
      simp only
      rw [if_neg hvv, M.bind_ok_run hchain]
      simp only
      rw [M.lift_run, h3]
      rfl
    · omega
    · exact absurd ⟨h1, h2⟩ h3

example : ∃ m, withCounter 30000 m3 = .signal m ∧ ∀ r s, bob2.sessions alice = some r → r.HasState s →
    s.position m.senderRatchetKey + 25000 < m.counter.toNat ∧ ¬ s.WithSelf := by
  have h : (match withCounter 30000 m3, bob2.sessions alice with
    | .signal m, some r => match r.current with
      | some s => decide (r.previous = []) && decide (s.position m.senderRatchetKey + 25000 < m.counter.toNat) &&
          decide (s.localIdentityPublic ≠ s.remoteIdentityPublic)
      | none => false
    | _, _ => false) = true := by decide +kernel
  split at h
  · rename_i m r hm hr
    split at h
    · rename_i s hs
      simp only [Bool.and_eq_true, decide_eq_true_eq] at h
      obtain ⟨⟨hp, h1⟩, h2⟩ := h
      refine ⟨m, hm, ?_⟩
      intro r' s' hr' hs'
      rw [hr] at hr'
      simp only [Option.some.injEq] at hr'
      subst hr'
      rcases hs' with hs' | ⟨b, hb, _⟩
      · rw [hs] at hs'
        simp only [Option.some.injEq] at hs'
        subst hs'
        exact ⟨h1, h2⟩
      · rw [hp] at hb; simp at hb
    · simp at h
  · simp at h

/-! ## C19 -/

/-- C19: a state rejects a message of another version before doing anything: no new state is returned, and no
randomness is used. (A state that has no sending chain rejects every message.) -/
theorem C19_state_rejects_other_version (C : Crypto) (s : SState) (m : Signal) (h : m.version.toUInt32 ≠ s.version) (rd : Bytes) :
    decryptMessageSession C s m rd = (.err (if s.senderChain.isSome then .unsupportedVersion else .noSession), rd) := by
  unfold decryptMessageSession
  cases hc : s.senderChain with
  | none => simp
  | some c => simp [h]

/-- C19: DecryptMessage returns no plaintext for a message whose version differs from the version of all states of the
session, and a plain message then leaves every session as it is, for every kind of store and failure. -/
theorem C19_other_version_is_rejected (E : Env) (w : World) (hw : Reachable E w) (a : Address) (c : Ciphertext) (m : Signal)
    (hc : c.inner = some m) (hnew : ∀ pm, c = .preKey pm → m.version ≠ 3)
    (h : ∀ r s, w.sessions a = some r → r.HasState s → m.version.toUInt32 ≠ s.version) :
    (∀ p, (decryptMessage E a c w).1 ≠ .ok (some p)) ∧
    (∀ sm, c = .signal sm → (decryptMessage E a c w).2.sessions = w.sessions) := by
  cases c with
  | signal sm =>
    simp only [Ciphertext.inner, Option.some.injEq] at hc
    subst hc
    have := signal_unopened (E := E) (a := a) (m := sm) (w := w) (fun r s rd hr hs => by
      rw [C19_state_rejects_other_version E.C s sm (h r s hr hs) rd]; simp)
    exact ⟨this.1, fun _ _ => this.2⟩
  | preKey pm =>
    refine ⟨?_, fun sm hsm => by simp at hsm⟩
    simp only [Ciphertext.inner, Option.some.injEq] at hc
    subst hc
    have hv3 := hnew pm rfl
    intro p hp
    rw [decryptMessage_preKey] at hp
    have ho := preKey_outcome E a pm w
    generalize decryptPreKey E a pm w = x at ho hp
    obtain ⟨res, w'⟩ := x
    cases res with
    | err e => simp at hp
    | panic => simp at hp
    | ok q =>
    simp only [Res.ok.injEq, Option.some.injEq] at ho hp
    cases ho with
    | early _ fs hb => exact hb q rfl
    | processed _ fs hb => exact hb q rfl
    | decrypted _ fs hb => exact hb q rfl
    | done fs id rec rec' p rd ht hpr hd =>
      have hrec := hpr.WF (hw.WF.getD a)
      obtain ⟨s, s', rd1, rd2, hs, hd'⟩ := decryptRecord_state hd
      have hcases := (hrec.state hs).decryptCases (C := E.C) pm.message rd1
      rw [hd'] at hcases
      obtain ⟨_, hv, _⟩ := decryptMessageSession_ok hd'
      rw [(hrec.state hs).versionEq] at hv
      apply hv3
      have := congrArg UInt32.toNat hv
      simp only [UInt8.toNat_toUInt32] at this
      exact UInt8.toNat_inj.mp this
  | senderKey m => simp [Ciphertext.inner] at hc
  | plaintext m => simp [Ciphertext.inner] at hc

/-- C19: all sessions the library stores have version 3, so this is what is rejected. -/
theorem C19_only_version_3 (E : Env) (w : World) (hw : Reachable E w) (a : Address) (r : Record) (h : w.sessions a = some r)
    (s : SState) (hs : r.HasState s) : s.version = 3 := ((hw.WF a r h).state hs).versionEq

example : ∃ m : Signal, m3 = .signal m ∧ ({ m with version := 4 } : Signal).version.toUInt32 ≠ 3 := by
  have : (match m3 with | .signal _ => true | _ => false) = true := by decide +kernel
  split at this
  · rename_i m hm; exact ⟨m, hm, by simp⟩
  · simp at this

end Verif
