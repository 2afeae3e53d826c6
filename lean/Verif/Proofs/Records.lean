import Verif.Proofs.Stores
import Verif.Spec.Example

/-!
Records: which states they hold, and what a decryption does to them.
-/

namespace Verif

theorem Reachable.WF {E : Env} {w : World} (h : Reachable E w) : w.WF := by
  obtain ⟨w0, cs, rd, fs, h0, rfl⟩ := h
  exact World.WF.after (World.NoSessions.WF h0)

theorem runCalls_append (E : Env) (cs ds : List Call) (w : World) :
    after E (cs ++ ds) w = after E ds (after E cs w) := by
  induction cs generalizing w with
  | nil => rfl
  | cons c cs ih => exact ih (c.run E w).2

theorem Reachable.start {E : Env} {w : World} (h : w.NoSessions) : Reachable E w := ⟨w, [], w.rand, w.faults, h, rfl⟩

theorem Reachable.call {E : Env} {w : World} (h : Reachable E w) (c : Call) : Reachable E (c.run E w).2 := by
  obtain ⟨w0, cs, rd, fs, h0, rfl⟩ := h
  refine ⟨w0, cs ++ [c], (c.run E (after E cs w0)).2.rand, (c.run E (after E cs w0)).2.faults, h0, ?_⟩
  rw [runCalls_append]
  rfl

theorem Reachable.after {E : Env} {w : World} (h : Reachable E w) (cs : List Call) : Reachable E (after E cs w) := by
  induction cs generalizing w with
  | nil => exact h
  | cons c cs ih => exact ih (h.call c)

theorem Reachable.other {E : Env} {w : World} (h : Reachable E w) (rd : Bytes) (fs : List Fault) :
    Reachable E { w with rand := rd, faults := fs } := by
  obtain ⟨w0, cs, rd', fs', h0, rfl⟩ := h
  exact ⟨w0, cs, rd, fs, h0, rfl⟩

theorem Reachable.encrypt {E : Env} {w : World} (h : Reachable E w) (a : Address) (pt : Bytes) :
    Reachable E (encryptMessage E a pt w).2 := h.call ⟨.encrypt a pt, w.rand, w.faults⟩
theorem Reachable.decrypt {E : Env} {w : World} (h : Reachable E w) (a : Address) (c : Ciphertext) :
    Reachable E (decryptMessage E a c w).2 := h.call ⟨.decrypt a c, w.rand, w.faults⟩
theorem Reachable.bundle {E : Env} {w : World} (h : Reachable E w) (a : Address) (b : Bundle) :
    Reachable E (processPreKeyBundle E a b w).2 := h.call ⟨.bundle a b, w.rand, w.faults⟩

theorem previousStates_map {r : Record} {l : List SState} (h : ∀ s ∈ l, s.WF) (hp : r.previous = l.map SState.marshal) :
    r.previousStates = .ok l := by
  unfold Record.previousStates
  rw [hp]
  exact parseAll_map h

theorem Record.WF.hasState {r : Record} (h : r.WF) {l : List SState} (hl : r.previousStates = .ok l) (s : SState) :
    r.HasState s ↔ r.current = some s ∨ s ∈ l := by
  obtain ⟨l', hwf, hp, hl'⟩ := h.states
  rw [hl] at hl'
  simp only [Res.ok.injEq] at hl'
  subst hl'
  unfold Record.HasState
  rw [hp]
  simp only [List.mem_map]
  constructor
  · rintro (hc | ⟨b, ⟨s', hs', rfl⟩, hb⟩)
    · exact .inl hc
    · rw [(hwf s' hs').round_trip] at hb
      simp only [Res.ok.injEq] at hb
      subst hb
      exact .inr hs'
  · rintro (hc | hs)
    · exact .inl hc
    · exact .inr ⟨_, ⟨s, hs, rfl⟩, (hwf s hs).round_trip⟩

theorem Record.WF.state {r : Record} (h : r.WF) {s : SState} (hs : r.HasState s) : s.WF := by
  obtain ⟨l, hwf, _, hl⟩ := h.states
  rcases (h.hasState hl s).mp hs with hc | hc
  · exact h.current s hc
  · exact hwf s hc

theorem Record.WF.hasSessionState {r : Record} (h : r.WF) (v : UInt32) (k : PubKey) :
    (r.Knows v k ∧ r.hasSessionState v k.bytes = .ok true) ∨ (¬ r.Knows v k ∧ r.hasSessionState v k.bytes = .ok false) := by
  obtain ⟨l, hwf, _, hl⟩ := h.states
  have hk : r.Knows v k ↔ (∃ s, r.current = some s ∧ s.version = v ∧ s.aliceBaseKey = k.bytes) ∨
      ∃ s ∈ l, s.version = v ∧ s.aliceBaseKey = k.bytes := by
    unfold Record.Knows
    constructor
    · rintro ⟨s, hs, h1⟩
      rcases (h.hasState hl s).mp hs with hc | hc
      · exact .inl ⟨s, hc, h1⟩
      · exact .inr ⟨s, hc, h1⟩
    · rintro (⟨s, hs, h1⟩ | ⟨s, hs, h1⟩)
      · exact ⟨s, (h.hasState hl s).mpr (.inl hs), h1⟩
      · exact ⟨s, (h.hasState hl s).mpr (.inr hs), h1⟩
  have he : r.hasSessionState v k.bytes = .ok (decide (∃ s, r.current = some s ∧ s.version = v ∧ s.aliceBaseKey = k.bytes) ||
      decide (∃ s ∈ l, s.version = v ∧ s.aliceBaseKey = k.bytes)) := by
    unfold Record.hasSessionState
    have hany : (l.any fun s => v == s.version && k.bytes == s.aliceBaseKey) = decide (∃ s ∈ l, s.version = v ∧ s.aliceBaseKey = k.bytes) := by
      rw [Bool.eq_iff_iff]
      simp only [List.any_eq_true, Bool.and_eq_true, beq_iff_eq, decide_eq_true_eq]
      constructor
      · rintro ⟨s, hs, h1, h2⟩; exact ⟨s, hs, h1.symm, h2.symm⟩
      · rintro ⟨s, hs, h1, h2⟩; exact ⟨s, hs, h1.symm, h2.symm⟩
    cases hc : r.current with
    | none => simp [hl, hany]
    | some s =>
      simp only [Option.some.injEq, exists_eq_left', hl, Res.bind_ok, hany, Res.pure_eq]
      by_cases hs : s.version = v ∧ s.aliceBaseKey = k.bytes
      · obtain ⟨h1, h2⟩ := hs; simp [h1, h2]
      · have : ¬ ((v == s.version && k.bytes == s.aliceBaseKey) = true) := by
          simp only [Bool.and_eq_true, beq_iff_eq]
          rintro ⟨h1, h2⟩; exact hs ⟨h1.symm, h2.symm⟩
        simp only [this, if_false, hs, decide_false, Bool.false_or]
        rfl
  rw [hk, he]
  by_cases h1 : ∃ s, r.current = some s ∧ s.version = v ∧ s.aliceBaseKey = k.bytes
  · exact .inl ⟨.inl h1, by simp [h1]⟩
  · by_cases h2 : ∃ s ∈ l, s.version = v ∧ s.aliceBaseKey = k.bytes
    · exact .inl ⟨.inr h2, by simp [h2]⟩
    · exact .inr ⟨by simp [h1, h2], by simp [h1, h2]⟩

/-- A successful decryption of a well-formed record uses one state; that state becomes current, and a replaced current
state is appended to the archive. -/
theorem Record.WF.decrypted {C : Crypto} {r r' : Record} {m : Signal} {rd rd' p : Bytes} (h : r.WF)
    (hd : decryptRecord C r m rd = (.ok (p, r'), rd')) :
    ∃ s s' rd1 rd2, decryptMessageSession C s m rd1 = (.ok (p, s'), rd2) ∧ r'.current = some s' ∧
      ((r.current = some s ∧ r'.previous = r.previous ∧ rd1 = rd ∧ rd2 = rd') ∨
       ∃ l idx, r.previousStates = .ok l ∧ l[idx]? = some s ∧ r'.previousStates = .ok (l.eraseIdx idx ++ r.current.toList) ∧
         r'.previous.length + 1 = r.previous.length + r.current.toList.length ∧ ∃ n, rd1 = rd.drop (32 * n)) := by
  rcases decryptRecord_ok hd with ⟨s, s', hc, h1, rfl⟩ | ⟨prev, idx, s, s', rd1, rd2, hp, hi, h1, hrd, rfl⟩
  · exact ⟨s, s', _, _, h1, rfl, .inl ⟨hc, rfl, rfl, rfl⟩⟩
  · refine ⟨s, s', _, _, h1, ?_, .inr ⟨prev, idx, hp, hi, ?_⟩⟩
    all_goals
      obtain ⟨l, hwf, hm, hl⟩ := h.states
      rw [hp] at hl
      simp only [Res.ok.injEq] at hl
      subst hl
      have hidx : idx < prev.length := by
        rcases Nat.lt_or_ge idx prev.length with h | h
        · exact h
        · rw [List.getElem?_eq_none h] at hi; simp at hi
      have hlen : r.previous.length = prev.length := by rw [hm]; simp
      have hidx' : ¬ idx ≥ r.previous.length := by omega
      unfold Record.promoteOldState
      rw [if_neg hidx']
    · rfl
    · have hcount := h.count
      rw [show maxArchivedStates = 40 from rfl] at hcount
      have e1 : r.previous.take idx ++ r.previous.drop (idx + 1) = (prev.eraseIdx idx).map SState.marshal := by
        rw [hm, List.eraseIdx_eq_take_drop_succ, List.map_append, List.map_take, List.map_drop]
      have hlen2 : (r.previous.take idx ++ r.previous.drop (idx + 1)).length + 1 = r.previous.length := by
        simp only [List.length_append, List.length_take, List.length_drop]; omega
      have hwf2 : ∀ t ∈ prev.eraseIdx idx, t.WF := fun t ht => hwf t (List.mem_of_mem_eraseIdx ht)
      unfold Record.promoteState Record.archiveCurrentState
      cases hc : r.current with
      | none =>
        simp only [Option.toList_none, List.append_nil, List.length_nil, Nat.add_zero]
        exact ⟨previousStates_map hwf2 e1, hlen2, hrd⟩
      | some c =>
        have hne : ¬ (r.previous.take idx ++ r.previous.drop (idx + 1)).length ≥ maxArchivedStates := by
          rw [show maxArchivedStates = 40 from rfl]; omega
        simp only [if_neg hne, Option.toList_some, List.length_singleton]
        refine ⟨?_, ?_, hrd⟩
        · refine previousStates_map (l := prev.eraseIdx idx ++ [c]) ?_ ?_
          · intro t ht
            rcases List.mem_append.mp ht with ht | ht
            · exact hwf2 t ht
            · simp only [List.mem_singleton] at ht; subst ht; exact h.current _ hc
          · rw [e1]; simp
        · rw [List.length_append]; simp only [List.length_singleton]; omega

theorem parseAll_mem {bs : List Bytes} {l : List SState} (h : Record.parseAll bs = .ok l) {s : SState} (hs : s ∈ l) :
    ∃ b ∈ bs, SState.unmarshal b = .ok s := by
  induction bs generalizing l with
  | nil =>
    simp only [Record.parseAll, Res.ok.injEq] at h
    subst h
    simp at hs
  | cons b bs ih =>
    simp only [Record.parseAll, Res.bind_eq_ok, Res.pure_eq, Res.ok.injEq] at h
    obtain ⟨s0, h0, l0, hl, rfl⟩ := h
    rcases List.mem_cons.mp hs with rfl | hs
    · exact ⟨b, by simp, h0⟩
    · obtain ⟨b', hb, hb'⟩ := ih hl hs
      exact ⟨b', by simp [hb], hb'⟩

/-- The state that decrypts a message is one of the record's. -/
theorem decryptRecord_state {C : Crypto} {r r' : Record} {m : Signal} {rd rd' p : Bytes}
    (h : decryptRecord C r m rd = (.ok (p, r'), rd')) :
    ∃ s s' rd1 rd2, r.HasState s ∧ decryptMessageSession C s m rd1 = (.ok (p, s'), rd2) := by
  rcases decryptRecord_ok h with ⟨s, s', hc, h1, _⟩ | ⟨prev, idx, s, s', rd1, rd2, hp, hi, h1, _⟩
  · exact ⟨s, s', _, _, .inl hc, h1⟩
  · exact ⟨s, s', _, _, .inr (parseAll_mem hp (List.mem_of_getElem? hi)), h1⟩

/-- Decryption keeps what identifies a session. -/
theorem decryptMessageSession_keeps {C : Crypto} {s s' : SState} {m : Signal} {rd rd' p : Bytes}
    (h : decryptMessageSession C s m rd = (.ok (p, s'), rd')) :
    s'.sessionVersion = s.sessionVersion ∧ s'.aliceBaseKey = s.aliceBaseKey ∧ s'.localIdentityPublic = s.localIdentityPublic ∧
      s'.remoteIdentityPublic = s.remoteIdentityPublic ∧ s'.localRegistrationId = s.localRegistrationId ∧ s'.pendingPreKey = none := by
  have skip : ∀ (eph : PubKey) (n : UInt32) (fuel : Nat) (ck : ChainKey) (t : SState) (ck' : ChainKey) (t' : SState),
      skipLoop C eph n fuel ck t = .ok (ck', t') → ∃ chains, t' = { t with receiverChains := chains } := by
    intro eph n fuel
    induction fuel with
    | zero =>
      intro ck t ck' t' h
      simp only [skipLoop, Res.ok.injEq, Prod.mk.injEq] at h
      exact ⟨t.receiverChains, by rw [← h.2]⟩
    | succ fuel ih =>
      intro ck t ck' t' h
      simp only [skipLoop] at h
      split at h
      · rw [Res.bind_eq_ok] at h
        obtain ⟨t1, h1, h2⟩ := h
        obtain ⟨chains, rfl⟩ := ih _ _ _ _ h2
        unfold SState.setMessageKeys at h1
        split at h1
        · simp at h1
        · simp only [Res.ok.injEq] at h1
          subst h1
          exact ⟨chains, rfl⟩
      · simp only [Res.ok.injEq, Prod.mk.injEq] at h
        exact ⟨t.receiverChains, by rw [← h.2]⟩
  obtain ⟨_, _, ck, s1, mk, s2, rk, lk, h1, h2, _, _, _, _, rfl⟩ := decryptMessageSession_ok h
  have hs2 : ∃ chains, s2 = { s1 with receiverChains := chains } := by
    unfold messageKeysFor at h2
    split at h2
    · rw [Res.bind_eq_ok] at h2
      obtain ⟨⟨o, t⟩, ht, h2⟩ := h2
      unfold SState.takeMessageKeys at ht
      split at ht
      · simp only [Res.ok.injEq, Prod.mk.injEq] at ht
        obtain ⟨rfl, rfl⟩ := ht
        simp at h2
      · split at ht
        · simp only [Res.ok.injEq, Prod.mk.injEq] at ht
          obtain ⟨rfl, rfl⟩ := ht
          simp at h2
        · rw [Res.bind_eq_ok] at ht
          obtain ⟨mk', _, ht⟩ := ht
          simp only [Res.pure_eq, Res.ok.injEq, Prod.mk.injEq] at ht
          obtain ⟨rfl, rfl⟩ := ht
          simp only [Res.pure_eq, Res.ok.injEq, Prod.mk.injEq] at h2
          exact ⟨_, h2.2.symm⟩
    · have rest : ∀ x : Res Unit, (x >>= fun _ => skipLoop C m.senderRatchetKey m.counter (m.counter.toNat - ck.index.toNat) ck s1 >>=
          fun y => y.2.setReceiverChainKey m.senderRatchetKey y.1 >>= fun t => (Res.ok (y.1.messageKeys C, t) : Res (MessageKeys × SState))) = .ok (mk, s2) →
          ∃ chains, s2 = { s1 with receiverChains := chains } := by
        intro x hx
        rw [Res.bind_eq_ok] at hx
        obtain ⟨_, _, hx⟩ := hx
        rw [Res.bind_eq_ok] at hx
        obtain ⟨⟨ck1, t1⟩, hl, hx⟩ := hx
        rw [Res.bind_eq_ok] at hx
        obtain ⟨t2, ht2, hx⟩ := hx
        obtain ⟨chains, rfl⟩ := skip _ _ _ _ _ _ _ hl
        simp only [Res.ok.injEq, Prod.mk.injEq] at hx
        obtain ⟨_, rfl⟩ := hx
        unfold SState.setReceiverChainKey at ht2
        split at ht2
        · simp at ht2
        · simp only [Res.ok.injEq] at ht2
          exact ⟨_, ht2.symm⟩
      have hskip : (skipLoop C m.senderRatchetKey m.counter (m.counter.toNat - ck.index.toNat) ck s1 >>=
          fun y => y.2.setReceiverChainKey m.senderRatchetKey y.1 >>= fun t => (Res.ok (y.1.messageKeys C, t) : Res (MessageKeys × SState))) = .ok (mk, s2) := by
        simp only at h2
        split at h2
        · rw [Res.bind_eq_ok] at h2
          obtain ⟨b, _, h2⟩ := h2
          cases b with
          | true => exact h2
          | false => simp at h2
        · exact h2
      exact rest (.ok ()) hskip
  obtain ⟨chains, rfl⟩ := hs2
  rcases chainKeyFor_ok h1 with ⟨_, rfl, _⟩ | ⟨_, root, ours, rRoot, kp, sRoot, sCk, cur, _, _, _, _, _, _, rfl⟩
  · exact ⟨rfl, rfl, rfl, rfl, rfl, rfl⟩
  · have hadd : ∀ (t : SState) (k : PubKey) (ck : ChainKey), ∃ cs, t.addReceiverChain k ck = { t with receiverChains := cs } := by
      intro t k ck
      unfold SState.addReceiverChain
      simp only
      split
      · exact ⟨_, rfl⟩
      · exact ⟨_, rfl⟩
    obtain ⟨cs, hcs⟩ := hadd { s with rootKey := sRoot.key } m.senderRatchetKey ck
    simp only [SState.clearUnacknowledgedPreKeyMessage, hcs]
    exact ⟨rfl, rfl, rfl, rfl, rfl, trivial⟩

/-! The worlds of the example conversation are reachable. -/

namespace Ex
theorem alice0_reachable : Reachable copying alice0 := .start fun _ => rfl
theorem bob0_reachable : Reachable copying bob0 := .start fun _ => rfl
theorem alice1_reachable : Reachable copying alice1 := alice0_reachable.bundle _ _
theorem alice2_reachable : Reachable copying alice2 := alice1_reachable.encrypt _ _
theorem alice3_reachable : Reachable copying alice3 := alice2_reachable.encrypt _ _
theorem bob1_reachable : Reachable copying bob1 := bob0_reachable.decrypt _ _
theorem bob2_reachable : Reachable copying bob2 := bob1_reachable.encrypt _ _
theorem alice4_reachable : Reachable copying alice4 := alice3_reachable.decrypt _ _
theorem alice5_reachable : Reachable copying alice5 := alice4_reachable.encrypt _ _
theorem bob3_reachable : Reachable copying bob3 := bob2_reachable.decrypt _ _
theorem alice6_reachable : Reachable copying alice6 := alice3_reachable.after _
theorem alice7_reachable : Reachable copying alice7 := alice6_reachable.after _
end Ex

end Verif
