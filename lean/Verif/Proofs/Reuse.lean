import Mathlib.Data.List.Perm.Subperm
import Verif.Spec.Reuse
import Verif.Proofs.Messages

/-!
Sending positions over histories: a ratchet key and counter are used for one message only.
-/

namespace Verif

/-- The sending position of a state that has received something or was set up from a bundle. The other states send with
the signed pre-key, and never become current. -/
def SState.livePos (s : SState) : Option (Bytes × UInt32) := if s.receiverChains = [] then none else s.sendPosition

/-- The sending positions of a list of states. -/
def livePositions (l : List SState) : List (Bytes × UInt32) := l.filterMap SState.livePos

theorem subperm_filterMap {α β} (f : α → Option β) {l l' : List α} (h : l.Subperm l') : (l.filterMap f).Subperm (l'.filterMap f) := by
  obtain ⟨t, h1, h2⟩ := h
  exact ⟨t.filterMap f, h1.filterMap f, h2.filterMap f⟩

theorem subperm_map {α β} (f : α → β) {l l' : List α} (h : l.Subperm l') : (l.map f).Subperm (l'.map f) := by
  obtain ⟨t, h1, h2⟩ := h
  exact ⟨t.map f, h1.map f, h2.map f⟩

theorem subperm_nodup {α} {l l' : List α} (h : l.Subperm l') (hn : l'.Nodup) : l.Nodup := by
  obtain ⟨t, h1, h2⟩ := h
  exact h1.nodup_iff.mp (hn.sublist h2)

theorem states_eq {r : Record} (hr : r.WF) {l : List SState} (hl : r.previousStates = .ok l) : r.states = l ++ r.current.toList := by
  obtain ⟨l', hwf, hp, hl'⟩ := hr.states
  rw [hl] at hl'
  simp only [Res.ok.injEq] at hl'
  subst hl'
  unfold Record.states
  congr 1
  rw [hp]
  clear hp hl
  induction l with
  | nil => rfl
  | cons s l ih =>
    rw [List.map_cons, List.filterMap_cons, (hwf s (by simp)).round_trip]
    simp only
    rw [ih fun t ht => hwf t (by simp [ht])]

/-- Decryption replaces one state by its successor, which becomes current. -/
theorem decryptRecord_states {C : Crypto} {r r' : Record} {m : Signal} {rd rd' p : Bytes} (h : r.WF)
    (hd : decryptRecord C r m rd = (.ok (p, r'), rd')) :
    ∃ s s' t n rd2, s.WF ∧ decryptMessageSession C s m (rd.drop (32 * n)) = (.ok (p, s'), rd2) ∧ r'.current = some s' ∧
      r.states.Perm (s :: t) ∧ r'.states.Perm (s' :: t) := by
  have hr' := h.decrypt hd
  obtain ⟨s, s', rd1, rd2, h1, h2, ⟨hc, hp, rfl, rfl⟩ | ⟨l, idx, e1, e2, e3, _, n, rfl⟩⟩ := h.decrypted hd
  · obtain ⟨l, hwf, _, hl⟩ := h.states
    have hl' : r'.previousStates = .ok l := by rw [← hl]; unfold Record.previousStates; rw [hp]
    refine ⟨s, s', l, 0, rd2, h.current s hc, by simpa using h1, h2, ?_, ?_⟩
    · rw [states_eq h hl, hc]; exact List.perm_append_comm
    · rw [states_eq hr' hl', h2]; exact List.perm_append_comm
  · have hs : s.WF := by
      obtain ⟨l', hwf, _, hl⟩ := h.states
      rw [e1] at hl
      simp only [Res.ok.injEq] at hl
      subst hl
      exact hwf s (List.mem_of_getElem? e2)
    refine ⟨s, s', l.eraseIdx idx ++ r.current.toList, n, rd2, hs, h1, h2, ?_, ?_⟩
    · rw [states_eq h e1]
      have hi : idx < l.length := by
        rcases Nat.lt_or_ge idx l.length with h | h
        · exact h
        · rw [List.getElem?_eq_none h] at e2; simp at e2
      have : l.Perm (s :: l.eraseIdx idx) := by
        have := List.getElem_cons_eraseIdx_perm hi
        rw [List.getElem?_eq_getElem hi] at e2
        simp only [Option.some.injEq] at e2
        rw [e2] at this
        exact this.symm
      exact this.append_right _
    · rw [states_eq hr' e3, h2]; exact List.perm_append_comm

theorem promoteState_states {r : Record} (h : r.WF) {s : SState} (hs : s.WF) : (r.promoteState s).states.Subperm (s :: r.states) := by
  obtain ⟨l, hwf, hp, hl⟩ := h.states
  have hr' := h.promoteState hs
  rw [states_eq h hl]
  have key : ∃ l', l'.Sublist (l ++ r.current.toList) ∧ (r.promoteState s).previousStates = .ok l' := by
    unfold Record.promoteState Record.archiveCurrentState
    cases hc : r.current with
    | none => exact ⟨l, by simp, by simpa [Record.previousStates] using hl⟩
    | some c =>
      simp only
      have hd : ∀ k, r.previous.drop k ++ [c.marshal] = ((l.drop k) ++ [c]).map SState.marshal := by
        intro k; rw [hp]; simp
      have hw : ∀ k, ∀ t ∈ l.drop k ++ [c], t.WF := by
        intro k t ht
        rcases List.mem_append.mp ht with ht | ht
        · exact hwf t (List.mem_of_mem_drop ht)
        · simp only [List.mem_singleton] at ht; subst ht; exact h.current _ hc
      split
      · exact ⟨l.drop 1 ++ [c], by simpa using List.drop_sublist 1 l, previousStates_map (hw 1) (by exact hd 1)⟩
      · exact ⟨l.drop 0 ++ [c], by simp, previousStates_map (hw 0) (by simpa using hd 0)⟩
  obtain ⟨l', hsub, hl'⟩ := key
  rw [states_eq hr' hl']
  have hc : (r.promoteState s).current = some s := rfl
  rw [hc]
  refine (List.perm_append_comm (l₁ := l') (l₂ := [s])).subperm.trans ?_
  exact ((hsub.cons₂ s).subperm)

/-- Decryption keeps the sending position, or starts a chain with a fresh key. -/
theorem decrypt_livePos {C : Crypto} {s s' : SState} {m : Signal} {rd rd' p : Bytes} (h : s.WF)
    (hd : decryptMessageSession C s m rd = (.ok (p, s'), rd')) :
    s'.receiverChains ≠ [] ∧
      (s'.livePos = s.livePos ∨ ∃ k, publicKeyOf C rd = some k ∧ s'.livePos = some (k.bytes, 0)) := by
  obtain ⟨_, s1, i, c, c', ck, mk, rk, lk, h1, h2, h3, h4, h5, h6, h7, h8, rfl⟩ := decrypted_shape h hd
  have hne : s1.receiverChains ≠ [] := by
    intro he
    have := SState.receiverChain_mem h3
    rw [he] at this
    simp at this
  have hne' : s1.receiverChains.set i c' ≠ [] := by simpa using hne
  refine ⟨hne', ?_⟩
  have e : ({ s1 with receiverChains := s1.receiverChains.set i c', pendingPreKey := none } : SState).livePos = s1.sendPosition := by
    unfold SState.livePos
    rw [if_neg hne']
    rfl
  rw [e]
  rcases chainKeyFor_ok h1 with ⟨_, rfl, _⟩ | ⟨_, root, ours, rRoot, kp, sRoot, sCk, cur, _, _, _, hg, hcc, _, rfl⟩
  · left; unfold SState.livePos; rw [if_neg hne]
  · right
    refine ⟨kp.pub, by simp [publicKeyOf, hg], ?_⟩
    obtain ⟨_, _, hix⟩ := RootKey.createChain_ok hcc
    simp [SState.sendPosition, SState.setSenderChain, hix]

/-- The state set up from a bundle sends with a fresh key. -/
theorem FromBundle.livePos {E : Env} {w : World} {b : Bundle} {s : SState} {rd : Bytes} (h : FromBundle E w b s rd) :
    s.receiverChains ≠ [] ∧ ∃ k, publicKeyOf E.C (w.rand.drop 32) = some k ∧ s.livePos = some (k.bytes, 0) := by
  obtain ⟨base, rd1, _, s0, hb, hi, _, rfl⟩ := h
  obtain ⟨kp, d1, d2, d3, d4, hg, _, _, _, _, rk, ck, hk, sr, sc, hc, rfl⟩ := initializeAlice_ok hi
  obtain ⟨_, _, _, rfl⟩ := generateKeyPair_ok hb
  obtain ⟨_, _, hix⟩ := RootKey.createChain_ok hc
  have hne : ∀ (t : SState) (q : PubKey) (c : ChainKey), t.receiverChains = [] → (t.addReceiverChain q c).receiverChains ≠ [] := by
    intro t q c ht
    simp [SState.addReceiverChain, ht, maxReceiverChains]
  have hne1 := hne { sessionVersion := ciphertextVersion, localIdentityPublic := w.identity.pub.bytes, remoteIdentityPublic := b.identityKey.bytes, rootKey := sr.key } b.signedPreKeyPublic ck rfl
  refine ⟨by simpa [SState.setUnacknowledgedPreKeyMessage, SState.setSenderChain] using hne1, kp.pub, by simp [publicKeyOf, hg], ?_⟩
  unfold SState.livePos
  rw [if_neg (by simpa [SState.setUnacknowledgedPreKeyMessage, SState.setSenderChain] using hne1)]
  simp [SState.sendPosition, SState.setUnacknowledgedPreKeyMessage, SState.setSenderChain, hix]

/-- The state Bob sets up has no sending position that is ever used. -/
theorem Processed.livePos {E : Env} {w : World} {r rec : Record} {m : PreKeyMsg} {id : Option UInt32} (h : r.WF)
    (hp : Processed E w r m id rec) : rec = r ∨ (livePositions rec.states).Subperm (livePositions r.states) := by
  have hw := hp.WF h
  cases hp with
  | found _ => exact .inl rfl
  | fresh hf signed oneTime s hs ho hi s' hs' =>
    right
    have hsw : s'.WF := hw.current s' rfl
    have := subperm_filterMap SState.livePos (promoteState_states h hsw)
    have hv : s'.livePos = none := by
      obtain ⟨_, _, _, _, _, _, _, _, _, _, _, _, rk, ck, _, rfl⟩ := initializeBob_ok hi
      subst hs'
      rfl
    rw [List.filterMap_cons, hv] at this
    exact this

/-- Encryption uses the sending position and moves it on by one. -/
theorem encrypt_livePos {C : Crypto} {s s' : SState} {pt : Bytes} {msg : Ciphertext} {k : PubKey} (h : s.WF)
    (he : encryptState C s pt = .ok (msg, s', k)) : s'.receiverChains = s.receiverChains ∧
      ∃ q n, msg.position = some (q, n) ∧ s.sendPosition = some (q.bytes, n) ∧ s'.sendPosition = some (q.bytes, n + 1) := by
  obtain ⟨c, ck, eph, lk, rk, sg, hc, hck, hl, heph, _, _, _, hr, hn, _, _, out, he', hout⟩ := h.encrypts C pt
  rw [he] at he'
  simp only [Res.ok.injEq, Prod.mk.injEq] at he'
  obtain ⟨rfl, rfl, _⟩ := he'
  refine ⟨by simp [SState.setSenderChainKey, hc], eph, ck.index, ?_, ?_, ?_⟩
  · rcases hout with ⟨_, rfl⟩ | ⟨p, base, _, _, rfl⟩
    · simp [Ciphertext.position, hr, hn]
    · simp [Ciphertext.position, newPreKey, hr, hn]
  · simp [SState.sendPosition, hc, hck, heph, ChainKey.toPB]
  · simp [SState.sendPosition, SState.setSenderChainKey, hc, heph, ChainKey.next]

/-- The invariant: what was sent is behind the sending positions of the record. -/
structure Safe (past : Bytes → Prop) (n : Nat) (log : List (Bytes × UInt32)) (r : Record) : Prop where
  nodup : log.Nodup
  logPast : ∀ y ∈ log, past y.1
  cur : ∀ s, r.current = some s → s.receiverChains ≠ []
  keys : ((livePositions r.states).map Prod.fst).Nodup
  livePast : ∀ x ∈ livePositions r.states, past x.1
  ahead : ∀ x ∈ livePositions r.states, ∀ y ∈ log, y.1 = x.1 → y.2 < x.2
  small : ∀ x ∈ livePositions r.states, x.2.toNat ≤ n

theorem Safe.mono {past past' : Bytes → Prop} {n n' : Nat} {log : List (Bytes × UInt32)} {r : Record} (h : Safe past n log r)
    (hp : ∀ k, past k → past' k) (hn : n ≤ n') : Safe past' n' log r :=
  ⟨h.nodup, fun y hy => hp _ (h.logPast y hy), h.cur, h.keys, fun x hx => hp _ (h.livePast x hx), h.ahead,
    fun x hx => Nat.le_trans (h.small x hx) hn⟩

theorem Safe.sub {past : Bytes → Prop} {n : Nat} {log : List (Bytes × UInt32)} {r r' : Record} (h : Safe past n log r)
    (hs : (livePositions r'.states).Subperm (livePositions r.states)) (hc : ∀ s, r'.current = some s → s.receiverChains ≠ []) :
    Safe past n log r' :=
  ⟨h.nodup, h.logPast, hc, subperm_nodup (subperm_map _ hs) h.keys, fun x hx => h.livePast x (hs.subset hx),
    fun x hx => h.ahead x (hs.subset hx), fun x hx => h.small x (hs.subset hx)⟩

theorem Safe.fresh {past : Bytes → Prop} {n : Nat} {log : List (Bytes × UInt32)} {r r' : Record} {k : Bytes} (h : Safe past n log r)
    (hs : (livePositions r'.states).Subperm ((k, 0) :: livePositions r.states)) (hk : ¬ past k)
    (hc : ∀ s, r'.current = some s → s.receiverChains ≠ []) : Safe (fun x => past x ∨ x = k) n log r' := by
  refine ⟨h.nodup, fun y hy => .inl (h.logPast y hy), hc, subperm_nodup (subperm_map _ hs) ?_, ?_, ?_, ?_⟩
  · rw [List.map_cons, List.nodup_cons]
    refine ⟨?_, h.keys⟩
    intro hm
    obtain ⟨x, hx, he⟩ := List.mem_map.mp hm
    simp only at he
    exact hk (he ▸ h.livePast x hx)
  · intro x hx
    rcases List.mem_cons.mp (hs.subset hx) with rfl | hx
    · exact .inr rfl
    · exact .inl (h.livePast x hx)
  · intro x hx y hy he
    rcases List.mem_cons.mp (hs.subset hx) with rfl | hx
    · simp only at he
      exact absurd (he ▸ h.logPast y hy) hk
    · exact h.ahead x hx y hy he
  · intro x hx
    rcases List.mem_cons.mp (hs.subset hx) with rfl | hx
    · simp
    · exact h.small x hx

/-- A message is encrypted, and perhaps returned. -/
theorem Safe.encrypt {past : Bytes → Prop} {n : Nat} {log : List (Bytes × UInt32)} {r : Record} {C : Crypto} {s s' : SState}
    {pt : Bytes} {msg : Ciphertext} {k : PubKey} (h : Safe past n log r) (hr : r.WF) (hc : r.current = some s)
    (he : encryptState C s pt = .ok (msg, s', k)) (hn : n + 1 < 2 ^ 32) :
    Safe past (n + 1) log (r.setSessionState s') ∧
      ∃ q i, msg.position = some (q, i) ∧ Safe past (n + 1) ((q.bytes, i) :: log) (r.setSessionState s') := by
  have hsw := hr.current s hc
  obtain ⟨e0, q, i, e1, e2, e3⟩ := encrypt_livePos hsw he
  obtain ⟨l, hwf, _, hl⟩ := hr.states
  have hr' := hr.setSessionState (hsw.encrypt he)
  have hl' : (r.setSessionState s').previousStates = .ok l := hl
  have hcur := h.cur s hc
  have hst : livePositions r.states = livePositions l ++ [(q.bytes, i)] := by
    rw [states_eq hr hl, hc]
    unfold livePositions
    rw [List.filterMap_append]
    congr 1
    simp [SState.livePos, hcur, e2]
  have hst' : livePositions (r.setSessionState s').states = livePositions l ++ [(q.bytes, i + 1)] := by
    rw [states_eq hr' hl']
    unfold livePositions
    rw [List.filterMap_append]
    congr 1
    simp [Record.setSessionState, SState.livePos, e0, hcur, e3]
  obtain ⟨n1, n2, n3, n4, n5, n6, n7⟩ := h
  rw [hst] at n4 n5 n6 n7
  have hi : i.toNat ≤ n := n7 (q.bytes, i) (by simp)
  have hi1 : (i + 1).toNat = i.toNat + 1 := by
    rw [UInt32.toNat_add]
    simp only [UInt32.toNat_one]
    omega
  have hlt : i < i + 1 := by rw [UInt32.lt_iff_toNat_lt]; omega
  have hcur' : ∀ t, (r.setSessionState s').current = some t → t.receiverChains ≠ [] := by
    intro t ht
    simp only [Record.setSessionState, Option.some.injEq] at ht
    subst ht
    rw [e0]; exact hcur
  have hkeys : ((livePositions (r.setSessionState s').states).map Prod.fst).Nodup := by
    rw [hst']; simpa using n4
  have hpast : ∀ x ∈ livePositions (r.setSessionState s').states, past x.1 := by
    rw [hst']
    intro x hx
    rcases List.mem_append.mp hx with hx | hx
    · exact n5 x (by simp [hx])
    · simp only [List.mem_singleton] at hx; subst hx; exact n5 (q.bytes, i) (by simp)
  have hsmall : ∀ x ∈ livePositions (r.setSessionState s').states, x.2.toNat ≤ n + 1 := by
    rw [hst']
    intro x hx
    rcases List.mem_append.mp hx with hx | hx
    · have := n7 x (by simp [hx]); omega
    · simp only [List.mem_singleton] at hx; subst hx; simp only; omega
  have hahead : ∀ x ∈ livePositions (r.setSessionState s').states, ∀ y ∈ log, y.1 = x.1 → y.2 < x.2 := by
    rw [hst']
    intro x hx y hy hxy
    rcases List.mem_append.mp hx with hx | hx
    · exact n6 x (by simp [hx]) y hy hxy
    · simp only [List.mem_singleton] at hx; subst hx
      have := n6 (q.bytes, i) (by simp) y hy hxy
      simp only at this ⊢
      rw [UInt32.lt_iff_toNat_lt] at this ⊢; omega
  refine ⟨⟨n1, n2, hcur', hkeys, hpast, hahead, hsmall⟩, q, i, e1, ⟨?_, ?_, hcur', hkeys, hpast, ?_, hsmall⟩⟩
  · rw [List.nodup_cons]
    refine ⟨fun hm => ?_, n1⟩
    have := n6 (q.bytes, i) (by simp) _ hm rfl
    simp at this
  · intro y hy
    rcases List.mem_cons.mp hy with rfl | hy
    · exact n5 (q.bytes, i) (by simp)
    · exact n2 y hy
  · intro x hx y hy hxy
    rcases List.mem_cons.mp hy with rfl | hy
    · rw [hst'] at hx
      rcases List.mem_append.mp hx with hx | hx
      · exfalso
        rw [List.map_append, List.nodup_append] at n4
        exact n4.2.2 x.1 (List.mem_map_of_mem hx) q.bytes (by simp) hxy.symm
      · simp only [List.mem_singleton] at hx; subst hx; exact hlt
    · exact hahead x hx y hy hxy

/-- What decryption does to the sending positions. -/
theorem decryptRecord_positions {C : Crypto} {r r' : Record} {m : Signal} {rd rd' p : Bytes} (hw : r.WF)
    (hd : decryptRecord C r m rd = (.ok (p, r'), rd')) :
    (∀ s, r'.current = some s → s.receiverChains ≠ []) ∧
      ((livePositions r'.states).Subperm (livePositions r.states) ∨
        ∃ k, Generates C rd k ∧ (livePositions r'.states).Subperm ((k.bytes, 0) :: livePositions r.states)) := by
  obtain ⟨s, s', t, n, rd2, hs, h1, h2, h3, h4⟩ := decryptRecord_states hw hd
  obtain ⟨hne, hpos⟩ := decrypt_livePos hs h1
  refine ⟨?_, ?_⟩
  · intro t ht
    rw [h2] at ht
    simp only [Option.some.injEq] at ht
    subst ht
    exact hne
  · have h3' := h3.filterMap SState.livePos
    have h4' := h4.filterMap SState.livePos
    rcases hpos with he | ⟨k, hk, he⟩
    · left
      refine h4'.subperm.trans ?_
      rw [List.filterMap_cons, he, ← List.filterMap_cons]
      exact h3'.symm.subperm
    · right
      refine ⟨k, ⟨n, hk⟩, h4'.subperm.trans ?_⟩
      rw [List.filterMap_cons, he]
      simp only
      rw [List.subperm_cons]
      refine List.Subperm.trans ?_ h3'.symm.subperm
      exact subperm_filterMap _ List.Subperm.cons_self

/-- The position of a message returned to the caller, if it is for this address. -/
def Out.sentPos (a : Address) : Out → Option (Bytes × UInt32)
  | .ciphertext b c => if b = a then c.position.map fun x => (x.1.bytes, x.2) else none
  | _ => none

/-- A call that returned a message for this address encrypted it with the current state. -/
theorem encrypt_returns {E : Env} {c : Call} {w : World} {a : Address} {x : Bytes × UInt32} (h : (c.run E w).1.sentPos a = some x) :
    ∃ rec st st' msg k pt, c.op = .encrypt a pt ∧ w.sessions a = some rec ∧ rec.current = some st ∧
      encryptState E.C st pt = .ok (msg, st', k) ∧ (c.run E w).1 = .ciphertext a msg ∧
      (c.run E w).2.sessions a = some (rec.setSessionState st') := by
  obtain ⟨op, rd, fs⟩ := c
  cases op with
  | encrypt b pt =>
    simp only [Call.run] at h ⊢
    have ho := encrypt_outcome E b pt { w with rand := rd, faults := fs }
    generalize hw1 : ({ w with rand := rd, faults := fs } : World) = w1 at ho h ⊢
    have hws : w1.sessions = w.sessions := by rw [← hw1]
    generalize encryptMessage E b pt w1 = x at ho h ⊢
    obtain ⟨r, w'⟩ := x
    simp only at ho h ⊢
    cases ho with
    | early _ fs hr => cases r <;> simp_all [Out.of, Out.sentPos]
    | stopped _ fs hr => cases r <;> simp_all [Out.of, Out.sentPos]
    | done fs rec st st' msg k h1 h2 h3 ht =>
      simp only [Out.of, Out.sentPos] at h
      have hb : b = a := by
        by_cases hb : b = a
        · exact hb
        · simp [hb] at h
      subst hb
      exact ⟨rec, st, st', msg, k, pt, rfl, by rw [← hws]; exact h1, h2, h3, rfl, by simp [upd_same]⟩
  | decrypt b m =>
    simp only [Call.run] at h
    generalize decryptMessage E b m { w with rand := rd, faults := fs } = x at h
    obtain ⟨r, w'⟩ := x
    cases r <;> simp [Out.of, Out.sentPos] at h
  | bundle b bd =>
    simp only [Call.run] at h
    generalize processPreKeyBundle E b bd { w with rand := rd, faults := fs } = x at h
    obtain ⟨r, w'⟩ := x
    cases r <;> simp [Out.of, Out.sentPos] at h
  | addPreKey id k => simp [Call.run, Out.sentPos] at h
  | addSignedPreKey id k => simp [Call.run, Out.sentPos] at h

/-- One call keeps the invariant. -/
theorem Safe.call {E : Env} {c : Call} {w : World} {a : Address} {past : Bytes → Prop} {n : Nat} {log : List (Bytes × UInt32)}
    (hw : w.WF) (h : Safe past n log ((w.sessions a).getD {})) (hn : n + 1 < 2 ^ 32)
    (hfresh : ∀ p, Generates E.C c.rand p → ¬ past p.bytes)
    (hset : E.aliased = true → ∀ b m, c.op = .decrypt b (.preKey m) → ¬ (c.run E w).1.Failed) :
    Safe (fun k => past k ∨ ∃ p, Generates E.C c.rand p ∧ k = p.bytes) (n + 1) (((c.run E w).1.sentPos a).toList ++ log)
      (((c.run E w).2.sessions a).getD {}) := by
  have hwf : ((w.sessions a).getD {}).WF := hw.getD a
  cases hx : (c.run E w).1.sentPos a with
  | some x =>
    obtain ⟨rec, st, st', msg, k, pt, _, h1, h2, h3, h4, h5⟩ := encrypt_returns hx
    rw [h1] at h hwf
    obtain ⟨_, q, i, h6, h7⟩ := h.encrypt hwf h2 h3 hn
    rw [h5]
    rw [h4] at hx
    simp only [Out.sentPos, if_true, h6, Option.map_some, Option.some.injEq] at hx
    subst hx
    exact h7.mono (fun _ hk => .inl hk) (Nat.le_refl _)
  | none =>
    simp only [Option.toList_none, List.nil_append]
    have hmono : ∀ r, Safe past n log r →
        Safe (fun k => past k ∨ ∃ p, Generates E.C c.rand p ∧ k = p.bytes) (n + 1) log r :=
      fun r hr => hr.mono (fun _ hk => .inl hk) (Nat.le_succ _)
    rcases call_changed E c w a with he | ⟨r', he, hst⟩
    · simp only at he
      rw [he]; exact hmono _ h
    · rw [he]
      simp only [Option.getD_some]
      have hdec : ∀ (rec r'' : Record) (m : Signal) (p rd : Bytes), rec.WF →
          (livePositions rec.states).Subperm (livePositions ((w.sessions a).getD {}).states) →
          decryptRecord E.C rec m c.rand = (.ok (p, r''), rd) →
          Safe (fun k => past k ∨ ∃ p, Generates E.C c.rand p ∧ k = p.bytes) (n + 1) log r'' := by
        intro rec r'' m p rd hrw hsub hd
        obtain ⟨hcur, hpos⟩ := decryptRecord_positions hrw hd
        rcases hpos with hpos | ⟨k, hk, hpos⟩
        · exact hmono _ (h.sub (hpos.trans hsub) hcur)
        · refine (h.fresh (hpos.trans ?_) (hfresh k hk) hcur).mono ?_ (Nat.le_succ _)
          · rw [List.subperm_cons]; exact hsub
          · rintro x (hx | rfl)
            · exact .inl hx
            · exact .inr ⟨k, hk, rfl⟩
      generalize hop : c.op = op at hst
      cases hst with
      | enc h2 h3 => exact (h.encrypt hwf h2 h3 hn).1.mono (fun _ hk => .inl hk) (Nat.le_refl _)
      | dec hd => exact hdec _ _ _ _ _ hwf (List.Subperm.refl _) hd
      | setUp hE hp hbad =>
        exfalso
        refine hset hE _ _ hop ?_
        simp only [Call.run, hop]
        generalize decryptMessage E _ _ _ = x at hbad ⊢
        obtain ⟨r, w'⟩ := x
        cases r with
        | ok v => exact absurd rfl (hbad v)
        | err e => trivial
        | panic => trivial
      | preKey hp hd =>
        refine hdec _ _ _ _ _ (hp.WF hwf) ?_ hd
        rcases hp.livePos hwf with rfl | hs
        · exact List.Subperm.refl _
        · exact hs
      | bundle hf =>
        obtain ⟨hne, k, hk, hpos⟩ := hf.livePos
        have hg : Generates E.C c.rand k := ⟨1, hk⟩
        refine (h.fresh (k := k.bytes) ?_ (hfresh k hg) ?_).mono ?_ (Nat.le_succ _)
        · have := subperm_filterMap SState.livePos (promoteState_states hwf hf.WF)
          rw [List.filterMap_cons, hpos] at this
          exact this
        · intro t ht
          simp only [Record.promoteState, Option.some.injEq] at ht
          subst ht
          exact hne
        · rintro x (hx | rfl)
          · exact .inl hx
          · exact .inr ⟨k, hg, rfl⟩

theorem sentTo_cons (a : Address) (o : Out) (os : List Out) :
    (sentTo a (o :: os)).map (fun x => (x.1.bytes, x.2)) = (o.sentPos a).toList ++ (sentTo a os).map fun x => (x.1.bytes, x.2) := by
  unfold sentTo
  rw [List.filterMap_cons]
  cases o with
  | ciphertext b c =>
    simp only [Out.sentPos]
    by_cases hb : b = a
    · simp only [hb, if_true]
      cases c.position <;> rfl
    · simp [hb]
  | plaintext b p => rfl
  | done => rfl
  | error e => rfl
  | panic => rfl

/-- Over a history. -/
theorem Safe.run {E : Env} {a : Address} (cs : List Call) (w : World) {past : Bytes → Prop} {n : Nat} {log : List (Bytes × UInt32)}
    (hw : w.WF) (h : Safe past n log ((w.sessions a).getD {})) (hn : n + cs.length < 2 ^ 32)
    (hpast : ∀ c ∈ cs, ∀ p, Generates E.C c.rand p → ¬ past p.bytes) (hfresh : FreshCalls E.C cs)
    (hset : E.aliased = true → PreKeysAccepted E cs w) :
    (((sentTo a (runCalls E cs w).1).map fun x => (x.1.bytes, x.2)).reverse ++ log).Nodup := by
  induction cs generalizing w past n log with
  | nil => exact h.nodup
  | cons c cs ih =>
    simp only [List.length_cons] at hn
    obtain ⟨hf1, hf2⟩ := List.pairwise_cons.mp hfresh
    have hstep := h.call (c := c) hw (by omega) (hpast c (by simp)) fun hE b m hop =>
      hset hE (c, (c.run E w).1) (by simp [trace, runCalls]) b m hop
    have := ih (c.run E w).2 hw.call hstep (by omega) ?_ hf2 ?_
    · rw [show (runCalls E (c :: cs) w).1 = (c.run E w).1 :: (runCalls E cs (c.run E w).2).1 from rfl, sentTo_cons, List.reverse_append,
        List.append_assoc]
      have e : ((c.run E w).1.sentPos a).toList.reverse = ((c.run E w).1.sentPos a).toList := by
        cases (c.run E w).1.sentPos a <;> rfl
      rw [e]
      exact this
    · intro d hd p hp hh
      rcases hh with hh | ⟨q, hq, he⟩
      · exact hpast d (by simp [hd]) p hp hh
      · have : p = q := PubKey.bytes_inj he
        subst this
        exact hf1 d hd p hq hp
    · intro hE x hx
      exact hset hE x (by
        simp only [trace, runCalls, List.zip_cons_cons, List.mem_cons]
        exact .inr hx)

theorem Safe.start (a : Address) {w : World} (h : w.NoSessions) : Safe (fun _ => False) 0 [] ((w.sessions a).getD {}) := by
  rw [h a]
  refine ⟨by simp, by simp, by simp, ?_, ?_, ?_, ?_⟩ <;> simp [livePositions, Record.states]

end Verif
