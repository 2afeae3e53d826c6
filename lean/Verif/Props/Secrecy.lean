import Verif.Spec.Secrecy
import Verif.Props.Reading

/-!
# What the stores still know about the key of a message: C75, C76
-/

namespace Verif

open Ex Doc

/-! ## C75 -/

theorem senderChainKey_with (s : SState) (k : Bytes) (hk : k.length = 32) (ck : ChainKey) (h : s.senderChainKey = .ok ck) :
    ck.key = s.senderKey ∧ (s.withSenderKey k).senderChainKey = .ok ⟨k, ck.index⟩ := by
  unfold SState.senderChainKey at h ⊢
  cases hc : s.senderChain with
  | none => simp [hc] at h
  | some c =>
    rw [hc] at h
    simp only at h
    cases hx : c.chainKey with
    | none => simp [hx] at h
    | some x =>
      rw [hx] at h
      simp only [newChainKey] at h
      split at h
      · simp at h
      · simp only [Res.ok.injEq] at h
        subst h
        simp [SState.senderKey, SState.withSenderKey, hc, hx, newChainKey, hk]

theorem withSenderKey_set (s : SState) (k : Bytes) (x : ChainKey) : (s.withSenderKey k).setSenderChainKey x = s.setSenderChainKey x := by
  unfold SState.setSenderChainKey SState.withSenderKey
  cases s.senderChain with
  | none => rfl
  | some c => rfl

theorem encryptState_parts {C : Crypto} {s s' : SState} {p : Bytes} {c : Ciphertext} {k : PubKey} (h : encryptState C s p = .ok (c, s', k)) :
    ∃ ck, s.senderChainKey = .ok ck ∧ s' = s.setSenderChainKey (ck.next C) ∧ s.remoteIdentityKey = .ok (some k) := by
  unfold encryptState at h
  simp only [Res.bind_eq_ok] at h
  obtain ⟨ck, h1, _, _, _, _, o, h2, h⟩ := h
  cases o with
  | none => simp at h
  | some k' =>
    simp only [Res.bind_eq_ok] at h
    obtain ⟨_, _, _, _, _, _, h⟩ := h
    simp only [Res.pure_eq, Res.ok.injEq, Prod.mk.injEq] at h
    obtain ⟨_, rfl, rfl⟩ := h
    exact ⟨ck, h1, rfl, h2⟩

/-- **C75** for sent messages. Take two processes, with any primitives, whose stores differ only in the chain key from which the current
session with `a` sends next, such that both chain keys have the same successor. After each of them has sent a message, of any content, their
stores are the same. So the store has nothing left of the chain key, and of the keys of the message that come from it, except the next
chain key. -/
theorem C75_sent_key_is_gone (E E' : Env) (w : World) (a : Address) (k p p' : Bytes) (hk : k.length = 32)
    (hnext : ∀ r s, w.sessions a = some r → r.current = some s → E'.C.hmac k [2] = E.C.hmac s.senderKey [2])
    (c c' : Ciphertext) (h : (encryptMessage E a p w).1 = .ok c) (h' : (encryptMessage E' a p' (w.withSenderKey a k)).1 = .ok c') :
    (encryptMessage E' a p' (w.withSenderKey a k)).2.sessions = (encryptMessage E a p w).2.sessions ∧
    (encryptMessage E' a p' (w.withSenderKey a k)).2.known = (encryptMessage E a p w).2.known := by
  have ho := encrypt_outcome E a p w
  have ho' := encrypt_outcome E' a p' (w.withSenderKey a k)
  generalize encryptMessage E a p w = x at ho h ⊢
  generalize encryptMessage E' a p' (w.withSenderKey a k) = x' at ho' h' ⊢
  obtain ⟨r, w1⟩ := x
  obtain ⟨r', w1'⟩ := x'
  simp only at ho ho' h h' ⊢
  subst h h'
  cases ho with
  | early _ _ hr => exact absurd rfl (hr _)
  | stopped _ _ hr => exact absurd rfl (hr _)
  | done fs rec st st' msg key h1 h2 h3 ht =>
    cases ho' with
    | early _ _ hr => exact absurd rfl (hr _)
    | stopped _ _ hr => exact absurd rfl (hr _)
    | done fs' rec' stx st'' msg' key' h1' h2' h3' ht' =>
      simp only [World.withSenderKey, upd_same, h1, Option.map_some, Option.some.injEq] at h1'
      subst h1'
      simp only [h2, Option.map_some, Option.some.injEq] at h2'
      subst h2'
      obtain ⟨ck, e1, rfl, e3⟩ := encryptState_parts h3
      obtain ⟨ck', e1', rfl, e3'⟩ := encryptState_parts h3'
      obtain ⟨e4, e5⟩ := senderChainKey_with st k hk ck e1
      rw [e5] at e1'
      simp only [Res.ok.injEq] at e1'
      subst e1'
      rw [show (st.withSenderKey k).remoteIdentityKey = st.remoteIdentityKey from rfl, e3] at e3'
      simp only [Res.ok.injEq, Option.some.injEq] at e3'
      subst e3'
      refine ⟨?_, rfl⟩
      have e6 : ChainKey.next E'.C ⟨k, ck.index⟩ = ck.next E.C := by
        unfold ChainKey.next chainHash
        rw [hnext rec st h1 h2, e4]
      simp only [World.withSenderKey, upd_upd, withSenderKey_set, e6, Record.setSessionState]

def Ex.succeeds {α} : Res α → Bool
  | .ok _ => true
  | _ => false

/-- Primitives for which the chain key `k'` has the successor of `k`. -/
def Ex.patched (k k' : Bytes) (C : Crypto) : Crypto :=
  { C with hmac := fun x m => if x = k' ∧ m = [2] then C.hmac k [2] else C.hmac x m
           hmac_len := fun x m => by split <;> exact C.hmac_len _ _ }

/-- the hypotheses are met by the second message of the example, with another chain key and another content -/
example : ∃ (s : SState) (r : Record), alice2.sessions bob = some r ∧ r.current = some s ∧ s.senderKey ≠ List.replicate 32 7 ∧
    succeeds (encryptMessage copying bob [4] alice2).1 ∧
    succeeds (encryptMessage ⟨patched s.senderKey (List.replicate 32 7) toy, false, tofu⟩ bob [8, 8] (alice2.withSenderKey bob (List.replicate 32 7))).1 := by
  have h : (match alice2.sessions bob with
    | some r => match r.current with
      | some s => (s.senderKey != List.replicate 32 7) && succeeds (encryptMessage copying bob [4] alice2).1 &&
        succeeds (encryptMessage ⟨patched s.senderKey (List.replicate 32 7) toy, false, tofu⟩ bob [8, 8] (alice2.withSenderKey bob (List.replicate 32 7))).1
      | none => false
    | none => false) = true := by decide +kernel
  cases hr : alice2.sessions bob with
  | none => simp [hr] at h
  | some r =>
    rw [hr] at h
    simp only at h
    cases hs : r.current with
    | none => simp [hs] at h
    | some s =>
      rw [hs] at h
      simp only [Bool.and_eq_true, bne_iff_ne] at h
      exact ⟨s, r, rfl, hs, h.1.1, h.1.2, h.2⟩

theorem kept_after {C : Crypto} {s s' : SState} {m : Signal} {rd rd' p : Bytes} (h : s.WF)
    (hd : decryptMessageSession C s m rd = (.ok (p, s'), rd')) (hnew : ¬ m.counter.toNat < s.position m.senderRatchetKey) : s'.CanRead C m p := by
  obtain ⟨_, s1, i, c, c', ck, mk, rk, lk, h1, hw1, hc, hck, htk, hrk, hlk, ho, rfl⟩ := decrypted_shape h hd
  obtain ⟨hl, hr, hp⟩ := h.chainKeyFor_ids h1
  have hpos : s1.position m.senderRatchetKey = ck.index.toNat := by
    have hcw := hw1.chainWF c (SState.receiverChain_mem hc)
    obtain ⟨ckx, hckx, hcl, _⟩ := hcw.chain
    have e : ckx = ck := by
      rw [hck] at hckx
      cases ckx; cases ck
      simpa [ChainKey.toPB, and_comm, eq_comm] using hckx
    subst e
    exact (messageKeysFor_cases (C := C) hw1 m.counter (PBChain.WF.receiverChainKey hc hck hcl)).1
  cases htk with
  | stored hlt => omega
  | ahead hle =>
    have hmem := SState.receiverChain_some hc
    refine ⟨rk, lk, messageSecrets C (chainIter C ck (m.counter.toNat - ck.index.toNat)).key 0, hr.trans hrk, hl.trans hlk, ?_, ?_⟩
    · have hidx : (chainIter C ck (m.counter.toNat - ck.index.toNat)).index.toNat = m.counter.toNat := by
        rw [chainIter_index]
        have := m.counter.toNat_lt
        have e : UInt32.ofNat (m.counter.toNat - ck.index.toNat) = m.counter - ck.index := by
          apply UInt32.toNat_inj.mp
          rw [UInt32.toNat_sub_of_le _ _ (UInt32.le_iff_toNat_le.mpr hle)]
          simp; omega
        rw [e]
        have : ck.index + (m.counter - ck.index) = m.counter := by
          rw [UInt32.add_comm, UInt32.sub_add_cancel]
        rw [this]
      have hx := SState.Secrets.ahead (C := C) (s := { s1 with receiverChains := s1.receiverChains.set i { c with messageKeys := lastN maxMessageKeys (c.messageKeys ++ skipped C ck (m.counter.toNat - ck.index.toNat)), chainKey := some (chainIter C ck (m.counter.toNat - ck.index.toNat)).toPB }, pendingPreKey := none })
        (k := m.senderRatchetKey) (n := m.counter) _ _ (List.mem_set (List.getElem?_eq_some_iff.mp hmem.1).1 _) hmem.2 rfl (by simp only [ChainKey.toPB]; omega) (.inl (by simp only [ChainKey.toPB]; omega))
      simpa [ChainKey.toPB, hidx] using hx
    · rw [← opens_chain C]
      exact ho

/-- **C75** is false for received messages: whenever DecryptMessage delivers a Signal message that no stored state had passed on its chain,
the session that it stores can read the message again, so it still has the keys of the message. -/
theorem C75_received_key_is_kept_false (E : Env) (w : World) (hw : Reachable E w) (a : Address) (m : Signal) (p : Bytes)
    (h : (decryptMessage E a (.signal m) w).1 = .ok (some p))
    (hnew : ∀ r s, w.sessions a = some r → r.HasState s → ¬ m.counter.toNat < s.position m.senderRatchetKey) :
    ∃ r s, (decryptMessage E a (.signal m) w).2.sessions a = some r ∧ r.current = some s ∧ s.CanRead E.C m p := by
  simp only [decryptMessage] at h ⊢
  have ho := signal_outcome E a m w
  generalize decryptSignal E a m w = x at ho h ⊢
  obtain ⟨r, w'⟩ := x
  simp only at ho h ⊢
  subst h
  cases ho with
  | early _ fs rd hr => exact absurd rfl (hr _)
  | stopped _ fs hr => exact absurd rfl (hr _)
  | done fs rec rec' pt rd st k h1 h2 h3 =>
    cases h2 with
    | ok _ _ rd' hd =>
      have hwf := hw.WF a rec h1
      obtain ⟨s, s', rd1, rd2, h4, h5, h6⟩ := hwf.decrypted hd
      have hs : rec.HasState s := by
        rcases h6 with ⟨h6, _⟩ | ⟨l', idx, h6, h7, _⟩
        · exact .inl h6
        · exact (hwf.hasState h6 s).mpr (.inr (List.mem_of_getElem? h7))
      exact ⟨rec', s', upd_same _ _ _, h5, kept_after (hwf.state_of hs) h4 (hnew rec s h1 hs)⟩

/-- **C75** is false for received messages: the stored session can read a message again after the next message of its chain was delivered
too, because the key of the first is then put among the keys of skipped messages. -/
theorem C75_received_in_order_false :
    Reachable copying bob0 ∧ (decryptMessage copying alice m1 bob0).1 = .ok (some [1, 2, 3]) ∧
    (decryptMessage copying alice m2 (decryptMessage copying alice m1 bob0).2).1 = .ok (some [4]) ∧
    ∃ r s x, (decryptMessage copying alice m2 (decryptMessage copying alice m1 bob0).2).2.sessions alice = some r ∧ r.current = some s ∧
      m1.inner = some x ∧ s.CanRead toy x [1, 2, 3] := by
  refine ⟨bob0_reachable, m1_delivered, by decide +kernel, ?_⟩
  have hreach : Reachable copying (decryptMessage copying alice m2 (decryptMessage copying alice m1 bob0).2).2 :=
    (bob0_reachable.decrypt alice m1).decrypt alice m2
  have h : (match (decryptMessage copying alice m2 (decryptMessage copying alice m1 bob0).2).2.sessions alice, m1.inner with
    | some r, some x => (match r.current with
      | some s => (match (decryptMessageSession toy s x []).1 with
        | .ok (q, _) => q == [1, 2, 3]
        | _ => false)
      | none => false)
    | _, _ => false) = true := by decide +kernel
  cases hr : (decryptMessage copying alice m2 (decryptMessage copying alice m1 bob0).2).2.sessions alice with
  | none => simp [hr] at h
  | some r =>
    cases hx : m1.inner with
    | none => simp [hr, hx] at h
    | some x =>
      rw [hr, hx] at h
      simp only at h
      cases hs : r.current with
      | none => simp [hs] at h
      | some s =>
        rw [hs] at h
        simp only at h
        refine ⟨r, s, x, rfl, hs, rfl, ?_⟩
        rcases hd : decryptMessageSession toy s x [] with ⟨y, rd⟩
        rw [hd] at h
        cases y with
        | err e => simp at h
        | panic => simp at h
        | ok q =>
          obtain ⟨q, s'⟩ := q
          simp only [beq_iff_eq] at h
          subst h
          exact ((hreach.WF alice r hr).current s hs).canRead_of hd

/-- The chain of a ratchet key in the state with another stored key. -/
theorem receiverChain_with (s : SState) (k : PubKey) (n : UInt32) (x y z : Bytes) :
    (s.withStored k n x y z).receiverChain k = (s.receiverChain k).map fun ic =>
      (ic.1, { ic.2 with messageKeys := ic.2.messageKeys.map fun u => if u.index = n then ⟨n, x, y, z⟩ else u }) := by
  unfold SState.receiverChain SState.withStored
  simp only
  generalize s.receiverChains = l
  generalize 0 = j
  induction l generalizing j with
  | nil => rfl
  | cons c l ih =>
    simp only [List.map_cons, SState.findChain]
    by_cases h : c.senderRatchetKey = k.bytes
    · simp [h]
    · simp [h, ih]

theorem withStored_set {s : SState} (hd : s.receiverChains.Pairwise fun a b => a.senderRatchetKey ≠ b.senderRatchetKey) {k : PubKey} {i : Nat}
    {c : PBChain} (hi : s.receiverChains[i]? = some c) (hk : c.senderRatchetKey = k.bytes) (n : UInt32) (x y z : Bytes) (d : PBChain) :
    (s.withStored k n x y z).receiverChains.set i d = s.receiverChains.set i d := by
  unfold SState.withStored
  simp only
  apply List.ext_getElem?
  intro j
  simp only [List.getElem?_set, List.length_map, List.getElem?_map]
  split
  · rfl
  · rename_i hij
    cases hj : s.receiverChains[j]? with
    | none => rfl
    | some e =>
      simp only [Option.map_some, Option.some.injEq]
      rw [if_neg]
      intro he
      rw [List.getElem?_eq_some_iff] at hi hj
      obtain ⟨hi1, hi2⟩ := hi
      obtain ⟨hj1, hj2⟩ := hj
      have hp := List.pairwise_iff_getElem.mp hd
      rcases Nat.lt_or_gt_of_ne hij with h | h
      · exact hp i j hi1 hj1 h (by rw [hi2, hj2, hk, he])
      · exact hp j i hj1 hi1 h (by rw [hi2, hj2, hk, he])

theorem receiverChainKey_with (s : SState) (k : PubKey) (n : UInt32) (x y z : Bytes) :
    (s.withStored k n x y z).receiverChainKey k = s.receiverChainKey k := by
  simp only [SState.receiverChainKey, receiverChain_with]
  cases s.receiverChain k <;> rfl

/-- **C75** for messages that arrive late (partial: of the received messages only these). Take two sessions that differ only in the keys kept
for message `n` under a ratchet key, whose chain has passed `n`. When each of them has decrypted a message with this position, they are the
same. So the session has nothing left of the keys of the message. -/
theorem C75_late_key_is_gone_partial (E E' : Env) (w : World) (hw : Reachable E w) (a : Address) (r : Record) (hr : w.sessions a = some r)
    (s : SState) (hs : r.HasState s) (m m' : Signal) (hk : m'.senderRatchetKey = m.senderRatchetKey) (hn : m'.counter = m.counter)
    (hlate : m.counter.toNat < s.position m.senderRatchetKey) (x y z rd rd' p p' rd1 rd1' : Bytes) (s1 s1' : SState)
    (h : decryptMessageSession E.C s m rd = (.ok (p, s1), rd1))
    (h' : decryptMessageSession E'.C (s.withStored m.senderRatchetKey m.counter x y z) m' rd' = (.ok (p', s1'), rd1')) : s1' = s1 := by
  have hwf := (hw.WF a r hr).state_of hs
  obtain ⟨_, _, ck, s2, mk, s3, rk, lk, h1, h2, _, _, _, _, rfl⟩ := decryptMessageSession_ok h
  obtain ⟨_, _, ck', s2', mk', s3', rk', lk', h1', h2', _, _, _, _, rfl⟩ := decryptMessageSession_ok h'
  rw [hk] at h1' h2'
  rw [hn] at h2'
  obtain ⟨_, hck2⟩ := hwf.chainKeyFor h1
  obtain ⟨_, _, hp⟩ := hwf.chainKeyFor_ids h1
  have hw2 := (hwf.chainKeyFor h1).1
  have hpos := (messageKeysFor_cases (C := E.C) hw2 m.counter hck2).1
  rcases chainKeyFor_ok h1 with ⟨e1, rfl, _⟩ | ⟨e1, _⟩
  rotate_left
  · exfalso
    have hno := hwf.receiverChainKey_none e1
    unfold SState.position at hlate
    rw [List.find?_eq_none.mpr] at hlate
    · simp at hlate
    · intro c hc
      have := SState.findChain_none.mp hno c hc
      simpa using this
  rcases chainKeyFor_ok h1' with ⟨e1', rfl, _⟩ | ⟨e1', _⟩
  rotate_left
  · rw [receiverChainKey_with, e1] at e1'
    simp at e1'
  rw [receiverChainKey_with, e1] at e1'
  simp only [Res.ok.injEq, Option.some.injEq] at e1'
  subst e1'
  have hgt : ck.index > m.counter := by
    rw [gt_iff_lt, UInt32.lt_iff_toNat_lt]; omega
  cases hc : s2.receiverChain m.senderRatchetKey with
  | none => simp [SState.receiverChainKey, hc] at e1
  | some ic =>
    obtain ⟨i, c⟩ := ic
    have hc' := receiverChain_with s2 m.senderRatchetKey m.counter x y z
    rw [hc] at hc'
    simp only [Option.map_some] at hc'
    rw [messageKeysFor_old E.C s2 _ ck m.counter i c hc hgt] at h2
    rw [messageKeysFor_old E'.C _ _ ck m.counter i _ hc' hgt] at h2'
    have hmem := SState.receiverChain_some hc
    have hset := withStored_set (s := s2) hw2.distinct hmem.1 hmem.2 m.counter x y z
    have e3 : s3 = { s2 with receiverChains := s2.receiverChains.set i (c.withKeys (c.messageKeys.filter fun k => k.index ≠ m.counter)) } := by
      split at h2
      · simp at h2
      · simp only [Res.bind_eq_ok, Res.ok.injEq, Prod.mk.injEq] at h2
        obtain ⟨_, _, _, rfl⟩ := h2
        rfl
    have e3' : s3' = { s2 with receiverChains := s2.receiverChains.set i (c.withKeys (c.messageKeys.filter fun k => k.index ≠ m.counter)) } := by
      split at h2'
      · simp at h2'
      · simp only [Res.bind_eq_ok, Res.ok.injEq, Prod.mk.injEq] at h2'
        obtain ⟨_, _, _, rfl⟩ := h2'
        rw [hset]
        simp only [SState.withStored]
        congr 2
        simp only [PBChain.withKeys, PBChain.mk.injEq, true_and]
        generalize c.messageKeys = l
        induction l with
        | nil => rfl
        | cons u l ih =>
          by_cases hu : u.index = m.counter
          · simpa [List.filter_cons, hu] using ih
          · simpa [List.filter_cons, hu] using ih
    rw [e3, e3']

/-- Bob has received `m2` before `m1`. -/
def Ex.bobLate : World := (decryptMessage copying alice m2 bob0).2

/-- A message at the position of `m1` for the keys of sevens, eights and nines. -/
def Ex.m1Other : Option Signal :=
  match m1.inner with
  | some m => match cbcEncrypt toy (List.replicate 32 7) (List.replicate 16 9) [6, 6] with
    | .ok ct => match newSignal toy 3 (List.replicate 32 8) m.senderRatchetKey 0 m.counter ct (pair 1).pub (pair 2).pub with
      | .ok x => some x
      | _ => none
    | _ => none
  | none => none

/-- the hypotheses are met: the two sessions and the two messages decrypt -/
example : ∃ r s m m' s1 s1' p p', bobLate.sessions alice = some r ∧ r.current = some s ∧ m1.inner = some m ∧ m1Other = some m' ∧
    m'.senderRatchetKey = m.senderRatchetKey ∧ m'.counter = m.counter ∧ m.counter.toNat < s.position m.senderRatchetKey ∧
    decryptMessageSession toy s m [] = (.ok (p, s1), []) ∧
    decryptMessageSession toy (s.withStored m.senderRatchetKey m.counter (List.replicate 32 7) (List.replicate 32 8) (List.replicate 16 9)) m' [] = (.ok (p', s1'), []) ∧
    p ≠ p' := by
  have h : (match bobLate.sessions alice, m1.inner, m1Other with
    | some r, some m, some m' => (match r.current with
      | some s => (m'.senderRatchetKey == m.senderRatchetKey) && (m'.counter == m.counter) && decide (m.counter.toNat < s.position m.senderRatchetKey) &&
        (match decryptMessageSession toy s m [], decryptMessageSession toy (s.withStored m.senderRatchetKey m.counter (List.replicate 32 7) (List.replicate 32 8) (List.replicate 16 9)) m' [] with
        | (.ok (p, _), []), (.ok (p', _), []) => p != p'
        | _, _ => false)
      | none => false)
    | _, _, _ => false) = true := by decide +kernel
  cases h1 : bobLate.sessions alice with
  | none => simp [h1] at h
  | some r =>
  cases h2 : m1.inner with
  | none => simp [h1, h2] at h
  | some m =>
  cases h3 : m1Other with
  | none => simp [h1, h2, h3] at h
  | some m' =>
  rw [h1, h2, h3] at h
  simp only at h
  cases h4 : r.current with
  | none => simp [h4] at h
  | some s =>
  rw [h4] at h
  simp only [Bool.and_eq_true, beq_iff_eq, decide_eq_true_eq] at h
  obtain ⟨⟨⟨e1, e2⟩, e3⟩, h⟩ := h
  split at h
  · rename_i p s1 p' s1' hx hy
    exact ⟨r, s, m, m', s1, s1', p, p', rfl, h4, rfl, rfl, e1, e2, e3, hx, hy, by simpa using h⟩
  · simp at h

/-! ## C76 -/

/-- **C76** for sent group messages. Take two processes, with any primitives, whose stores differ only in the chain key from which `a` sends
next to the group, such that both chain keys have the same successor. After each of them has sent a message, of any content, their stores are
the same. -/
theorem C76_sent_key_is_gone (C C' : Crypto) (aliased aliased' : Bool) (w : GWorld) (a : Address) (dist : DistId) (k p p' : Bytes)
    (hnext : ∀ s g, w.records (a, dist) = some (s :: g) → C'.hmac k [2] = C.hmac s.chainKey.seed [2])
    (m m' : SenderKeyMsg) (h : (groupEncrypt C aliased a dist p w).1 = .ok m)
    (h' : (groupEncrypt C' aliased' a dist p' (w.withSenderSeed (a, dist) k)).1 = .ok m') :
    (groupEncrypt C' aliased' a dist p' (w.withSenderSeed (a, dist) k)).2.records = (groupEncrypt C aliased a dist p w).2.records := by
  have ho := groupEncrypt_outcome C aliased a dist p w
  have ho' := groupEncrypt_outcome C' aliased' a dist p' (w.withSenderSeed (a, dist) k)
  generalize groupEncrypt C aliased a dist p w = x at ho h ⊢
  generalize groupEncrypt C' aliased' a dist p' (w.withSenderSeed (a, dist) k) = x' at ho' h' ⊢
  obtain ⟨r, w1⟩ := x
  obtain ⟨r', w1'⟩ := x'
  simp only at ho ho' h h' ⊢
  subst h h'
  cases ho with
  | early _ _ _ hr => exact absurd rfl (hr _)
  | stopped _ _ hr => exact absurd rfl (hr _)
  | done fs s rest sk _ rd hb =>
    cases ho' with
    | early _ _ _ hr => exact absurd rfl (hr _)
    | stopped _ _ hr => exact absurd rfl (hr _)
    | done fs' s' rest' sk' _ rd' hb' =>
      have h1 := hb.1
      have h1' := hb'.1
      simp only [GWorld.withSenderSeed, upd_same, h1, Option.map_some, Option.some.injEq, List.cons.injEq] at h1'
      obtain ⟨rfl, rfl⟩ := h1'
      simp only [GWorld.withSenderSeed, upd_upd]
      have : SKChainKey.next C' { s.chainKey with seed := k } = s.chainKey.next C := by
        unfold SKChainKey.next chainHash
        rw [hnext s rest h1]
      simp only [GState.setSenderChainKey, this]

theorem find_with (g : GRecord) (chain : UInt32) (k : Bytes) :
    GRecord.stateForChainID (g.map fun s => if chain = s.chainId then { s with chainKey := { s.chainKey with seed := k } } else s) chain =
      (g.stateForChainID chain).map fun s => { s with chainKey := { s.chainKey with seed := k } } := by
  unfold GRecord.stateForChainID
  induction g with
  | nil => rfl
  | cons s g ih =>
    by_cases h : chain = s.chainId
    · simp [h]
    · rw [List.map_cons, if_neg h, List.find?_cons_of_neg (by simpa using h), List.find?_cons_of_neg (by simpa using h)]
      exact ih

theorem set_with {g : GRecord} (hd : g.Pairwise fun s t => s.chainId ≠ t.chainId) (chain : UInt32) (k : Bytes) (t : GState) :
    GRecord.setStateForChainID (g.map fun s => if chain = s.chainId then { s with chainKey := { s.chainKey with seed := k } } else s) chain t =
      g.setStateForChainID chain t := by
  induction g with
  | nil => rfl
  | cons s g ih =>
    rw [List.pairwise_cons] at hd
    by_cases h : chain = s.chainId
    · simp only [List.map_cons, if_pos h, GRecord.setStateForChainID]
      congr 1
      rw [List.map_congr_left (g := id), List.map_id]
      intro u hu
      rw [if_neg]
      · rfl
      · intro e
        exact hd.1 u hu (by rw [← h, e])
    · simp only [List.map_cons, if_neg h, GRecord.setStateForChainID]
      rw [ih hd.2]

/-- **C76** for received group messages. Take two processes, with any primitives, whose stores differ only in the chain key of a sender key,
such that the chains from there agree on the keys of the `d` messages before a message, which are to be kept for when they arrive, and on the
chain key after it. After each of them has decrypted a message at this place, their stores are the same. So the store has nothing left of the
chain keys up to the message, and of the key of the message. -/
theorem C76_received_key_is_gone (E E' : GEnv) (w : GWorld) (hw : GReachable E w) (a : Address) (m m' : SenderKeyMsg) (hd : m'.distID = m.distID)
    (hc : m'.chainID = m.chainID) (hn : m'.iteration = m.iteration) (g : GRecord) (hg : w.records (a, m.distID) = some g) (s : GState)
    (hs : g.stateForChainID m.chainID = some s) (d : Nat) (hpos : m.iteration.toNat = s.chainKey.iteration.toNat + d) (k : Bytes)
    (hskip : ∀ j < d, E'.C.hmac (chainKey E'.C k j) [1] = E.C.hmac (chainKey E.C s.chainKey.seed j) [1])
    (hnext : chainKey E'.C k (d + 1) = chainKey E.C s.chainKey.seed (d + 1)) (p p' : Bytes)
    (h : (groupDecrypt E.C E.aliased a m w).1 = .ok p)
    (h' : (groupDecrypt E'.C E'.aliased a m' (w.withSeed (a, m.distID) m.chainID k)).1 = .ok p') :
    (groupDecrypt E'.C E'.aliased a m' (w.withSeed (a, m.distID) m.chainID k)).2.records = (groupDecrypt E.C E.aliased a m w).2.records := by
  have hwf := hw.WF _ g hg
  have ho := groupDecrypt_outcome E.C E.aliased a m w
  have ho' := groupDecrypt_outcome E'.C E'.aliased a m' (w.withSeed (a, m.distID) m.chainID k)
  generalize groupDecrypt E.C E.aliased a m w = x at ho h ⊢
  generalize groupDecrypt E'.C E'.aliased a m' (w.withSeed (a, m.distID) m.chainID k) = x' at ho' h' ⊢
  obtain ⟨r, w1⟩ := x
  obtain ⟨r', w1'⟩ := x'
  simp only at ho ho' h h' ⊢
  subst h h'
  cases ho with
  | early _ _ hr => exact absurd rfl (hr _)
  | stopped _ _ hr => exact absurd rfl (hr _)
  | done fs g1 s1 key mk s2 _ hacc hp =>
    cases ho' with
    | early _ _ hr => exact absurd rfl (hr _)
    | stopped _ _ hr => exact absurd rfl (hr _)
    | done fs' g1' s1' key' mk' s2' _ hacc' hp' =>
      have e1 := hacc.record
      rw [hg] at e1
      simp only [Option.some.injEq] at e1
      subst e1
      have e2 := hacc.state
      rw [hs] at e2
      simp only [Option.some.injEq] at e2
      subst e2
      have e1' := hacc'.record
      simp only [GWorld.withSeed, hd, upd_same, hg, Option.map_some, Option.some.injEq] at e1'
      subst e1'
      have e2' := hacc'.state
      rw [hc, find_with, hs] at e2'
      simp only [Option.map_some, Option.some.injEq] at e2'
      subst e2'
      have hk : s.messageKeys.length ≤ maxMessageKeys := (hwf.states s (List.mem_of_find?_eq_some hs)).keys
      have t := hacc.taken
      have t' := hacc'.taken
      rw [hn] at t'
      have ct := groupMessageKey_cases E.C s hk m.iteration
      have ct' := groupMessageKey_cases E'.C { s with chainKey := { s.chainKey with seed := k } } hk m.iteration
      rw [t] at ct
      rw [t'] at ct'
      simp only [GWorld.withSeed, hd, hc, upd_upd, set_with hwf.distinct]
      cases ct with
      | taken _ _ ct =>
      cases ct' with
      | taken _ _ ct' =>
      cases ct with
      | stored hlt => omega
      | ahead n hn1 hj =>
      cases ct' with
      | stored hlt => simp only at hlt; omega
      | ahead n' hn1' hj' =>
        simp only at hn1'
        have e3 : n = d := by omega
        have e4 : n' = d := by omega
        subst e3
        subst e4
        have hiter : ∀ j, skIter E.C s.chainKey j = ⟨chainKey E.C s.chainKey.seed j, s.chainKey.iteration + UInt32.ofNat j⟩ := by
          intro j
          have h1 := skIter_seed E.C s.chainKey.seed s.chainKey.iteration j
          have h2 := skIter_iteration E.C s.chainKey j
          cases hx : skIter E.C s.chainKey j
          rw [hx] at h1 h2
          simp only at h1 h2
          rw [h1, h2]
        have hiter' : ∀ j, skIter E'.C { s.chainKey with seed := k } j = ⟨chainKey E'.C k j, s.chainKey.iteration + UInt32.ofNat j⟩ := by
          intro j
          have h1 := skIter_seed E'.C k s.chainKey.iteration j
          have h2 := skIter_iteration E'.C { s.chainKey with seed := k } j
          cases hx : skIter E'.C { s.chainKey with seed := k } j
          rw [hx] at h1 h2
          simp only at h1 h2
          rw [h1, h2]
        have hsk : skSkipped E'.C { s.chainKey with seed := k } n' = skSkipped E.C s.chainKey n' := by
          unfold skSkipped
          apply List.map_congr_left
          intro j hj
          rw [hiter, hiter']
          simp only [SKChainKey.messageKey, deriveSKMessageKey, SKMessageKey.stored, chainHash]
          rw [hskip j (List.mem_range.mp hj)]
        simp only [hsk, hiter, hiter', hnext]

/-- the hypotheses of both theorems are met by the messages of the example -/
example : ∃ s g, galice1.records (alice, dist) = some (s :: g) ∧ s.chainKey.seed ≠ List.replicate 32 7 ∧
    succeeds (groupEncrypt toy false alice dist [1, 2, 3] { galice1 with rand := randomness 3 }).1 ∧
    succeeds (groupEncrypt (patched s.chainKey.seed (List.replicate 32 7) toy) true alice dist [8] (GWorld.withSenderSeed { galice1 with rand := randomness 3 } (alice, dist) (List.replicate 32 7))).1 := by
  have h : (match galice1.records (alice, dist) with
    | some (s :: _) => (s.chainKey.seed != List.replicate 32 7) && succeeds (groupEncrypt toy false alice dist [1, 2, 3] { galice1 with rand := randomness 3 }).1 &&
        succeeds (groupEncrypt (patched s.chainKey.seed (List.replicate 32 7) toy) true alice dist [8] (GWorld.withSenderSeed { galice1 with rand := randomness 3 } (alice, dist) (List.replicate 32 7))).1
    | _ => false) = true := by decide +kernel
  split at h
  · rename_i s g hg
    simp only [Bool.and_eq_true, bne_iff_ne] at h
    exact ⟨s, g, hg, h.1.1, h.1.2, h.2⟩
  · simp at h

/-- the stores of Alice and Bob with a chain key of sevens, and the message that Alice then sends -/
def Ex.sevens : Bytes := List.replicate 32 7
def Ex.gOther (k : Bytes) : SenderKeyMsg :=
  outGroup (groupEncrypt (patched k sevens toy) false alice dist [8] (GWorld.withSenderSeed { galice1 with rand := randomness 3 } (alice, dist) sevens))

example : ∃ g s, gbob1.records (alice, g1.distID) = some g ∧ g.stateForChainID g1.chainID = some s ∧ s.chainKey.seed ≠ sevens ∧
    (gOther s.chainKey.seed).distID = g1.distID ∧ (gOther s.chainKey.seed).chainID = g1.chainID ∧ (gOther s.chainKey.seed).iteration = g1.iteration ∧
    g1.iteration.toNat = s.chainKey.iteration.toNat + 0 ∧
    chainKey (patched s.chainKey.seed sevens toy) sevens (0 + 1) = chainKey toy s.chainKey.seed (0 + 1) ∧
    (groupDecrypt toy false alice g1 gbob1).1 = .ok [1, 2, 3] ∧
    (groupDecrypt (patched s.chainKey.seed sevens toy) false alice (gOther s.chainKey.seed) (gbob1.withSeed (alice, g1.distID) g1.chainID sevens)).1 = .ok [8] := by
  have h : (match gbob1.records (alice, g1.distID) with
    | some g => (match g.stateForChainID g1.chainID with
      | some s => (s.chainKey.seed != sevens) &&
        (decide ((gOther s.chainKey.seed).distID = g1.distID) && ((gOther s.chainKey.seed).chainID == g1.chainID) && ((gOther s.chainKey.seed).iteration == g1.iteration)) &&
        (g1.iteration.toNat == s.chainKey.iteration.toNat + 0) &&
        (chainKey (patched s.chainKey.seed sevens toy) sevens (0 + 1) == chainKey toy s.chainKey.seed (0 + 1)) &&
        (decide ((groupDecrypt toy false alice g1 gbob1).1 = .ok [1, 2, 3]) &&
        decide ((groupDecrypt (patched s.chainKey.seed sevens toy) false alice (gOther s.chainKey.seed) (gbob1.withSeed (alice, g1.distID) g1.chainID sevens)).1 = .ok [8]))
      | none => false)
    | none => false) = true := by decide +kernel
  cases hg : gbob1.records (alice, g1.distID) with
  | none => simp [hg] at h
  | some g =>
    rw [hg] at h
    simp only at h
    cases hs : g.stateForChainID g1.chainID with
    | none => simp [hs] at h
    | some s =>
      rw [hs] at h
      simp only [Bool.and_eq_true, bne_iff_ne, beq_iff_eq, decide_eq_true_eq] at h
      obtain ⟨⟨⟨⟨h1, ⟨h2, h3⟩, h4⟩, h5⟩, h6⟩, h7, h8⟩ := h
      exact ⟨g, s, rfl, hs, h1, h2, h3, h4, h5, h6, h7, h8⟩

end Verif
