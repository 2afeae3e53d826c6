import Verif.Spec.Network
import Verif.Proofs.Trouble3
import Verif.Proofs.Inspect

/-!
A network of users, seen by two of them: what the others do are calls about other addresses.
-/

namespace Verif

/-! ## Pre-key ids that are on their way -/

/-- The pre-key ids that pre-key messages of the states of a record name. -/
def Record.Pend (P : UInt32 → Prop) (r : Record) : Prop := ∀ s, r.HasState s → ∀ p, s.pendingPreKey = some p → p.preKeyId ≠ 0 → P p.preKeyId

theorem Record.Pend.empty (P : UInt32 → Prop) : ({} : Record).Pend P := by
  rintro s (h | ⟨b, hb, _⟩)
  · simp at h
  · simp at hb

theorem Record.Pend.mono {P Q : UInt32 → Prop} {r : Record} (h : r.Pend P) (hPQ : ∀ x, P x → Q x) : r.Pend Q :=
  fun s hs p hp h0 => hPQ _ (h s hs p hp h0)

theorem Record.Pend.decrypt {C : Crypto} {P : UInt32 → Prop} {r r' : Record} {m : Signal} {rd rd' p : Bytes} (hw : r.WF) (h : r.Pend P)
    (hd : decryptRecord C r m rd = (.ok (p, r'), rd')) : r'.Pend P := by
  obtain ⟨s, s', rd1, rd2, h1, hc, hor⟩ := hw.decrypted hd
  have hk := (decryptMessageSession_keeps h1).2.2.2.2.2
  rcases hor with ⟨hs, hp, _⟩ | ⟨l, idx, hl, hi, hl', _⟩
  · rintro t (ht | ht) q hq
    · rw [hc] at ht
      simp only [Option.some.injEq] at ht
      rw [← ht, hk] at hq
      cases hq
    · rw [hp] at ht
      exact h t (.inr ht) q hq
  · intro t ht q hq
    rcases ((hw.decrypt hd).hasState hl' t).1 ht with ht | ht
    · rw [hc] at ht
      simp only [Option.some.injEq] at ht
      rw [← ht, hk] at hq
      cases hq
    · rw [List.mem_append] at ht
      rcases ht with ht | ht
      · exact h t ((hw.hasState hl t).2 (.inr (List.mem_of_mem_eraseIdx ht))) q hq
      · simp only [Option.mem_toList] at ht
        exact h t (.inl ht) q hq

theorem Processed.pend {E : Env} {w : World} {P : UInt32 → Prop} {r rec : Record} {m : PreKeyMsg} {id : Option UInt32} (hw : r.WF) (h : r.Pend P)
    (hp : Processed E w r m id rec) : rec.Pend P := by
  cases hp with
  | found hf => exact h
  | fresh hf signed oneTime s hs ho hi s' hs' =>
    obtain ⟨_, _, _, _, _, _, _, _, _, _, _, _, rk, ck, _, rfl⟩ := initializeBob_ok hi
    intro t ht q hq
    rcases hw.promoted_state ht with rfl | ht
    · subst hs'
      cases hq
    · exact h t ht q hq

/-- A call can only bring in the pre-key id of a bundle of this address. -/
theorem call_pend {E : Env} {c : Call} {w : World} (hw : w.WF) (a : Address) {P : UInt32 → Prop} (h : ∀ r, w.sessions a = some r → r.Pend P)
    (hb : ∀ b, c.op = .bundle a b → ∀ id, b.preKeyID = some id → P id) : ∀ r, (c.run E w).2.sessions a = some r → r.Pend P := by
  intro r hr
  rcases call_changed E c w a with he | ⟨r', he, hst⟩
  · rw [he] at hr
    exact h r hr
  · rw [he] at hr
    simp only [Option.some.injEq] at hr
    subst hr
    have hwf : ((w.sessions a).getD {}).WF := hw.getD a
    have hof : ((w.sessions a).getD {}).Pend P := by
      cases ho : w.sessions a with
      | none => exact Record.Pend.empty _
      | some r => exact h r ho
    generalize hop : c.op = op at hst
    dsimp only at hst
    generalize hr : (w.sessions a).getD {} = r at hst hof hwf
    cases hst with
    | enc h2 h3 =>
      rintro t (ht | ht) q hq
      · simp only [Record.setSessionState, Option.some.injEq] at ht
        rw [← ht, (encryptState_pending (hwf.current _ h2) h3).1] at hq
        exact hof _ (.inl h2) q hq
      · exact hof t (.inr ht) q hq
    | dec hd => exact hof.decrypt hwf hd
    | setUp hE hp _ => exact Processed.pend hwf hof hp
    | preKey hp hd => exact Record.Pend.decrypt (hp.WF hwf) (Processed.pend hwf hof hp) hd
    | bundle hfb =>
      intro t ht q hq h0
      rcases hwf.promoted_state ht with rfl | ht
      · cases hfb with
        | mk base rd1 rd2 s hbk hi s' hs' =>
          subst hs'
          simp only [SState.setUnacknowledgedPreKeyMessage, Option.some.injEq] at hq
          subst hq
          rename_i b _
          cases hid : b.preKeyID with
          | none => simp [hid] at h0
          | some id => simpa [hid] using hb b hop id hid
      · exact hof t ht q hq h0

/-- What EncryptMessage returns survives the way, and names a pre-key id of the session. -/
theorem encrypt_names {E : Env} {a : Address} {pt : Bytes} {w : World} {c : Ciphertext} (hw : w.WF) (hpt : pt.length < 2 ^ 62) {P : UInt32 → Prop}
    (h : ∀ r, w.sessions a = some r → r.Pend P) (he : (encryptMessage E a pt w).1 = .ok c) :
    c.reparse = .ok c ∧ ∀ m id, c = .preKey m → m.preKeyID = some id → P id := by
  have ho := encrypt_outcome E a pt w
  rw [he] at ho
  generalize (encryptMessage E a pt w).2 = w' at ho
  cases ho with
  | early _ _ hr => exact absurd rfl (hr c)
  | stopped _ _ hr => exact absurd rfl (hr c)
  | done fs rec st st' msg k h1 h2 h3 ht =>
    obtain ⟨_, ck, eph, lk, rk, sm, _, _, _, _, _, _, _, _, _, hrt, _, out, he', hor⟩ := ((hw a rec h1).current st h2).encrypts E.C pt
    rw [h3] at he'
    simp only [Res.ok.injEq, Prod.mk.injEq] at he'
    obtain ⟨rfl, _, _⟩ := he'
    obtain ⟨hp, hl⟩ := hrt (by omega)
    rcases hor with ⟨_, rfl⟩ | ⟨p, base, hpp, _, rfl⟩
    · refine ⟨?_, fun m id hm => by cases hm⟩
      simp [Ciphertext.reparse, hp]
    · refine ⟨?_, ?_⟩
      · simp only [Ciphertext.reparse]
        rw [prekey_round_trip _ _ _ _ _ _ hp (by omega)]
        rfl
      · intro m id hm hid
        simp only [Ciphertext.preKey.injEq] at hm
        subst hm
        simp only [newPreKey] at hid
        split at hid
        · rename_i h0
          simp only [Option.some.injEq] at hid
          rw [← hid]
          exact h rec h1 st (.inl h2) p hpp h0
        · cases hid

/-- DecryptMessage changes the pre-key stores only by deleting the one-time pre-key that the message names. -/
theorem decrypt_preKeys (E : Env) (a : Address) (c : Ciphertext) (w : World) :
    (decryptMessage E a c w).2.signedPreKeys = w.signedPreKeys ∧
    ((decryptMessage E a c w).2.preKeys = w.preKeys ∨ ∃ m id, c = .preKey m ∧ m.preKeyID = some id ∧ (decryptMessage E a c w).2.preKeys = upd w.preKeys id none) := by
  cases c with
  | preKey m =>
    have drop : ∀ {id : Option UInt32} {rec : Record}, Processed E w ((w.sessions a).getD {}) m id rec →
        dropPreKey w.preKeys id = w.preKeys ∨ ∃ m' id', Ciphertext.preKey m = .preKey m' ∧ m'.preKeyID = some id' ∧ dropPreKey w.preKeys id = upd w.preKeys id' none := by
      intro id rec hp
      cases hp with
      | found hf => exact .inl rfl
      | fresh hf signed oneTime s hs ho hi s' hs' =>
        cases hid : m.preKeyID with
        | none => exact .inl rfl
        | some id => exact .inr ⟨m, id, rfl, hid, rfl⟩
    have ho := preKey_outcome E a m w
    rw [decryptMessage_preKey]
    generalize decryptPreKey E a m w = x at ho ⊢
    obtain ⟨r, w'⟩ := x
    simp only at ho ⊢
    cases ho with
    | early _ fs hr => exact ⟨rfl, .inl rfl⟩
    | processed _ fs hr id rec rd ht hp kn hk => exact ⟨rfl, .inl rfl⟩
    | decrypted _ fs hr id rec rec' p rd ht hp hd ss pk hs =>
      refine ⟨rfl, ?_⟩
      rcases hs with ⟨_, rfl, _⟩ | ⟨_, rfl, _⟩ | ⟨_, rfl, _⟩
      · exact .inl rfl
      · exact .inl rfl
      · exact drop hp
    | done fs id rec rec' p rd ht hp hd => exact ⟨rfl, drop hp⟩
  | signal m =>
    simp only [decryptMessage]
    have ho := signal_outcome E a m w
    generalize decryptSignal E a m w = x at ho ⊢
    obtain ⟨r, w'⟩ := x
    simp only at ho ⊢
    cases ho <;> exact ⟨rfl, .inl rfl⟩
  | senderKey m => exact ⟨rfl, .inl rfl⟩
  | plaintext m => exact ⟨rfl, .inl rfl⟩

theorem encrypt_preKeys (E : Env) (a : Address) (pt : Bytes) (w : World) :
    (encryptMessage E a pt w).2.signedPreKeys = w.signedPreKeys ∧ (encryptMessage E a pt w).2.preKeys = w.preKeys := by
  have ho := encrypt_outcome E a pt w
  generalize encryptMessage E a pt w = x at ho ⊢
  obtain ⟨r, w'⟩ := x
  simp only at ho ⊢
  cases ho <;> exact ⟨rfl, rfl⟩

theorem bundle_preKeys (E : Env) (a : Address) (b : Bundle) (w : World) :
    (processPreKeyBundle E a b w).2.signedPreKeys = w.signedPreKeys ∧ (processPreKeyBundle E a b w).2.preKeys = w.preKeys := by
  have ho := bundle_outcome E a b w
  generalize processPreKeyBundle E a b w = x at ho ⊢
  obtain ⟨r, w'⟩ := x
  simp only at ho ⊢
  cases ho <;> exact ⟨rfl, rfl⟩

/-! ## Two of the users -/

section
variable {ι : Type} [DecidableEq ι] {N : Net ι} {S : NSys ι} {i j : ι}

theorem pick_inj (hij : i ≠ j) {s t : Side} (h : pick i j s = pick i j t) : s = t := by
  cases s <;> cases t
  · rfl
  · exact absurd h hij
  · exact absurd h (Ne.symm hij)
  · rfl

theorem sideOf_pick (hij : i ≠ j) (s : Side) : sideOf i j (pick i j s) (pick i j s.other) = some s := by
  cases s
  · simp [sideOf, pick, Side.other]
  · simp [sideOf, pick, Side.other, Ne.symm hij]

theorem sideOf_some {k l : ι} {s : Side} (h : sideOf i j k l = some s) : k = pick i j s ∧ l = pick i j s.other := by
  unfold sideOf at h
  split at h
  · rename_i h1
    simp only [Option.some.injEq] at h
    subst h
    exact h1
  · split at h
    · rename_i h1
      simp only [Option.some.injEq] at h
      subst h
      exact h1
    · cases h

theorem pick_world (hij : i ≠ j) (f : ι → World) (s : Side) (W : World) :
    (fun t => upd f (pick i j s) W (pick i j t)) = upd (fun t => f (pick i j t)) s W := by
  funext t
  by_cases h : t = s
  · subst h; rw [upd_same, upd_same]
  · rw [upd_ne _ _ h, upd_ne _ _ fun hp => h (pick_inj hij hp)]

theorem pick_upd2 (hij : i ≠ j) {β : Type} (f : ι → ι → β) (s : Side) (v : β) :
    (fun t : Side => upd2 f (pick i j s) (pick i j s.other) v (pick i j t) (pick i j t.other)) = upd (fun t => f (pick i j t) (pick i j t.other)) s v := by
  funext t
  by_cases h : t = s
  · subst h
    unfold upd2
    rw [upd_same, upd_same, upd_same]
  · unfold upd2
    rw [upd_ne _ _ h, upd_ne _ _ fun hp => h (pick_inj hij hp)]

theorem pick_upd2_none {β : Type} (hij : i ≠ j) (f : ι → ι → β) {k l : ι} (h : sideOf i j k l = none) (v : β) :
    (fun t : Side => upd2 f k l v (pick i j t) (pick i j t.other)) = fun t => f (pick i j t) (pick i j t.other) := by
  funext t
  unfold upd2
  by_cases hk : pick i j t = k
  · rw [hk, upd_same]
    refine upd_ne _ _ fun hl => ?_
    rw [← hk, ← hl, sideOf_pick hij] at h
    cases h
  · rw [upd_ne _ _ hk]

/-- What the network keeps to. -/
structure Net.Inv (N : Net ι) (S : NSys ι) : Prop where
  wf : ∀ i, (S.world i).WF
  pend : ∀ i j r, i ≠ j → (S.world i).sessions (N.address j) = some r → r.Pend fun id => ∃ b name, (i, j, b, name) ∈ S.started ∧ b.preKeyID = some id
  sent : ∀ i j, ∀ p ∈ S.sent i j, p.1.reparse = .ok p.1 ∧
    ∀ m id, p.1 = .preKey m → m.preKeyID = some id → ∃ b name, (i, j, b, name) ∈ S.started ∧ b.preKeyID = some id
  once : ∀ k k' l b b' name name' id, (k, l, b, name) ∈ S.started → (k', l, b', name') ∈ S.started → b.preKeyID = some id → b'.preKeyID = some id → k = k'

/-- What happened to one pair in one step. -/
def Net.Sees (N : Net ι) (S S' : NSys ι) (i j : ι) (o : Option MEvent) : Prop :=
  ∃ hs : List HEvent, S'.between i j = (N.duo i j).hrun (S.between i j) hs ∧ (N.duo i j).HOk (S.between i j) hs ∧
    hs.filterMap HEvent.plain = o.toList ∧ hs.length ≤ 1

theorem Net.Sees.nothing (h : S'.between i j = S.between i j) : N.Sees S S' i j none := ⟨[], h, trivial, rfl, by simp⟩

theorem Net.Sees.one {S' : NSys ι} {o : Option MEvent} (e : HEvent) (h : S'.between i j = (N.duo i j).hstep (S.between i j) e) (hok : e.Ok (N.duo i j) (S.between i j))
    (hp : e.plain = o) : N.Sees S S' i j o := by
  refine ⟨[e], h, ⟨hok, trivial⟩, ?_, by simp⟩
  subst hp
  cases e <;> rfl

/-- A call about somebody else. -/
theorem Net.Sees.elsewhere {S' : NSys ι} (hij : i ≠ j) {k : ι} {c : Call} (hw : S'.world = upd S.world k (c.run (N.env k) (S.world k)).2)
    (hst : (S'.between i j).started = (S.between i j).started) (hse : (S'.between i j).sent = (S.between i j).sent)
    (hgo : (S'.between i j).got = (S.between i j).got)
    (ha : ∀ s, k = pick i j s → c.op.address ≠ some (N.address (pick i j s.other)))
    (hk : ∀ s, k = pick i j s → ∀ b name, (pick i j s.other, k, b, name) ∈ S.started →
      (c.run (N.env k) (S.world k)).2.signedPreKeys b.signedPreKeyID = (S.world k).signedPreKeys b.signedPreKeyID ∧
      ∀ id, b.preKeyID = some id → (c.run (N.env k) (S.world k)).2.preKeys id = (S.world k).preKeys id) : N.Sees S S' i j none := by
  have heq : ∀ W, (S'.between i j).world = W → S'.between i j = ⟨W, (S.between i j).started, (S.between i j).sent, (S.between i j).got⟩ := by
    intro W hW
    rw [← hW, ← hst, ← hse, ← hgo]
  by_cases hs : ∃ s, k = pick i j s
  · obtain ⟨s, rfl⟩ := hs
    refine .one (.call s c) ?_ ⟨ha s rfl, ?_⟩ rfl
    · refine heq _ ?_
      show (fun t => S'.world (pick i j t)) = _
      rw [hw, pick_world hij]
      rfl
    · intro x hx h1 _
      simp only [NSys.between, List.mem_filterMap, Option.map_eq_some_iff] at hx
      obtain ⟨⟨k', l', b, name⟩, hmem, s', hs', rfl⟩ := hx
      simp only at h1 hs'
      subst h1
      obtain ⟨rfl, rfl⟩ := sideOf_some hs'
      have ho : s.other.other = s := by cases s <;> rfl
      rw [ho] at hmem
      exact hk s rfl b name hmem
  · refine .nothing ?_
    refine heq (S.between i j).world ?_
    show (fun t => S'.world (pick i j t)) = fun t => S.world (pick i j t)
    funext t
    rw [hw]
    exact upd_ne _ _ fun h => hs ⟨t, h.symm⟩

theorem Net.Inv.step (hadr : ∀ i j, N.address i = N.address j → i = j) (h : N.Inv S) (e : NEvent ι) (he : e.Ok N S) : N.Inv (N.step S e) := by
  have wf' : ∀ (k : ι) (c : Call), ∀ i, (upd S.world k (c.run (N.env k) (S.world k)).2 i).WF := by
    intro k c i
    by_cases hi : i = k
    · subst hi; rw [upd_same]; exact (h.wf i).call
    · rw [upd_ne _ _ hi]; exact h.wf i
  have pend' : ∀ (k : ι) (c : Call) (st : List (ι × ι × Bundle × Bytes)), (∀ x ∈ S.started, x ∈ st) →
      (∀ l b, c.op = .bundle (N.address l) b → ∃ name, (k, l, b, name) ∈ st) →
      ∀ i j r, i ≠ j → (upd S.world k (c.run (N.env k) (S.world k)).2 i).sessions (N.address j) = some r →
        r.Pend fun id => ∃ b name, (i, j, b, name) ∈ st ∧ b.preKeyID = some id := by
    intro k c st hsub hb i j r hij hr
    have old : ∀ r, (S.world i).sessions (N.address j) = some r → r.Pend fun id => ∃ b name, (i, j, b, name) ∈ st ∧ b.preKeyID = some id :=
      fun r hr => (h.pend i j r hij hr).mono fun id ⟨b, name, h1, h2⟩ => ⟨b, name, hsub _ h1, h2⟩
    by_cases hi : i = k
    · subst hi
      rw [upd_same] at hr
      refine call_pend (h.wf i) (N.address j) old ?_ r hr
      intro b hop id hid
      obtain ⟨name, hn⟩ := hb j b hop
      exact ⟨b, name, hn, hid⟩
    · rw [upd_ne _ _ hi] at hr
      exact old r hr
  have plain : ∀ (k : ι) (c : Call) (sent : ι → ι → List (Ciphertext × Bytes × Bytes)) (got : ι → ι → List (Bytes × PubKey × UInt32)),
      (∀ a b, c.op ≠ .bundle a b) →
      (∀ i j, ∀ p ∈ sent i j, p.1.reparse = .ok p.1 ∧
        ∀ m id, p.1 = .preKey m → m.preKeyID = some id → ∃ b name, (i, j, b, name) ∈ S.started ∧ b.preKeyID = some id) →
      N.Inv { world := upd S.world k (c.run (N.env k) (S.world k)).2, started := S.started, sent := sent, got := got } :=
    fun k c sent got hnb hsent => ⟨wf' k c, pend' k c S.started (fun _ hx => hx) (fun l b hop => absurd hop (hnb _ _)), hsent, h.once⟩
  cases e with
  | start k l b rand faults =>
    obtain ⟨_, _, honce⟩ := he
    refine ⟨wf' k ⟨.bundle (N.address l) b, rand, faults⟩, ?_, ?_, ?_⟩
    · refine pend' k ⟨.bundle (N.address l) b, rand, faults⟩ _ (fun x hx => List.mem_append_left _ hx) ?_
      intro l' b' hop
      simp only [Op.bundle.injEq] at hop
      obtain ⟨h1, rfl⟩ := hop
      rw [← hadr _ _ h1]
      exact ⟨_, List.mem_append_right _ (List.mem_singleton.2 rfl)⟩
    · intro i j p hp
      obtain ⟨h1, h2⟩ := h.sent i j p hp
      refine ⟨h1, fun m id hm hid => ?_⟩
      obtain ⟨b', name, h3, h4⟩ := h2 m id hm hid
      exact ⟨b', name, List.mem_append_left _ h3, h4⟩
    · intro k1 k2 l' b1 b2 n1 n2 id h1 h2 e1 e2
      simp only [Net.step, List.mem_append, List.mem_singleton, Prod.mk.injEq] at h1 h2
      rcases h1 with h1 | ⟨q1, p1, r1, _⟩ <;> rcases h2 with h2 | ⟨q2, p2, r2, _⟩
      · exact h.once _ _ _ _ _ _ _ id h1 h2 e1 e2
      · rw [p2] at h1; rw [r2] at e2
        exact absurd e2 (honce _ _ _ h1 id e1)
      · rw [p1] at h2; rw [r1] at e1
        exact absurd e1 (honce _ _ _ h2 id e2)
      · rw [q1, q2]
  | send k l pt faults =>
    have hb : ∀ a b, (Op.encrypt (N.address l) pt) ≠ .bundle a b := fun a b => by simp
    have hout := fun c => encrypt_names (E := N.env k) (a := N.address l) (pt := pt) (w := { S.world k with faults := faults }) (c := c) (h.wf k) he.2
      fun r => h.pend k l r he.1
    have hp := fun sent hs => plain k ⟨.encrypt (N.address l) pt, (S.world k).rand, faults⟩ sent S.got hb hs
    simp only [Call.run] at hp
    simp only [Net.step]
    generalize encryptMessage (N.env k) (N.address l) pt { S.world k with faults := faults } = x at hout hp ⊢
    obtain ⟨r, w'⟩ := x
    cases r with
    | err e => exact hp S.sent h.sent
    | panic => exact hp S.sent h.sent
    | ok c =>
      refine hp _ ?_
      intro i j p hmem
      unfold upd2 at hmem
      by_cases hi : i = k
      · subst hi
        rw [upd_same] at hmem
        by_cases hj : j = l
        · subst hj
          rw [upd_same, List.mem_append] at hmem
          rcases hmem with hmem | hmem
          · exact h.sent i j p hmem
          · rw [List.mem_singleton] at hmem
            subst hmem
            exact hout c rfl
        · rw [upd_ne _ _ hj] at hmem
          exact h.sent i j p hmem
      · rw [upd_ne _ _ hi] at hmem
        exact h.sent i j p hmem
  | deliver k l n rand faults =>
    simp only [Net.step]
    cases hm : (S.sent l k)[n]? with
    | none => exact h
    | some x =>
      obtain ⟨c, pt, name⟩ := x
      have hre := (h.sent l k _ (List.mem_of_getElem? hm)).1
      simp only at hre ⊢
      have hrec : ((N.duo k l).receiveWith .alice c rand faults (S.world k)).2 = (Call.run (N.env k) ⟨.decrypt (N.address l) c, rand, faults⟩ (S.world k)).2 := by
        unfold Duo.receiveWith
        rw [hre]
        rfl
      rw [hrec]
      have hp := fun got => plain k ⟨.decrypt (N.address l) c, rand, faults⟩ S.sent got (by simp) h.sent
      split
      · exact hp _
      · exact hp _
  | inject k a c rand faults => exact plain k ⟨.decrypt a c, rand, faults⟩ S.sent S.got (by simp) h.sent
  | keys k pk spk =>
    have hw : ∀ i, (upd S.world k { S.world k with preKeys := pk, signedPreKeys := spk } i).sessions = (S.world i).sessions := by
      intro i
      by_cases hi : i = k
      · subst hi; rw [upd_same]
      · rw [upd_ne _ _ hi]
    refine ⟨?_, ?_, h.sent, h.once⟩
    · intro i a r hr
      simp only [Net.step] at hr
      rw [hw] at hr
      exact h.wf i a r hr
    · intro i j r hij hr
      simp only [Net.step] at hr
      rw [hw] at hr
      exact h.pend i j r hij hr

theorem Net.Inv.sees (hadr : ∀ i j, N.address i = N.address j → i = j) (hij : i ≠ j) (h : N.Inv S) (e : NEvent ι) (he : e.Ok N S) :
    N.Sees S (N.step S e) i j (e.between i j) := by
  have far : ∀ {k l : ι}, sideOf i j k l = none → ∀ s, k = pick i j s → some (N.address l) ≠ some (N.address (pick i j s.other)) := by
    intro k l hn s hs ha
    simp only [Option.some.injEq] at ha
    rw [hs, hadr _ _ ha, sideOf_pick hij] at hn
    cases hn
  cases e with
  | start k l b rand faults =>
    obtain ⟨hne, hoff, honce⟩ := he
    cases hs : sideOf i j k l with
    | none =>
      have e : NEvent.between i j (.start k l b rand faults) = none := by simp [NEvent.between, hs]
      rw [e]
      refine .elsewhere hij (k := k) (c := ⟨.bundle (N.address l) b, rand, faults⟩) rfl ?_ rfl rfl (far hs) ?_
      · simp [NSys.between, Net.step, hs]
      · intro s _ b' name _
        obtain ⟨h1, h2⟩ := bundle_preKeys (N.env k) (N.address l) b { S.world k with rand := rand, faults := faults }
        exact ⟨congrFun h1 _, fun id _ => congrFun h2 id⟩
    | some s =>
      have e : NEvent.between i j (.start k l b rand faults) = some (.start s b rand) := by simp [NEvent.between, hs]
      rw [e]
      obtain ⟨rfl, rfl⟩ := sideOf_some hs
      refine .one (.start s b rand faults) ?_ ⟨hoff, ?_⟩ rfl
      · simp only [NSys.between, Net.step, Duo.hstep, List.filterMap_append, List.filterMap_cons, List.filterMap_nil, hs, Option.map_some]
        rw [pick_world hij]
        rfl
      · intro x hx h1
        simp only [NSys.between, List.mem_filterMap, Option.map_eq_some_iff] at hx
        obtain ⟨⟨k', l', b', name⟩, hmem, s', hs', rfl⟩ := hx
        simp only at h1 hs' ⊢
        subst h1
        obtain ⟨rfl, rfl⟩ := sideOf_some hs'
        exact honce _ _ _ hmem
  | send k l pt faults =>
    cases hs : sideOf i j k l with
    | none =>
      have e : NEvent.between i j (.send k l pt faults) = none := by simp [NEvent.between, hs]
      rw [e]
      refine .elsewhere hij (k := k) (c := ⟨.encrypt (N.address l) pt, (S.world k).rand, faults⟩) ?_ ?_ ?_ ?_ (far hs) ?_
      · simp only [Net.step, Call.run]
        split <;> rfl
      · simp only [Net.step]
        split <;> rfl
      · simp only [Net.step]
        split
        · exact pick_upd2_none hij _ hs _
        · rfl
      · simp only [Net.step]
        split <;> rfl
      · intro s _ b' name _
        obtain ⟨h1, h2⟩ := encrypt_preKeys (N.env k) (N.address l) pt { S.world k with faults := faults }
        exact ⟨congrFun h1 _, fun id _ => congrFun h2 id⟩
    | some s =>
      have e : NEvent.between i j (.send k l pt faults) = some (.send s pt) := by simp [NEvent.between, hs]
      rw [e]
      obtain ⟨rfl, rfl⟩ := sideOf_some hs
      refine .one (.send s pt faults) ?_ he.2 rfl
      rw [hstep_send]
      have hE : (N.duo i j).env s = N.env (pick i j s) := rfl
      have hA : (N.duo i j).address s.other = N.address (pick i j s.other) := rfl
      have hW : (S.between i j).world s = S.world (pick i j s) := rfl
      rw [hE, hA, hW]
      simp only [Net.step]
      generalize encryptMessage (N.env (pick i j s)) (N.address (pick i j s.other)) pt { S.world (pick i j s) with faults := faults } = x
      obtain ⟨r, w'⟩ := x
      cases r with
      | ok c =>
        simp only [NSys.between]
        rw [pick_world hij, pick_upd2 hij]
      | err e =>
        simp only [NSys.between]
        rw [pick_world hij]
      | panic =>
        simp only [NSys.between]
        rw [pick_world hij]
  | deliver k l n rand faults =>
    obtain ⟨hne, hfa, hdel⟩ := he
    cases hs : sideOf i j k l with
    | none =>
      have e : NEvent.between i j (.deliver k l n rand faults) = none := by simp [NEvent.between, hs]
      rw [e]
      simp only [Net.step]
      cases hm : (S.sent l k)[n]? with
      | none => exact .nothing rfl
      | some x =>
        obtain ⟨c, pt, name⟩ := x
        obtain ⟨hre, hid⟩ := h.sent l k _ (List.mem_of_getElem? hm)
        simp only at hre hid ⊢
        have hrec : ((N.duo k l).receiveWith .alice c rand faults (S.world k)).2 = (Call.run (N.env k) ⟨.decrypt (N.address l) c, rand, faults⟩ (S.world k)).2 := by
          unfold Duo.receiveWith
          rw [hre]
          rfl
        have keeps : ∀ s, k = pick i j s → ∀ b name, (pick i j s.other, k, b, name) ∈ S.started →
            (Call.run (N.env k) ⟨.decrypt (N.address l) c, rand, faults⟩ (S.world k)).2.signedPreKeys b.signedPreKeyID = (S.world k).signedPreKeys b.signedPreKeyID ∧
            ∀ id, b.preKeyID = some id → (Call.run (N.env k) ⟨.decrypt (N.address l) c, rand, faults⟩ (S.world k)).2.preKeys id = (S.world k).preKeys id := by
          intro s hks b name hmem
          obtain ⟨h1, h2⟩ := decrypt_preKeys (N.env k) (N.address l) c { S.world k with rand := rand, faults := faults }
          refine ⟨congrFun h1 _, fun id hb => ?_⟩
          rcases h2 with h2 | ⟨m, id', rfl, hid', h2⟩
          · exact congrFun h2 id
          · have h2' := congrFun h2 id
            refine Eq.trans h2' (upd_ne _ _ ?_)
            rintro rfl
            obtain ⟨b', name', h3, h4⟩ := hid m id rfl hid'
            have := h.once _ _ _ _ _ _ _ id h3 hmem h4 hb
            rw [hks, this, sideOf_pick hij] at hs
            cases hs
        rw [hrec]
        split
        · exact .elsewhere hij (k := k) (c := ⟨.decrypt (N.address l) c, rand, faults⟩) rfl rfl rfl (pick_upd2_none hij _ hs _) (far hs) keeps
        · exact .elsewhere hij (k := k) (c := ⟨.decrypt (N.address l) c, rand, faults⟩) rfl rfl rfl rfl (far hs) keeps
    | some s =>
      have e : NEvent.between i j (.deliver k l n rand faults) = some (.deliver s n rand) := by simp [NEvent.between, hs]
      rw [e]
      obtain ⟨rfl, rfl⟩ := sideOf_some hs
      refine .one (.deliver s n rand faults) ?_ ⟨hfa, ?_⟩ rfl
      · have hsent : (S.between i j).sent s.other = S.sent (pick i j s.other) (pick i j s) := by cases s <;> rfl
        have hrw : (N.duo (pick i j s) (pick i j s.other)).receiveWith .alice = (N.duo i j).receiveWith s := by cases s <;> rfl
        have htk : (N.duo (pick i j s) (pick i j s.other)).tookIn .alice = (N.duo i j).tookIn s := by cases s <;> rfl
        simp only [Net.step, Duo.hstep, hsent, hrw, htk]
        cases hm : (S.sent (pick i j s.other) (pick i j s))[n]? with
        | none => rfl
        | some x =>
          obtain ⟨c, pt, name⟩ := x
          have hW : (S.between i j).world s = S.world (pick i j s) := rfl
          simp only [hW]
          cases (N.duo i j).tookIn s c rand faults (S.world (pick i j s)) with
          | false =>
            simp only [NSys.between]
            rw [pick_world hij]
          | true =>
            cases c.position with
            | none =>
              simp only [NSys.between]
              rw [pick_world hij]
            | some pos =>
              simp only [NSys.between]
              rw [pick_world hij, pick_upd2 hij]
      · intro c pt name k m hm hp
        have hm' : (S.sent (pick i j s.other) (pick i j s))[n]? = some (c, pt, name) := by
          rw [← hm]
          cases s <;> rfl
        obtain ⟨d1, d2, d3⟩ := hdel c pt name k m hm' hp
        cases s <;> exact ⟨d1, d2, d3⟩
  | inject k a c rand faults =>
    obtain ⟨hin, hout⟩ := he
    by_cases hs : ∃ s, k = pick i j s ∧ a = N.address (pick i j s.other)
    · obtain ⟨s, rfl, rfl⟩ := hs
      refine .one (.inject s c rand faults) ?_ ?_ rfl
      · simp only [NSys.between, Net.step, Duo.hstep]
        rw [pick_world hij]
        rfl
      · have hne : pick i j s.other ≠ pick i j s := by
          intro hp
          have := pick_inj hij hp
          cases s <;> cases this
        obtain ⟨d1, d2, d3⟩ := hin _ hne rfl
        cases s <;> exact ⟨d1, d2, d3⟩
    · refine .elsewhere hij (k := k) (c := ⟨.decrypt a c, rand, faults⟩) rfl rfl rfl rfl ?_ ?_
      · intro s hks ha
        simp only [Op.address, Option.some.injEq] at ha
        exact hs ⟨s, hks, ha⟩
      · intro s hks b name hmem
        obtain ⟨h1, h2⟩ := decrypt_preKeys (N.env k) a c { S.world k with rand := rand, faults := faults }
        refine ⟨congrFun h1 _, fun id hb => ?_⟩
        rcases h2 with h2 | ⟨m, id', rfl, hid', h2⟩
        · exact congrFun h2 id
        · by_cases hl : ∃ l, l ≠ k ∧ a = N.address l
          · obtain ⟨l, hlk, rfl⟩ := hl
            obtain ⟨d1, _, d3⟩ := hin l hlk rfl
            have hf := decrypt_faulty (N.env k) (d3 m rfl) (N.address l) (.preKey m) { S.world k with rand := rand, faults := faults }
            rcases hf.stored with ⟨_, h3, _⟩ | ⟨p, h3, _⟩
            · exact congrFun h3 id
            · exact absurd h3 (d1 p)
          · have h2' := congrFun h2 id
            refine Eq.trans h2' (upd_ne _ _ ?_)
            rintro rfl
            exact hout (fun l h1 h2 => hl ⟨l, h1, h2⟩) m id rfl hid' _ _ _ hmem hb
  | keys k pk spk =>
    by_cases hs : ∃ s, k = pick i j s
    · obtain ⟨s, rfl⟩ := hs
      refine .one (.keys s pk spk) ?_ ?_ rfl
      · simp only [NSys.between, Net.step, Duo.hstep]
        rw [pick_world hij]
      · intro x hx h1 hno
        simp only [NSys.between, List.mem_filterMap, Option.map_eq_some_iff] at hx
        obtain ⟨⟨k', l', b, name⟩, hmem, s', hs', rfl⟩ := hx
        simp only at h1 hs'
        subst h1
        obtain ⟨rfl, rfl⟩ := sideOf_some hs'
        have ho : s.other.other = s := by cases s <;> rfl
        rw [ho] at hmem
        exact he _ b name hmem hno
    · refine .nothing ?_
      simp only [NSys.between, Net.step]
      congr 1
      funext t
      exact upd_ne _ _ fun h => hs ⟨t, h.symm⟩

/-- What happened to one pair in a schedule. -/
theorem Net.Inv.run (hadr : ∀ i j, N.address i = N.address j → i = j) (hij : i ≠ j) (es : List (NEvent ι)) : ∀ {S : NSys ι}, N.Inv S → N.Ok S es →
    ∃ hs : List HEvent, (N.run S es).between i j = (N.duo i j).hrun (S.between i j) hs ∧ (N.duo i j).HOk (S.between i j) hs ∧
      hs.filterMap HEvent.plain = es.filterMap (NEvent.between i j) ∧ hs.length ≤ es.length := by
  induction es with
  | nil => exact fun _ _ => ⟨[], rfl, trivial, rfl, by simp⟩
  | cons e es ih =>
    intro S h hok
    obtain ⟨he, hes⟩ := hok
    obtain ⟨hs1, a1, a2, a3, a4⟩ := h.sees hadr hij e he
    obtain ⟨hs2, b1, b2, b3, b4⟩ := ih (h.step hadr e he) hes
    refine ⟨hs1 ++ hs2, ?_, ?_, ?_, ?_⟩
    · show (N.run (N.step S e) es).between i j = _
      rw [b1, a1]
      simp [Duo.hrun, List.foldl_append]
    · have app : ∀ (l1 l2 : List HEvent) (M : MSys), (N.duo i j).HOk M l1 → (N.duo i j).HOk ((N.duo i j).hrun M l1) l2 → (N.duo i j).HOk M (l1 ++ l2) := by
        intro l1
        induction l1 with
        | nil => exact fun _ _ _ h => h
        | cons x xs ih => exact fun l2 M h1 h2 => ⟨h1.1, ih l2 _ h1.2 h2⟩
      refine app _ _ _ a2 ?_
      rw [← a1]
      exact b2
    · rw [List.filterMap_append, a3, b3, List.filterMap_cons]
      cases e.between i j <;> rfl
    · simp only [List.length_append, List.length_cons]
      omega

theorem Net.NoSessionYet.inv {w : ι → World} (h : N.NoSessionYet w) : N.Inv { world := w } := by
  refine ⟨fun i => (h.before i).WF, ?_, ?_, ?_⟩
  · intro i j r hij hr
    have := (h.pair i j hij).new .alice
    rw [show (w i).sessions (N.address j) = none from this] at hr
    cases hr
  · intro i j p hp
    simp at hp
  · intro k k' l b b' name name' id h1
    simp at h1

end

end Verif
