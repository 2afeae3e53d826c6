import Verif.Proofs.Trouble2
import Verif.Props.Stores

/-!
Every step of a schedule with trouble is, for the sessions of the two users, a step without trouble or none.
-/

namespace Verif

variable {d : Duo} {ident : Side → PubKey} {G : List PubKey} {F F' : List Bytes} {N N' : Nat} {S S' : MSys} {Ts : List Talk}

/-- The schedule without trouble that has led to the same sessions: it knows of more messages (those that were lost in a failing call)
and of fewer sessions (those that failed to start). -/
structure Shadow (S S' : MSys) : Prop where
  world : S'.world = S.world
  got : S'.got = S.got
  sent : ∀ s, ∀ p ∈ S.sent s, p ∈ S'.sent s
  started : ∀ x ∈ S'.started, x ∈ S.started

theorem Shadow.gotIn (h : Shadow S S') (s : Side) (name : Bytes) : S'.gotIn s name = S.gotIn s name := by
  simp only [MSys.gotIn, h.got]

theorem Shadow.delivery (h : Shadow S S') {s : Side} {c : Ciphertext} {name : Bytes} {k : PubKey} {n : UInt32} {rand : Bytes}
    (hd : S.DeliveryOk d s c name k n rand) : S'.DeliveryOk d s c name k n rand := by
  obtain ⟨h1, h2, h3⟩ := hd
  refine ⟨?_, ?_, ?_⟩
  · rw [h.gotIn, h.world]; exact h1
  · rw [h.world]; exact h2
  · rw [h.world]; exact h3

theorem receiveWith_nil (d : Duo) (s : Side) (c : Ciphertext) (rand : Bytes) (w : World) : d.receiveWith s c rand [] w = d.receive s c rand w := rfl

/-- A message that one side has sent carries that side's identity key. -/
theorem MInv.honest (h : MInv d ident G F N S Ts) {s : Side} {c : Ciphertext} {pt name : Bytes} (hmem : (c, pt, name) ∈ S.sent s.other) :
    c.reparse = .ok c ∧ (∃ pos, c.position = some pos) ∧ ∀ m, c = .preKey m → m.identityKey = ident s.other := by
  obtain ⟨T, hT, hn⟩ := h.tags _ _ hmem
  simp only at hn
  subst hn
  have hI := h.each T hT
  have hmem' : (c, pt) ∈ (S.proj T).sent (T.x.as s).other := by
    simp only [MSys.proj, Side.as_other, Side.as_as]
    exact mem_sentIn hmem
  obtain ⟨m, e, t, n, ht⟩ := Inv.target hI hmem'
  refine ⟨ht.parses, ⟨_, ht.position⟩, ?_⟩
  intro pm hpm
  rcases ht.how with ⟨_, hc⟩ | ⟨hb, pm', hc, _, _, _, hid, _⟩
  · rw [hpm] at hc; cases hc
  · rw [hpm] at hc
    simp only [Ciphertext.preKey.injEq] at hc
    subst hc
    rw [hid]
    congr 1
    have hs : s = T.x.other := by rw [← Side.as_bob, ← hb, Side.as_as]
    rw [Side.as_alice, hs, Side.other_other]

/-- A delivery with a copying store, when store calls may fail. -/
theorem MInv.delivered_faulty (htr : d.Trusting ident) {s : Side} {i : Nat} {rand : Bytes} {faults : List Fault}
    (hnone : none ∉ ((MEvent.deliver s i rand).pool ++ F').map (publicKeyOf d.C))
    (hnd : (((MEvent.deliver s i rand).pool ++ F').map (publicKeyOf d.C)).Nodup)
    (h : MInv d ident G ((MEvent.deliver s i rand).pool ++ F') N S Ts) (hlen : Ts.length ≤ 41) {c : Ciphertext} {pt name : Bytes}
    (hi : (S.sent s.other)[i]? = some (c, pt, name)) (hok : ∀ k n, c.position = some (k, n) → S.DeliveryOk d s c name k n rand)
    (hal : d.aliased s = false) :
    (∀ p, (d.receiveWith s c rand faults (S.world s)).1 = .ok (some p) → p = pt) ∧
    ∃ Ts', MInv d ident G F' (N + 1) (match d.tookIn s c rand faults (S.world s), c.position with
        | true, some pos => { S with world := upd S.world s (d.receiveWith s c rand faults (S.world s)).2, got := upd S.got s (S.got s ++ [(name, pos)]) }
        | _, _ => { S with world := upd S.world s (d.receiveWith s c rand faults (S.world s)).2 }) Ts' ∧ Ts'.length = Ts.length := by
  have hFr : Less d.C F' ((MEvent.deliver s i rand).pool ++ F') := .right hnd
  have hmem := List.mem_of_getElem? hi
  obtain ⟨hpar, ⟨pos, hpos⟩, hid⟩ := h.honest hmem
  have hev : MEvent.Ok d S (.deliver s i rand) := by
    intro c' pt' name' k n hi' hp
    rw [hi] at hi'
    simp only [Option.some.injEq, Prod.mk.injEq] at hi'
    obtain ⟨rfl, rfl, rfl⟩ := hi'
    exact hok k n hp
  obtain ⟨⟨Ts', hI', hl'⟩, hread⟩ := h.delivered htr hnone hnd hlen hev
  have hread := (hread c pt name hi).1
  -- the two calls
  obtain ⟨w, hw⟩ : ∃ w : World, w = { S.world s with rand := rand, faults := faults } := ⟨_, rfl⟩
  have hx : d.receiveWith s c rand faults (S.world s) = decryptMessage (d.env s) (d.address s.other) c w := by
    simp only [Duo.receiveWith, hpar, hw]
  have hy : d.receive s c rand (S.world s) = decryptMessage (d.env s) (d.address s.other) c w.calm := by
    simp only [Duo.receive, hpar, hw]
    rfl
  have hf := decrypt_faulty (d.env s) hal (d.address s.other) c w
  have hf0 := decrypt_faulty (d.env s) hal (d.address s.other) c w.calm
  have hkn := h.known_decrypt c (fun m hm _ => hid m hm) rand faults
  rw [← hw] at hkn
  rw [← hx, ← hy] at hf
  rw [← hy] at hf0
  rw [← hx] at hkn
  simp only at hkn
  have hws : w.sessions = (S.world s).sessions ∧ w.identity = (S.world s).identity ∧ w.signedPreKeys = (S.world s).signedPreKeys ∧ w.preKeys = (S.world s).preKeys := by
    rw [hw]; exact ⟨rfl, rfl, rfl, rfl⟩
  refine ⟨?_, ?_⟩
  · intro p hp
    rcases hf.stored with ⟨_, _, hno⟩ | ⟨q, hq, _, _, hpq⟩
    · exact absurd hp (hno p)
    · rw [hpq p hp]
      exact (hread q hq).1
  have hknown : ∀ u, (upd S.world s (d.receiveWith s c rand faults (S.world s)).2 u).known (d.address u.other) = none ∨
      (upd S.world s (d.receiveWith s c rand faults (S.world s)).2 u).known (d.address u.other) = some (ident u.other) := by
    intro u
    by_cases hu : u = s
    · subst hu; rw [upd_same]; exact hkn
    · rw [upd_ne _ _ hu]; exact h.known u
  cases htk : d.tookIn s c rand faults (S.world s) with
  | false =>
    refine ⟨Ts, ?_, rfl⟩
    simp only
    have hno : (d.receiveWith s c rand faults (S.world s)).2.sessions = w.sessions ∧ (d.receiveWith s c rand faults (S.world s)).2.preKeys = w.preKeys := by
      rcases hf.stored with ⟨a1, a2, _⟩ | ⟨q, hq, hse, _, _⟩
      · exact ⟨a1, a2⟩
      · exfalso
        simp only [Duo.tookIn, hq, hse, decide_true, Bool.and_self, Bool.true_eq_false] at htk
    refine h.idle rfl rfl rfl hknown ?_ hFr (Nat.le_succ _)
    intro u
    by_cases hu : u = s
    · subst hu
      simp only [upd_same]
      exact ⟨by rw [hno.1, hws.1], by rw [hf.identity, hws.2.1], by rw [hf.signed, hws.2.2.1], by rw [hno.2, hws.2.2.2]⟩
    · simp only [upd_ne _ _ hu, and_self]
  | true =>
    have htk0 := htk
    unfold Duo.tookIn at htk
    rw [Bool.and_eq_true, decide_eq_true_eq] at htk
    obtain ⟨htk1, hsess⟩ := htk
    obtain ⟨q, hq⟩ : ∃ q, (d.receive s c rand (S.world s)).1 = .ok (some q) := by
      split at htk1
      · exact ⟨_, by assumption⟩
      · simp at htk1
    have hstep : d.mstep S (.deliver s i rand) = { S with world := upd S.world s (d.receive s c rand (S.world s)).2, got := upd S.got s (S.got s ++ [(name, pos)]) } := by
      simp only [Duo.mstep, hi]
      rw [show d.receive s c rand (S.world s) = ((d.receive s c rand (S.world s)).1, (d.receive s c rand (S.world s)).2) from rfl, hq, hpos]
    have hst0 : (d.mstep S (.deliver s i rand)).started = S.started := mstep_deliver_started ..
    refine ⟨Ts', ?_, hl'⟩
    simp only [hpos]
    refine hI'.frame (by rw [hst0]) (by rw [hstep]) (by rw [hstep]) hknown ?_ ?_ (.refl hFr.2) (Nat.le_refl _)
    · intro u
      by_cases hu : u = s
      · subst hu
        rw [hstep]
        simp only [upd_same]
        exact ⟨hsess, by rw [hf.identity, hf0.identity]; rfl⟩
      · rw [hstep]; simp only [upd_ne _ _ hu, and_self]
    · intro U hU hUn
      rw [hstep]
      by_cases hu : U.x.other = s
      · simp only [hu, upd_same]
        refine ⟨by rw [hf.signed, hf0.signed]; rfl, ?_⟩
        intro id hidU
        have hpk : (d.receiveWith s c rand faults (S.world s)).2.preKeys = w.preKeys ∨
            (d.receiveWith s c rand faults (S.world s)).2.preKeys = (d.receive s c rand (S.world s)).2.preKeys := by
          rcases hf.stored with ⟨_, a2, _⟩ | ⟨_, _, _, a2, _⟩
          · exact .inl a2
          · exact a2
        rcases hpk with hpk | hpk
        · rw [hpk, hws.2.2.2]
          -- the session has not arrived, so it is another one-time pre-key that is gone
          obtain ⟨T, hT, hn⟩ := h.tags _ _ hmem
          simp only at hn
          have hrand : 32 * 41 ≤ rand.length := by
            obtain ⟨_, _, _, hl, _⟩ := publicKeyOf_some (C := d.C) (rd := rand.drop (32 * 40)) (fun hx => hnone (by
              rw [← hx]
              exact List.mem_map_of_mem (List.mem_append_left _ (pool_drop s i rand (by omega)))))
            rw [List.length_drop] at hl
            omega
          subst hn
          obtain ⟨m, e, t, n, j, ht, hj, hname, hdel⟩ := h.attempt htr hlen hT hmem hrand
            (fun j hj => List.mem_append_left _ (pool_drop s i rand hj)) hok
          rcases hdel with ⟨p, t', rd1, W, rec', l', hd, hr, w1, w2, w3, w4, w5, w6, r1, r2, r3⟩ | ⟨_, r, W, hr, w0, _⟩
          · rw [hr]
            simp only
            rcases w3 with w3 | ⟨hb, w3⟩
            · rw [w3]
            · rw [w3]
              have hTx : T.x.other = s := by rw [← Side.as_bob, ← hb, Side.as_as]
              have hUx : U.x = T.x := by rw [← U.x.other_other, hu, ← hTx, Side.other_other]
              obtain ⟨T1, hT1, hT1e⟩ : ∃ T1 ∈ Ts', (T1.x, T1.b, T1.name) = (T.x, T.b, T.name) := by
                have : (T.x, T.b, T.name) ∈ S.started := by rw [h.list]; exact List.mem_map_of_mem hT
                rw [← hst0, hI'.list, List.mem_map] at this
                exact this
              simp only [Prod.mk.injEq] at hT1e
              have hUT : U.name ≠ T1.name := by
                intro hUT
                have hln := (hI'.link U hU .bob t').mpr ⟨rec', ?_, ((r3 t').mp rfl).1, by rw [((r3 t').mp rfl).2, hUT, hT1e.2.2]⟩
                · rw [hUn] at hln; cases hln
                · rw [Side.as_bob, hu, hstep, hr]
                  simp only [upd_same]
                  exact w5
              unfold dropPreKey
              cases hb : T.b.preKeyID with
              | none => rfl
              | some i =>
                simp only
                refine (upd_ne _ _ ?_).symm
                rintro rfl
                exact hI'.once U hU T1 hT1 hUT (by rw [hUx, hT1e.1]) id hidU (by rw [hT1e.2.1, hb])
          · rw [hr] at hq
            exact absurd hq (w0 q)
        · rw [hpk]
      · simp only [upd_ne _ _ hu, true_and]
        exact fun _ _ => trivial

/-- The keys of a step that did nothing are not used. -/
theorem Ahead.drop {e : MEvent} {es : List MEvent} (h : Ahead d G Ts (e :: es)) : Ahead d G Ts es := by
  obtain ⟨h1, h2, h3, h4, h5⟩ := h
  simp only [List.flatMap_cons, List.map_append, List.mem_append, not_or, List.nodup_append] at h1 h2
  have hsub : ∀ x ∈ es.filterMap MEvent.opens, x ∈ (e :: es).filterMap MEvent.opens := by
    intro x hx
    rw [List.filterMap_cons]
    split
    · exact hx
    · exact List.mem_cons_of_mem _ hx
  refine ⟨h1.2, h2.2.1, fun x hx => h3 x (hsub x hx), ?_, fun x hx => h5 x (hsub x hx)⟩
  rw [List.filterMap_cons] at h4
  split at h4
  · exact h4
  · rw [List.map_cons, List.nodup_cons] at h4; exact h4.2

theorem Ahead.names_eq {es : List MEvent} (h : Ahead d G Ts es) {Ts' : List Talk} (hn : Ts'.map Talk.name = Ts.map Talk.name) : Ahead d G Ts' es := by
  refine ⟨h.made, h.nodup, h.signed, h.base, ?_⟩
  intro x hx k hk T hT
  have : T.name ∈ Ts.map Talk.name := by rw [← hn]; exact List.mem_map_of_mem hT
  rw [List.mem_map] at this
  obtain ⟨U, hU, he⟩ := this
  rw [← he]
  exact h.names x hx k hk U hU

theorem hstep_send (d : Duo) (S : MSys) (s : Side) (pt : Bytes) (faults : List Fault) : d.hstep S (.send s pt faults) =
    (match (encryptMessage (d.env s) (d.address s.other) pt { S.world s with faults := faults }).1 with
      | .ok c => { S with world := upd S.world s (encryptMessage (d.env s) (d.address s.other) pt { S.world s with faults := faults }).2, sent := upd S.sent s (S.sent s ++ [(c, pt, (S.world s).talksIn (d.address s.other))]) }
      | _ => { S with world := upd S.world s (encryptMessage (d.env s) (d.address s.other) pt { S.world s with faults := faults }).2 }) := rfl

/-- One step. -/
theorem MInv.hstep (htr : d.Trusting ident) {e : HEvent} {es : List MEvent}
    (h : MInv d ident G ((e.plain.toList ++ es).flatMap MEvent.pool) N S' Ts) (ha : Ahead d G Ts (e.plain.toList ++ es)) (hsh : Shadow S S')
    (hok : e.Ok d S) (hN : N < 4294967296) (hl : Ts.length + (e.plain.toList.filterMap MEvent.opens).length ≤ 41) :
    ∃ S1 Ts1, MInv d ident G (es.flatMap MEvent.pool) (N + 1) S1 Ts1 ∧ Ahead d G Ts1 es ∧ Shadow (d.hstep S e) S1 ∧
      Ts1.length ≤ Ts.length + (e.plain.toList.filterMap MEvent.opens).length := by
  have hworld : ∀ s, S'.world s = S.world s := fun s => by rw [hsh.world]
  have hnone := ha.made
  have hnd := ha.nodup
  rw [List.flatMap_append] at h hnone hnd
  have hFr : Less d.C (es.flatMap MEvent.pool) (e.plain.toList.flatMap MEvent.pool ++ es.flatMap MEvent.pool) := .right hnd
  cases e with
  | start s b rand faults =>
    simp only [HEvent.plain, Option.toList_some, List.flatMap_cons, List.flatMap_nil, List.append_nil, List.singleton_append] at h ha hnone hnd hl hFr ⊢
    have hl1 : (List.filterMap MEvent.opens [.start s b rand]).length = 1 := by simp [MEvent.opens]
    rw [hl1] at hl ⊢
    obtain ⟨hoff, honce⟩ := hok
    have hev : MEvent.Ok d S' (.start s b rand) := ⟨by rw [hworld]; exact hoff, fun x hx => honce x (hsh.started x hx)⟩
    obtain ⟨hrun, T, t1, t2, t3⟩ := h.starts htr hnone hnd (by omega) hev (ha.signed (rand, b.signedPreKeyPublic) (by simp [MEvent.opens]))
      (ha.names (rand, b.signedPreKeyPublic) (by simp [MEvent.opens]))
    have hf := bundle_faulty (d.env s) (d.address s.other) b { S.world s with rand := rand, faults := faults }
    have hf0 := bundle_faulty (d.env s) (d.address s.other) b { S.world s with rand := rand, faults := [] }
    have hcalm : ({ S.world s with rand := rand, faults := faults } : World).calm = { S.world s with rand := rand, faults := [] } := rfl
    rw [hcalm] at hf
    simp only at hf hf0
    obtain ⟨f1, f2, f3, f4, f5⟩ := hf
    obtain ⟨g1, g2, g3, _⟩ := hf0
    rw [hworld] at hrun
    have hidk : b.identityKey = ident s.other := by rw [hoff.identity.1, ← hworld, (h.ids s.other).1]
    have hname : ((publicKeyOf d.C rand).map fun k => k.bytes).getD [] = T.name := by rw [t1]; rfl
    generalize hW : (processPreKeyBundle (d.env s) (d.address s.other) b { S.world s with rand := rand, faults := faults }).2 = W at f1 f2 f3 f4 f5
    have hstep : d.hstep S (.start s b rand faults) = { S with world := upd S.world s W, started := S.started ++ [(s, b, T.name)] } := by
      simp only [Duo.hstep, hW, hname]
    rw [hstep]
    have hknown : ∀ u, (upd S.world s W u).known (d.address u.other) = none ∨ (upd S.world s W u).known (d.address u.other) = some (ident u.other) := by
      intro u
      by_cases hu : u = s
      · subst hu
        rw [upd_same]
        rcases f4 with f4 | f4
        · rw [f4, ← hworld]; exact h.known u
        · rw [f4, upd_same, hidk]; exact .inr rfl
      · rw [upd_ne _ _ hu, ← hworld]; exact h.known u
    rcases f5 with f5 | ⟨_, f5⟩
    · -- nothing was stored
      refine ⟨{ S' with world := upd S.world s W }, Ts, ?_, ha.drop, ⟨rfl, hsh.got, hsh.sent, ?_⟩, by omega⟩
      · refine h.idle rfl rfl rfl hknown ?_ hFr (Nat.le_succ _)
        intro u
        rw [hworld u]
        by_cases hu : u = s
        · subst hu
          simp only [upd_same]
          exact ⟨by rw [f5], f1, f2, f3⟩
        · simp only [upd_ne _ _ hu, and_self]
      · intro x hx
        exact List.mem_append_left _ (hsh.started x hx)
    · have hst : d.mstep S' (.start s b rand) = { S' with world := upd S'.world s (processPreKeyBundle (d.env s) (d.address s.other) b { S.world s with rand := rand, faults := [] }).2, started := S'.started ++ [(s, b, T.name)] } := by
        rw [← t3]
        simp only [Duo.mstep, hworld]
        rw [show processPreKeyBundle (d.env s) (d.address s.other) b { S.world s with rand := rand, faults := [] } = ((processPreKeyBundle (d.env s) (d.address s.other) b { S.world s with rand := rand, faults := [] }).1, (processPreKeyBundle (d.env s) (d.address s.other) b { S.world s with rand := rand, faults := [] }).2) from rfl, hrun]
        simp only [upd_same]
      refine ⟨{ (d.mstep S' (.start s b rand)) with world := upd S.world s W }, Ts ++ [T], ?_, ha.started t1, ⟨rfl, ?_, ?_, ?_⟩, by simp⟩
      · rw [hst] at t2 ⊢
        refine t2.frame rfl rfl rfl hknown ?_ ?_ (.refl hFr.2) (Nat.le_refl _)
        · intro u
          by_cases hu : u = s
          · subst hu
            simp only [upd_same]
            exact ⟨by rw [f5], by rw [f1, g1]⟩
          · simp only [upd_ne _ _ hu, hworld, and_self]
        · intro U _ _
          by_cases hu : U.x.other = s
          · simp only [hu, upd_same]
            exact ⟨by rw [f2, g2], fun _ _ => by rw [f3, g3]⟩
          · simp only [upd_ne _ _ hu, hworld, true_and]
            exact fun _ _ => trivial
      · rw [hst]; exact hsh.got
      · rw [hst]; exact hsh.sent
      · rw [hst]
        intro x hx
        rw [List.mem_append] at hx ⊢
        rcases hx with hx | hx
        · exact .inl (hsh.started x hx)
        · exact .inr hx
  | send s pt faults =>
    simp only [HEvent.plain, Option.toList_some, List.flatMap_cons, List.flatMap_nil, List.append_nil, List.singleton_append, MEvent.pool, List.nil_append] at h ha hnone hnd hl hFr ⊢
    have hl1 : (List.filterMap MEvent.opens [.send s pt]).length = 0 := by simp [MEvent.opens]
    rw [hl1] at hl ⊢
    cases hr : (S.world s).sessions (d.address s.other) with
    | none =>
      obtain ⟨fs, e1, e2⟩ := encrypt_without (E := d.env s) (pt := pt) (w := { S.world s with faults := faults }) hr
      have hstep : d.hstep S (.send s pt faults) = { S with world := upd S.world s { S.world s with faults := fs } } := by
        rw [hstep_send, e1]
        split
        · rename_i heq
          exact absurd heq (e2 _)
        · rfl
      rw [hstep]
      refine ⟨{ S' with world := upd S.world s { S.world s with faults := fs } }, Ts, ?_, ha.drop, ⟨rfl, hsh.got, hsh.sent, hsh.started⟩, by omega⟩
      refine h.idle rfl rfl rfl ?_ ?_ hFr (Nat.le_succ _)
      · intro u
        rw [← hworld]
        by_cases hu : u = s
        · subst hu; simp only [upd_same]; exact h.known u
        · simp only [upd_ne _ _ hu, ← hworld]; exact h.known u
      · intro u
        rw [hworld u]
        by_cases hu : u = s
        · subst hu; simp only [upd_same, and_self]
        · simp only [upd_ne _ _ hu, and_self]
    | some rec =>
      rw [← hworld] at hr
      obtain ⟨T, hT, t, t', out, a1, a2, a3, a4, a5, a6⟩ := h.sending htr s hr pt
      obtain ⟨Ts1, t1, t2⟩ := h.sends htr hnd s hok hN
      rw [hworld] at a6 hr
      have hf := encrypt_faulty (E := d.env s) (a := d.address s.other) (pt := pt) (w := { S.world s with faults := faults }) hr a1 a4
      simp only at hf
      obtain ⟨f1, f2, f3, f4, f5⟩ := hf
      have hst : d.mstep S' (.send s pt) = { S' with world := upd S'.world s { S.world s with sessions := upd (S.world s).sessions (d.address s.other) (some (rec.setSessionState t')), known := upd (S.world s).known (d.address s.other) (some (ident s.other)), faults := [] }, sent := upd S'.sent s (S'.sent s ++ [(out, pt, (S.world s).talksIn (d.address s.other))]) } := by
        simp only [Duo.mstep, hworld, a6]
      have hkn : (encryptMessage (d.env s) (d.address s.other) pt { S.world s with faults := faults }).2.known (d.address s.other) = none ∨
          (encryptMessage (d.env s) (d.address s.other) pt { S.world s with faults := faults }).2.known (d.address s.other) = some (ident s.other) := by
        rcases f4 with f4 | f4
        · rw [f4, ← hworld]; exact h.known s
        · rw [f4, upd_same]; exact .inr rfl
      rw [hstep_send]
      generalize encryptMessage (d.env s) (d.address s.other) pt { S.world s with faults := faults } = x at f1 f2 f3 f5 hkn ⊢
      obtain ⟨r, W⟩ := x
      simp only at f1 f2 f3 f5 hkn ⊢
      have hknown : ∀ u, (upd S.world s W u).known (d.address u.other) = none ∨ (upd S.world s W u).known (d.address u.other) = some (ident u.other) := by
        intro u
        by_cases hu : u = s
        · subst hu; rw [upd_same]; exact hkn
        · rw [upd_ne _ _ hu, ← hworld]; exact h.known u
      rcases f5 with ⟨f5, hno⟩ | ⟨f5, hc⟩
      · refine ⟨{ S' with world := upd S.world s W }, Ts, ?_, ha.drop, ?_, by omega⟩
        · refine h.idle rfl rfl rfl hknown ?_ hFr (Nat.le_succ _)
          intro u
          rw [hworld u]
          by_cases hu : u = s
          · subst hu
            simp only [upd_same]
            exact ⟨by rw [f5], f1, f2, f3⟩
          · simp only [upd_ne _ _ hu, and_self]
        · split
          · exact absurd rfl (hno _)
          · exact ⟨rfl, hsh.got, hsh.sent, hsh.started⟩
      · refine ⟨{ (d.mstep S' (.send s pt)) with world := upd S.world s W }, Ts1, ?_, ha.tail rfl (h.names_eq t1 (mstep_send_started ..)), ?_, by omega⟩
        · rw [hst] at t1 ⊢
          refine t1.frame rfl rfl rfl hknown ?_ ?_ (.refl hnd) (Nat.le_refl _)
          · intro u
            by_cases hu : u = s
            · subst hu
              simp only [upd_same]
              exact ⟨by rw [f5, upd_same], f1⟩
            · simp only [upd_ne _ _ hu, hworld, and_self]
          · intro U _ _
            by_cases hu : U.x.other = s
            · simp only [hu, upd_same]
              exact ⟨by rw [f2], fun _ _ => by rw [f3]⟩
            · simp only [upd_ne _ _ hu, hworld, true_and]
              exact fun _ _ => trivial
        · rw [hst]
          split
          · rename_i c
            obtain rfl := hc c rfl
            refine ⟨rfl, hsh.got, ?_, hsh.started⟩
            intro u p hp
            by_cases hu : u = s
            · subst hu
              simp only [upd_same, List.mem_append] at hp ⊢
              rcases hp with hp | hp
              · exact .inl (hsh.sent u p hp)
              · exact .inr hp
            · simp only [upd_ne _ _ hu] at hp ⊢
              exact hsh.sent u p hp
          · refine ⟨rfl, hsh.got, ?_, hsh.started⟩
            intro u p hp
            by_cases hu : u = s
            · subst hu
              simp only [upd_same, List.mem_append]
              exact .inl (hsh.sent u p hp)
            · simp only [upd_ne _ _ hu]
              exact hsh.sent u p hp
  | deliver s i rand faults =>
    simp only [HEvent.plain, Option.toList_some, List.flatMap_cons, List.flatMap_nil, List.append_nil, List.singleton_append] at h ha hnone hnd hl hFr ⊢
    have hl1 : (List.filterMap MEvent.opens [.deliver s i rand]).length = 0 := by simp [MEvent.opens]
    rw [hl1] at hl ⊢
    obtain ⟨hfa, hdok⟩ := hok
    cases hi : (S.sent s.other)[i]? with
    | none =>
      have hstep : d.hstep S (.deliver s i rand faults) = S := by simp only [Duo.hstep, hi]
      rw [hstep]
      exact ⟨S', Ts, h.idle rfl rfl rfl h.known (fun _ => ⟨rfl, rfl, rfl, rfl⟩) hFr (Nat.le_succ _), ha.drop, hsh, by omega⟩
    | some cp =>
      obtain ⟨c, pt, name⟩ := cp
      obtain ⟨i', hi'⟩ := List.getElem?_of_mem (hsh.sent _ _ (List.mem_of_getElem? hi))
      have hok' : ∀ k n, c.position = some (k, n) → S'.DeliveryOk d s c name k n rand := fun k n hp => hsh.delivery (hdok c pt name k n hi hp)
      have hpool : (MEvent.deliver s i rand).pool = (MEvent.deliver s i' rand).pool := rfl
      rw [hpool] at h hnone hnd
      rcases hfa with rfl | hal
      · have hev : MEvent.Ok d S' (.deliver s i' rand) := by
          intro c' pt' name' k n hj hp
          rw [hi'] at hj
          simp only [Option.some.injEq, Prod.mk.injEq] at hj
          obtain ⟨rfl, rfl, rfl⟩ := hj
          exact hok' k n hp
        obtain ⟨⟨Ts1, t1, t2⟩, _⟩ := h.delivered htr hnone hnd (by omega) hev
        refine ⟨_, Ts1, t1, ha.drop.names_eq (h.names_eq t1 (mstep_deliver_started ..)), ?_, by omega⟩
        obtain ⟨_, ⟨pos, hpos⟩, _⟩ := h.honest (List.mem_of_getElem? hi')
        simp only [Duo.hstep, Duo.mstep, hi, hi', receiveWith_nil, Duo.tookIn, decide_true, Bool.and_true, hworld, hpos]
        generalize d.receive s c rand (S.world s) = x
        obtain ⟨r, W⟩ := x
        rcases r with (_ | q) | e | _
        · exact ⟨by simp only [hsh.world], hsh.got, hsh.sent, hsh.started⟩
        · exact ⟨by simp only [hsh.world], by simp only [hsh.got], hsh.sent, hsh.started⟩
        · exact ⟨by simp only [hsh.world], hsh.got, hsh.sent, hsh.started⟩
        · exact ⟨by simp only [hsh.world], hsh.got, hsh.sent, hsh.started⟩
      · obtain ⟨_, Ts1, t1, t2⟩ := h.delivered_faulty htr hnone hnd (by omega) hi' hok' hal (faults := faults)
        have hs1 : (d.hstep S (.deliver s i rand faults)) = (match d.tookIn s c rand faults (S.world s), c.position with
            | true, some pos => { S with world := upd S.world s (d.receiveWith s c rand faults (S.world s)).2, got := upd S.got s (S.got s ++ [(name, pos)]) }
            | _, _ => { S with world := upd S.world s (d.receiveWith s c rand faults (S.world s)).2 }) := by
          simp only [Duo.hstep, hi]
          cases d.tookIn s c rand faults (S.world s) <;> cases c.position <;> rfl
        rw [hs1]
        refine ⟨_, Ts1, t1, ha.drop.names_eq (h.names_eq t1 ?_), ?_, by omega⟩
        · split <;> rfl
        · rw [hworld]
          split
          · exact ⟨by simp only [hsh.world], by simp only [hsh.got], hsh.sent, hsh.started⟩
          · exact ⟨by simp only [hsh.world], hsh.got, hsh.sent, hsh.started⟩
  | inject s c rand faults =>
    simp only [HEvent.plain, Option.toList_none, List.flatMap_nil, List.nil_append] at h ha hnone hnd hl hFr ⊢
    have hinj : S'.InjectionOk d s c rand := by
      obtain ⟨a1, a2, a3⟩ := hok
      exact ⟨by rw [hsh.world]; exact a1, by rw [hsh.world]; exact a2, a3⟩
    refine ⟨_, Ts, h.injected htr hnd hinj faults, ha, ?_, by simp⟩
    exact ⟨by simp only [hsh.world]; rfl, hsh.got, hsh.sent, hsh.started⟩
  | call s c =>
    simp only [HEvent.plain, Option.toList_none, List.flatMap_nil, List.nil_append] at h ha hnone hnd hl hFr ⊢
    obtain ⟨hadr, hkeep⟩ := hok
    obtain ⟨i1, i2⟩ := C17_operations_are_isolated (d.env s) (S.world s) c _ hadr
    have hkeep' : S'.Keeps d s (c.run (d.env s) (S.world s)).2 := by
      intro x hx hs hhas
      rw [hworld]
      refine hkeep x (hsh.started x hx) hs ?_
      unfold MSys.Has at hhas ⊢
      rwa [hworld] at hhas
    refine ⟨_, Ts, h.elsewhere hnd (s := s) (W := (c.run (d.env s) (S.world s)).2) ?_ ?_ ?_ hkeep', ha, ?_, by simp⟩
    · rw [hworld]; exact i1
    · rw [hworld]; exact i2
    · rw [hworld]; exact call_identity ..
    · exact ⟨by simp only [hsh.world]; rfl, hsh.got, hsh.sent, hsh.started⟩
  | keys s pk sk =>
    simp only [HEvent.plain, Option.toList_none, List.flatMap_nil, List.nil_append] at h ha hnone hnd hl hFr ⊢
    have hkeep' : S'.Keeps d s { S.world s with preKeys := pk, signedPreKeys := sk } := by
      intro x hx hs hhas
      rw [hworld]
      refine hok x (hsh.started x hx) hs ?_
      unfold MSys.Has at hhas ⊢
      rwa [hworld] at hhas
    refine ⟨_, Ts, h.elsewhere hnd (s := s) (W := { S.world s with preKeys := pk, signedPreKeys := sk }) ?_ ?_ ?_ hkeep', ha, ?_, by simp⟩
    · rw [hworld]
    · rw [hworld]
    · rw [hworld]
    · exact ⟨by simp only [hsh.world]; rfl, hsh.got, hsh.sent, hsh.started⟩

theorem filterMap_plain (e : HEvent) (es : List HEvent) : (e :: es).filterMap HEvent.plain = e.plain.toList ++ es.filterMap HEvent.plain := by
  rw [List.filterMap_cons]
  cases e.plain <;> rfl

/-- Whole schedules. -/
theorem MInv.hrun (htr : d.Trusting ident) (es' : List MEvent) : ∀ (es : List HEvent) {N : Nat} {S S' : MSys} {Ts : List Talk},
    MInv d ident G ((es.filterMap HEvent.plain ++ es').flatMap MEvent.pool) N S' Ts → Ahead d G Ts (es.filterMap HEvent.plain ++ es') → Shadow S S' →
    d.HOk S es → N + es.length < 4294967297 → Ts.length + ((es.filterMap HEvent.plain).filterMap MEvent.opens).length ≤ 41 →
    ∃ S1 Ts1, MInv d ident G (es'.flatMap MEvent.pool) (N + es.length) S1 Ts1 ∧ Ahead d G Ts1 es' ∧ Shadow (d.hrun S es) S1 ∧
      Ts1.length ≤ Ts.length + ((es.filterMap HEvent.plain).filterMap MEvent.opens).length
  | [], N, S, S', Ts, h, ha, hsh, _, _, hl => ⟨S', Ts, h, ha, hsh, by simp⟩
  | e :: es, N, S, S', Ts, h, ha, hsh, hok, hN, hl => by
    rw [filterMap_plain, List.append_assoc] at h ha
    rw [filterMap_plain, List.filterMap_append, List.length_append] at hl ⊢
    rw [List.length_cons] at hN
    obtain ⟨S1, Ts1, a1, a2, a3, a4⟩ := h.hstep htr ha hsh hok.1 (by omega) (by omega)
    obtain ⟨S2, Ts2, b1, b2, b3, b4⟩ := MInv.hrun htr es' es a1 a2 a3 hok.2 (by omega) (by omega)
    refine ⟨S2, Ts2, ?_, b2, b3, by omega⟩
    rw [List.length_cons, show N + (es.length + 1) = N + 1 + es.length by omega]
    exact b1

end Verif
