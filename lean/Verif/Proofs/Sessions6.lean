import Verif.Proofs.Sessions5

/-!
Deliveries and new sessions keep the invariant.
-/

namespace Verif

attribute [local irreducible] maxMessageKeys

variable {d : Duo} {ident : Side → PubKey} {b : Bundle} {base : PubKey} {o : Opening} {G : List PubKey} {F F' : List Bytes} {N N' : Nat} {L : Nat → Rung}
  {lev cnt : Side → Nat} {st : Side → Option SState}

theorem pool_drop (s : Side) (i : Nat) (rand : Bytes) {j : Nat} (hj : j < 41) : rand.drop (32 * j) ∈ (MEvent.deliver s i rand).pool := by
  simp only [MEvent.pool, List.mem_map, List.mem_range]
  exact ⟨j, hj, rfl⟩

theorem Less.right {C : Crypto} {P : List Bytes} (h : ((P ++ F').map (publicKeyOf C)).Nodup) : Less C F' (P ++ F') := by
  rw [List.map_append, List.nodup_append] at h
  exact ⟨fun x hx => by simp [hx], h.2.1⟩

theorem Less.one {C : Crypto} {P : List Bytes} {x : Bytes} (h : ((P ++ F').map (publicKeyOf C)).Nodup) (hx : x ∈ P) : Less C (x :: F') (P ++ F') := by
  rw [List.map_append, List.nodup_append] at h
  refine ⟨?_, ?_⟩
  · intro y hy
    rw [List.mem_cons] at hy
    rcases hy with rfl | hy
    · simp [hx]
    · simp [hy]
  · rw [List.map_cons, List.nodup_cons]
    exact ⟨fun hm => h.2.2 _ (List.mem_map_of_mem hx) _ hm rfl, h.2.1⟩

theorem MInv.delivered {S : MSys} {Ts : List Talk} (htr : d.Trusting ident) {s : Side} {i : Nat} {rand : Bytes}
    (hnone : none ∉ ((MEvent.deliver s i rand).pool ++ F').map (publicKeyOf d.C))
    (hnd : (((MEvent.deliver s i rand).pool ++ F').map (publicKeyOf d.C)).Nodup)
    (h : MInv d ident G ((MEvent.deliver s i rand).pool ++ F') N S Ts) (hlen : Ts.length ≤ 41) (hok : MEvent.Ok d S (.deliver s i rand)) :
    (∃ Ts', MInv d ident G F' (N + 1) (d.mstep S (.deliver s i rand)) Ts' ∧ Ts'.length = Ts.length) ∧
    ∀ c pt name, (S.sent s.other)[i]? = some (c, pt, name) → (∀ p, (d.receive s c rand (S.world s)).1 = .ok (some p) →
      p = pt ∧ (d.receive s c rand (S.world s)).2.talksIn (d.address s.other) = name) ∧
      ∀ k n, c.position = some (k, n) → InWindow (S.gotIn s name) k n → (d.receive s c rand (S.world s)).1 = .ok (some pt) := by
  have hFr : Less d.C F' ((MEvent.deliver s i rand).pool ++ F') := .right hnd
  cases hi : (S.sent s.other)[i]? with
  | none =>
    refine ⟨⟨Ts, ?_, rfl⟩, by simp⟩
    simp only [Duo.mstep, hi]
    exact h.idle rfl rfl rfl h.known (fun _ => ⟨rfl, rfl, rfl, rfl⟩) hFr (Nat.le_succ _)
  | some cp =>
    obtain ⟨c, pt, name⟩ := cp
    have hmem := List.mem_of_getElem? hi
    obtain ⟨T, hT, hn⟩ := h.tags _ _ hmem
    simp only at hn
    subst hn
    have hrand : 32 * 41 ≤ rand.length := by
      obtain ⟨_, _, _, hl, _⟩ := publicKeyOf_some (C := d.C) (rd := rand.drop (32 * 40)) (fun hx => hnone (by
        rw [← hx]
        exact List.mem_map_of_mem (List.mem_append_left _ (pool_drop s i rand (by omega)))))
      rw [List.length_drop] at hl
      omega
    have hI := h.each T hT
    obtain ⟨m, e, t, n, j, ht, hj, hname, hdel⟩ := h.attempt htr hlen hT hmem hrand
      (fun j hj => List.mem_append_left _ (pool_drop s i rand hj)) (fun k n hp => hok c pt _ k n hi hp)
    have hgot : (S.proj T).got (T.x.as s) = S.gotIn s T.name := by simp only [MSys.proj, Side.as_as]
    have hI1 : Verif.Inv (d.as T.x) (fun r => ident (T.x.as r)) T.b T.base T.o (rand.drop (32 * j) :: F') N T.L T.lev T.cnt T.st (S.proj T) :=
      Verif.Inv.move hI rfl rfl (fun _ => rfl) hI.known (fun _ => ⟨rfl, rfl, fun _ _ => rfl⟩) (.one hnd (pool_drop s i rand hj)) (Nat.le_refl _)
    have hopen := fun hw => Inv.opens hI1 ht hw
    rw [hgot] at hopen
    rcases hdel with ⟨p, t', rd1, W, rec', l', hd, hr, w1, w2, w3, w4, w5, w6, r1, r2, r3⟩ | ⟨hno, r, W, hr, w0, w1, w2, w3, w4, w5⟩
    · -- accepted
      have hwin : m.senderRatchetKey ∈ chainsSeen ((S.proj T).got (T.x.as s)) → m.senderRatchetKey ∈ recentChains ((S.proj T).got (T.x.as s)) := by
        intro hseen
        by_cases hrec : m.senderRatchetKey ∈ recentChains ((S.proj T).got (T.x.as s))
        · exact hrec
        · rw [hgot] at hseen hrec
          exact absurd (by rw [hr]) ((hok c pt _ _ _ hi ht.position).dropped hseen hrec p)
      obtain ⟨hp, hinv⟩ := Inv.accept hI1 ht.num ht.view ht.named ht.ready ht.le ht.par ht.pos ht.rung hwin hd
      subst hp
      refine ⟨?_, ?_⟩
      · obtain ⟨L', lev', cnt', a1, a2, a3, a4, hI'⟩ := hinv { W with sessions := fun _ => some { current := some t' } } rfl
          (by simp only [Duo.as, Side.as_other, Side.as_as]; exact .inr w4)
        simp only [Duo.mstep, hi, hr, ht.position]
        have hgotIn : ∀ W u B, ({ S with world := upd S.world s W, got := upd S.got s (S.got s ++ [(T.name, m.senderRatchetKey, m.counter)]) } : MSys).gotIn u B =
            if u = s ∧ T.name = B then S.gotIn u B ++ [(m.senderRatchetKey, m.counter)] else S.gotIn u B := fun W => MSys.gotIn_append rfl
        refine ⟨_, h.advance (s := s) (W := W) (t' := t') hT (by rfl) (by rfl) w1 w2 w3 w4 (by intro _ _ _; rfl) ?_ (by intro u p hp; exact .inl hp) ?_ w5 r1 r2 r3 hI' ?_ ?_ ?_
          hFr ⟨fun _ hx => hx, hFr.2⟩ (Nat.le_succ _) (Nat.le_succ _) ?_, by simp [replaceTalk]⟩
        · intro B hB u
          rw [hgotIn, if_neg (fun hx => hB hx.2.symm)]
        · intro u p hp
          dsimp only at hp
          by_cases hu : u = s
          · subst hu
            rw [upd_same, List.mem_append, List.mem_singleton] at hp
            rcases hp with hp | rfl
            · exact .inl hp
            · exact .inr rfl
          · rw [upd_ne _ _ hu] at hp
            exact .inl hp
        · intro r; rfl
        · intro r
          rw [hgotIn]
          by_cases hrs : r = T.x.as s
          · subst hrs
            simp only [upd_same]
            rw [if_pos ⟨by rw [Side.as_as], trivial⟩]
            rfl
          · simp only [upd_ne _ _ hrs]
            rw [if_neg ?_]
            · rfl
            · rintro ⟨hx, _⟩
              exact hrs (by rw [← hx, Side.as_as])
        · intro hb
          simp only [upd_ne _ _ (Ne.symm hb)]
          exact ⟨rfl, rfl, rfl⟩
        · intro k hk
          by_cases hle : k ≤ T.top
          · exact .inl ⟨hle, by rw [a1 k hle]⟩
          · right
            have htop := hI'.top (T.x.as s)
            have hadj := hI'.adj (T.x.as s)
            have ho := a4 (T.x.as s).other (Side.other_ne _)
            have h1 := T.top_eq (T.x.as s)
            have h2 := T.top_eq (T.x.as s).other
            have hkk : k = lev' (T.x.as s) := by omega
            have hne : lev' (T.x.as s) ≠ T.lev (T.x.as s) := by omega
            have hg := a3 hne
            rw [hkk]
            have : publicKeyOf d.C (rand.drop (32 * j)) = some (L' (lev' (T.x.as s))).kp.pub := by
              unfold publicKeyOf
              rw [show (generateKeyPair d.C (rand.drop (32 * j))).1 = _ from hg]
            rw [← this]
            exact List.mem_map_of_mem (List.mem_append_left _ (pool_drop s i rand hj))
      · intro c' pt' name' hc'
        simp only [Option.some.injEq, Prod.mk.injEq] at hc'
        obtain ⟨rfl, rfl, rfl⟩ := hc'
        rw [hr]
        refine ⟨?_, fun _ _ _ _ => rfl⟩
        intro p' hp'
        simp only [Res.ok.injEq, Option.some.injEq] at hp'
        exact ⟨hp'.symm, by simp [World.talksIn, w5, w6, (decryptMessageSession_keeps hd).2.1, hname]⟩
    · -- not accepted
      refine ⟨⟨Ts, ?_, rfl⟩, ?_⟩
      · have hS : d.mstep S (.deliver s i rand) = { S with world := upd S.world s W } := by
          simp only [Duo.mstep, hi, hr]
          split
          · exact absurd rfl (w0 _)
          · rfl
        rw [hS]
        refine h.idle rfl rfl rfl ?_ ?_ hFr (Nat.le_succ _)
        · intro u
          by_cases hu : u = s
          · subst hu; simp only [upd_same]; exact w4
          · simp only [upd_ne _ _ hu]; exact h.known u
        · intro u
          by_cases hu : u = s
          · subst hu; simp only [upd_same]; exact ⟨w5, w1, w2, w3⟩
          · simp only [upd_ne _ _ hu, and_self]
      · intro c' pt' name' hc'
        simp only [Option.some.injEq, Prod.mk.injEq] at hc'
        obtain ⟨rfl, rfl, rfl⟩ := hc'
        rw [hr]
        refine ⟨fun p hp => absurd hp (w0 p), ?_⟩
        intro k j' hp hw
        rw [ht.position] at hp
        simp only [Option.some.injEq, Prod.mk.injEq] at hp
        obtain ⟨rfl, rfl⟩ := hp
        obtain ⟨t', rd', hx⟩ := hopen hw
        exact absurd hx (hno _ _ _)


theorem deliveryRand_map (F : List Bytes) : deliveryRand (F.map fun r => DEvent.deliver .alice 0 r) = F := by
  induction F with
  | nil => rfl
  | cons r F ih => simp only [List.map_cons, deliveryRand, ih]

theorem MInv.starts {S : MSys} {Ts : List Talk} (htr : d.Trusting ident) {s : Side} {b : Bundle} {rand : Bytes}
    (hnone : none ∉ ((MEvent.start s b rand).pool ++ F').map (publicKeyOf d.C))
    (hnd : (((MEvent.start s b rand).pool ++ F').map (publicKeyOf d.C)).Nodup)
    (h : MInv d ident G ((MEvent.start s b rand).pool ++ F') N S Ts) (hlen : Ts.length ≤ 40) (hok : MEvent.Ok d S (.start s b rand))
    (hG : b.signedPreKeyPublic ∈ G) (hbase : ∀ k, publicKeyOf d.C rand = some k → ∀ T ∈ Ts, k.bytes ≠ T.name) :
    (processPreKeyBundle (d.env s) (d.address s.other) b { S.world s with rand := rand, faults := [] }).1 = .ok () ∧
    ∃ T : Talk, publicKeyOf d.C rand = some T.base ∧ MInv d ident G F' (N + 1) (d.mstep S (.start s b rand)) (Ts ++ [T]) ∧
      ((d.mstep S (.start s b rand)).world s).talksIn (d.address s.other) = T.name := by
  have hFr : Less d.C F' ((MEvent.start s b rand).pool ++ F') := .right hnd
  have hFeq : (MEvent.start s b rand).pool ++ F' = rand.drop 32 :: F' := rfl
  rw [hFeq] at hnone hnd h hFr
  obtain ⟨hoff, honce⟩ := hok
  -- the two users alone
  have hident : identOf { S.world s with sessions := fun _ => none } { S.world s.other with sessions := fun _ => none } = fun r => ident (s.as r) := by
    funext r
    cases r with
    | alice => rw [Side.as_alice]; exact (h.ids s).1
    | bob => rw [Side.as_bob]; exact (h.ids s.other).1
  have hstr : (d.as s).Strangers { S.world s with sessions := fun _ => none } { S.world s.other with sessions := fun _ => none } b := by
    refine ⟨rfl, rfl, (h.ids s).2, ⟨hoff.identity, hoff.signed, hoff.signature, hoff.oneTime⟩, ⟨?_, ?_⟩, ⟨?_, ?_⟩⟩
    · have := h.known s
      rw [← (h.ids s.other).1, ← Side.as_bob] at this
      rw [← Side.as_bob s]
      exact this
    · intro known dir hk
      have hk : known (d.address (s.as .bob)) = none ∨ known (d.address (s.as .bob)) = some (S.world s.other).identity.pub := hk
      change d.trusted (s.as .alice) known (d.address (s.as .bob)) (S.world s.other).identity.pub dir = true
      rw [Side.as_bob, (h.ids s.other).1] at hk
      rw [Side.as_bob, Side.as_alice, (h.ids s.other).1]
      exact htr s known dir hk
    · have := h.known s.other
      simp only [Side.other_other] at this
      rw [← (h.ids s).1] at this
      change (S.world s.other).known (d.address (s.as .alice)) = none ∨ (S.world s.other).known (d.address (s.as .alice)) = some (S.world s).identity.pub
      rw [Side.as_alice]
      exact this
    · intro known dir hk
      have hk : known (d.address (s.as .alice)) = none ∨ known (d.address (s.as .alice)) = some (S.world s).identity.pub := hk
      change d.trusted (s.as .bob) known (d.address (s.as .alice)) (S.world s).identity.pub dir = true
      rw [Side.as_alice, (h.ids s).1] at hk
      rw [Side.as_bob, Side.as_alice, (h.ids s).1]
      have := htr s.other known dir
      simp only [Side.other_other] at this
      exact this hk
  have hfresh : FreshKeys (d.as s).C b rand (F'.map fun r => DEvent.deliver .alice 0 r) := by
    unfold FreshKeys
    rw [deliveryRand_map]
    simp only [List.map_cons, List.mem_cons, not_or, List.nodup_cons] at hnone hnd ⊢
    have := h.signed _ hG
    simp only [List.map_cons, List.mem_cons, not_or] at this
    exact ⟨⟨by simp, hnone⟩, this, hnd⟩
  obtain ⟨hrun1, base, o, L, lev, cnt, st, hI, hB⟩ := Duo.begins hstr hfresh
  rw [deliveryRand_map, hident] at hI
  -- what the bundle was turned into
  obtain ⟨t, rd, hfb, hst⟩ : ∃ t rd, FromBundle (d.env s) { S.world s with rand := rand, faults := [] } b t rd ∧ st .alice = some t := by
    have ho := bundle_outcome ((d.as s).env .alice) ((d.as s).address .bob) b { S.world s with sessions := fun _ => none, rand := rand, faults := [] }
    have hsess := hI.sess .alice
    simp only [Duo.start, Side.other] at hsess
    have hrun1' : (processPreKeyBundle ((d.as s).env .alice) ((d.as s).address .bob) b { S.world s with sessions := fun _ => none, rand := rand, faults := [] }).1 = .ok () := hrun1
    generalize processPreKeyBundle ((d.as s).env .alice) ((d.as s).address .bob) b { S.world s with sessions := fun _ => none, rand := rand, faults := [] } = x at ho hrun1' hsess
    obtain ⟨r, w'⟩ := x
    simp only at ho hrun1' hsess
    subst hrun1'
    cases ho with
    | early _ _ _ hr => simp at hr
    | stopped _ _ hr => simp at hr
    | done fs t rd _ _ hfb =>
      obtain ⟨bk, rd1, rd2, s0, hb, hi, s', hs'⟩ := hfb
      refine ⟨t, rd, ⟨bk, rd1, rd, s0, ?_, ?_, t, hs'⟩, ?_⟩
      · exact hb
      · rw [← Side.as_alice s]
        simpa only [Duo.as_env, Side.as_alice] using hi
      · simp only [upd_same] at hsess
        cases hx : st .alice with
        | none => rw [hx] at hsess; simp at hsess
        | some v =>
          rw [hx] at hsess
          simp only [Option.map_some, Option.some.injEq] at hsess
          have := congrArg Record.current hsess
          simp only [Record.promoteState, Option.some.injEq] at this
          rw [this]
  have hstb : st .bob = none := by
    have hsess := hI.sess .bob
    simp only [Duo.start, Side.other] at hsess
    cases hx : st .bob with
    | none => rfl
    | some v => rw [hx] at hsess; simp at hsess
  obtain ⟨n1, n2, n3, n4, n5, n6⟩ := hI.notReady hstb
  have hrun := bundle_run (E := d.env s) (a := d.address s.other) (w := { S.world s with rand := rand, faults := [] }) rfl
    (by rw [hoff.identity.1, (h.ids s.other).1]; exact htr s _ _ (h.known s)) hoff.signature hfb
  refine ⟨by rw [hrun], ?_⟩
  -- its name
  obtain ⟨⟨bk, k1, k2, _⟩, k3, k4, _, k6⟩ := hB
  have hpk : publicKeyOf d.C rand = some base := by
    unfold publicKeyOf
    rw [show (generateKeyPair d.C rand).1 = _ from k1, k2]
  have hname : t.aliceBaseKey = base.bytes := by
    obtain ⟨bk', rd1, _, s0, hb, _, _, hs'⟩ := hfb
    rw [hs']
    have hb : generateKeyPair d.C rand = (.ok bk', rd1) := hb
    have k1 : (generateKeyPair d.C rand).1 = .ok bk := k1
    rw [hb] at k1
    simp only [Res.ok.injEq] at k1
    rw [k2, ← k1]
  have hwf : t.WF := hfb.WF
  have hdiff : ∀ T ∈ Ts, base.bytes ≠ T.name := hbase base hpk
  -- the new record
  obtain ⟨rec0, l0, hrec0, q1, q2, q3, q4, q5⟩ : ∃ rec0 l0, ((S.world s).sessions (d.address s.other)).getD {} = rec0 ∧ rec0.WF ∧ rec0.previousStates = .ok l0 ∧
      ((rec0.current.toList ++ l0).map (·.aliceBaseKey)).Nodup ∧ (∀ u ∈ rec0.current.toList ++ l0, ∃ U ∈ Ts, u.aliceBaseKey = U.name) ∧
      (∀ u, rec0.HasState u ↔ ∃ rec, (S.world s).sessions (d.address s.other) = some rec ∧ rec.HasState u) := by
    cases hr : (S.world s).sessions (d.address s.other) with
    | none =>
      refine ⟨{}, [], rfl, .empty, rfl, by simp, by simp, ?_⟩
      intro u
      simp [Record.HasState]
    | some rec =>
      obtain ⟨l, hl⟩ := h.recs s rec hr
      refine ⟨rec, l, rfl, hl.wf, hl.prev, hl.nodup, hl.known, ?_⟩
      intro u
      constructor
      · intro hh; exact ⟨rec, rfl, hh⟩
      · rintro ⟨rec0, hr0, hh⟩
        simp only [Option.some.injEq] at hr0
        subst hr0
        exact hh
  have q6 : ∀ u ∈ rec0.current.toList ++ l0, u.aliceBaseKey ≠ base.bytes := by
    intro u hu he
    obtain ⟨U, hU, hx⟩ := q4 u hu
    exact hdiff U hU (he.symm.trans hx)
  obtain ⟨r1, r2, r3, r4⟩ := RecOk.promote (Ts := Ts ++ [⟨s, b, base, o, L, lev, cnt, st⟩]) (Ts' := Ts) (T := ⟨s, b, base, o, L, lev, cnt, st⟩) (t := t)
    q1 q2 q3 q4 (fun T hT => by simp [hT]) hlen (by simp) hname hwf q6
  have htalks : World.talksIn { S.world s with sessions := upd (S.world s).sessions (d.address s.other) (some (rec0.promoteState t)), known := upd (S.world s).known (d.address s.other) (some b.identityKey), rand := rd, faults := [] } (d.address s.other) = base.bytes := by
    simp [World.talksIn, r2, hname]
  have hstep : d.mstep S (.start s b rand) = { S with world := upd S.world s { S.world s with sessions := upd (S.world s).sessions (d.address s.other) (some (rec0.promoteState t)), known := upd (S.world s).known (d.address s.other) (some b.identityKey), rand := rd, faults := [] }, started := S.started ++ [(s, b, base.bytes)] } := by
    simp only [Duo.mstep, hrun, hrec0]
    rw [htalks]
  refine ⟨⟨s, b, base, o, L, lev, cnt, st⟩, hpk, ?_, by rw [hstep]; simp only [upd_same]; exact htalks⟩
  rw [hstep]
  generalize hW : ({ S.world s with sessions := upd (S.world s).sessions (d.address s.other) (some (rec0.promoteState t)), known := upd (S.world s).known (d.address s.other) (some b.identityKey), rand := rd, faults := [] } : World) = W
  have w1 : W.identity = (S.world s).identity := by rw [← hW]
  have w2 : W.signedPreKeys = (S.world s).signedPreKeys := by rw [← hW]
  have w3 : W.preKeys = (S.world s).preKeys := by rw [← hW]
  have w4 : W.known (d.address s.other) = some (ident s.other) := by
    rw [← hW, ← (h.ids s.other).1, ← hoff.identity.1]
    exact upd_same _ _ _
  have w5 : W.sessions (d.address s.other) = some (rec0.promoteState t) := by rw [← hW]; exact upd_same _ _ _
  have hsent0 : ∀ u, S.sentIn u base.bytes = [] := by
    intro u
    unfold MSys.sentIn
    rw [List.filterMap_eq_nil_iff]
    intro p hp
    obtain ⟨U, hU, hx⟩ := h.tags u p hp
    rw [if_neg (fun hy => hdiff U hU (hy.symm.trans hx))]
  have hgot0 : ∀ u, S.gotIn u base.bytes = [] := by
    intro u
    unfold MSys.gotIn
    rw [List.filterMap_eq_nil_iff]
    intro p hp
    obtain ⟨U, hU, hx⟩ := h.gtags u p hp
    rw [if_neg (fun hy => hdiff U hU (hy.symm.trans hx))]
  have hknown : ∀ u, (upd S.world s W u).known (d.address u.other) = none ∨ (upd S.world s W u).known (d.address u.other) = some (ident u.other) := by
    intro u
    by_cases hu : u = s
    · subst hu; rw [upd_same]; exact .inr w4
    · rw [upd_ne _ _ hu]; exact h.known u
  have hkeep : ∀ u, (upd S.world s W u).identity = (S.world u).identity ∧ (upd S.world s W u).signedPreKeys = (S.world u).signedPreKeys ∧
      (upd S.world s W u).preKeys = (S.world u).preKeys := by
    intro u
    by_cases hu : u = s
    · subst hu; rw [upd_same]; exact ⟨w1, w2, w3⟩
    · rw [upd_ne _ _ hu]; exact ⟨rfl, rfl, rfl⟩
  -- the keys of the new session
  have htop : max (lev .alice) (lev .bob) = 1 := by rw [n1, n2]; rfl
  have hkey1 : some (L 1).kp.pub ∈ (rand.drop 32 :: F').map (publicKeyOf d.C) := by
    rw [hI.book.second.1]
    have : publicKeyOf d.C (rand.drop 32) = some o.second.pub := by
      unfold publicKeyOf
      rw [show (generateKeyPair d.C (rand.drop 32)).1 = _ from k4]
    rw [← this]
    simp
  have hkey0 : (L 0).kp.pub ∈ G := by
    rw [hI.book.first]
    obtain ⟨k, _, s2, s3⟩ := hoff.signed
    have k3 : (S.world s.other).signedPreKeys b.signedPreKeyID = some (PreKeyRec.new o.first.kp) := k3
    rw [s3] at k3
    simp only [PreKeyRec.new, Option.some.injEq, PreKeyRec.mk.injEq] at k3
    have := PubKey.bytes_inj k3.1
    rw [← this, ← s2]
    exact hG
  have hle1 : ∀ {i}, i ≤ max (lev .alice) (lev .bob) → i = 0 ∨ i = 1 := by intro i hi; rw [htop] at hi; omega
  have hmem : ∀ U, U ∈ Ts ++ [(⟨s, b, base, o, L, lev, cnt, st⟩ : Talk)] → U ∈ Ts ∨ U = ⟨s, b, base, o, L, lev, cnt, st⟩ := by
    intro U hU
    rw [List.mem_append, List.mem_singleton] at hU
    exact hU
  refine ⟨?_, ?_, ?_, ?_, ?_, ?_, hknown, ?_, ?_, ?_, ?_, fun g hg hx => h.signed g hg (hFr.sub hx), ?_⟩
  · simp only [h.list, List.map_append, List.map_cons, List.map_nil]
    rfl
  · rw [List.map_append, List.nodup_append]
    refine ⟨h.names, by simp, ?_⟩
    intro x hx y hy
    rw [List.mem_map] at hx
    obtain ⟨U, hU, rfl⟩ := hx
    simp only [List.map_cons, List.map_nil, List.mem_singleton] at hy
    subst hy
    exact (hdiff U hU).symm
  · intro U hU
    rcases hmem U hU with hU | rfl
    · refine (h.each U hU).move (fun _ => rfl) (fun _ => rfl) hknown (fun _ => ?_) hFr (Nat.le_succ _)
      obtain ⟨a1, a2, a3⟩ := hkeep U.x.other
      exact ⟨a1, by rw [a2], fun _ _ => by rw [a3]⟩
    · refine Verif.Inv.move hI ?_ ?_ ?_ ?_ ?_ ⟨fun _ hx => hx, hFr.2⟩ (Nat.zero_le _)
      · funext r; exact hsent0 _
      · funext r; exact hgot0 _
      · intro r; rw [hI.sess r]; rfl
      · intro r
        simp only [MSys.proj, Duo.as, Side.as_other]
        exact hknown _
      · intro _
        simp only [MSys.proj, Duo.start, Side.as_bob]
        obtain ⟨a1, a2, a3⟩ := hkeep s.other
        exact ⟨a1, by rw [a2], fun _ _ => by rw [a3]⟩
  · intro U hU
    rcases hmem U hU with hU | rfl
    · intro r u
      rw [h.link U hU r u]
      by_cases hu : U.x.as r = s
      · simp only [hu, upd_same]
        constructor
        · rintro ⟨rec, a1, a2, a3⟩
          exact ⟨_, w5, (r3 u (fun hx => hdiff U hU (hx.symm.trans a3))).mpr ((q5 u).mpr ⟨rec, a1, a2⟩), a3⟩
        · rintro ⟨rec, a1, a2, a3⟩
          rw [w5] at a1
          simp only [Option.some.injEq] at a1
          subst a1
          obtain ⟨rec, c1, c2⟩ := (q5 u).mp ((r3 u (fun hx => hdiff U hU (hx.symm.trans a3))).mp a2)
          exact ⟨rec, c1, c2, a3⟩
      · simp only [upd_ne _ _ hu]
    · intro r u
      cases r with
      | alice =>
        simp only [Side.as_alice, upd_same]
        rw [hst, r4 u, w5]
        constructor
        · rintro ⟨a1, a2⟩; exact ⟨_, rfl, a1, a2⟩
        · rintro ⟨rec, a1, a2, a3⟩
          simp only [Option.some.injEq] at a1
          subst a1
          exact ⟨a2, a3⟩
      | bob =>
        simp only [Side.as_bob, hstb, upd_ne _ _ (Side.other_ne s)]
        refine ⟨by simp, ?_⟩
        rintro ⟨rec, a1, a2, a3⟩
        exfalso
        obtain ⟨U, hU, hx, _⟩ := h.state a1 a2
        exact hdiff U hU (a3.symm.trans hx)
  · intro u rec hr
    by_cases hu : u = s
    · subst hu
      simp only [upd_same] at hr
      rw [w5] at hr
      simp only [Option.some.injEq] at hr
      subst hr
      exact ⟨_, r1⟩
    · simp only [upd_ne _ _ hu] at hr
      obtain ⟨l, hl⟩ := h.recs u rec hr
      refine ⟨l, hl.wf, hl.cur, hl.prev, hl.nodup, ?_⟩
      intro v hv
      obtain ⟨U, hU, hx⟩ := hl.known v hv
      exact ⟨U, by simp [hU], hx⟩
  · intro U hU V hV hn i hi1 hi j hj
    rcases hmem U hU with hU | rfl
    · rcases hmem V hV with hV | rfl
      · exact h.apart U hU V hV hn i hi1 hi j hj
      · simp only at hj ⊢
        rcases hle1 hj with rfl | rfl
        · intro he
          rw [← he] at hkey0
          exact h.made U hU i hi1 hi hkey0
        · intro he
          rw [← he] at hkey1
          exact (h.each U hU).fresh.2.2 i hi hkey1
    · rcases hmem V hV with hV | rfl
      · simp only at hi ⊢
        rcases hle1 hi with rfl | rfl
        · omega
        · intro he
          rw [he] at hkey1
          exact (h.each V hV).fresh.2.2 j hj hkey1
      · exact absurd rfl hn
  · intro u
    obtain ⟨a1, _⟩ := hkeep u
    simp only [a1]
    exact h.ids u
  · have hst' : ∀ U ∈ Ts, U.x = s → ∀ id, U.b.preKeyID = some id → b.preKeyID ≠ some id := by
      intro U hU hx id hid
      refine honce (U.x, U.b, U.name) ?_ hx id hid
      rw [h.list]
      exact List.mem_map_of_mem hU
    intro U hU V hV hn hx id hid
    rcases hmem U hU with hU | rfl
    · rcases hmem V hV with hV | rfl
      · exact h.once U hU V hV hn hx id hid
      · exact hst' U hU hx id hid
    · rcases hmem V hV with hV | rfl
      · intro hv
        exact hst' V hV hx.symm id hv hid
      · exact absurd rfl hn
  · intro u p hp
    obtain ⟨U, hU, hx⟩ := h.tags u p hp
    exact ⟨U, by simp [hU], hx⟩
  · intro u p hp
    obtain ⟨U, hU, hx⟩ := h.gtags u p hp
    exact ⟨U, by simp [hU], hx⟩
  · intro U hU i hi1 hi
    rcases hmem U hU with hU | rfl
    · exact h.made U hU i hi1 hi
    · simp only at hi ⊢
      rcases hle1 hi with rfl | rfl
      · omega
      · exact fun hg => h.signed _ hg hkey1

end Verif
