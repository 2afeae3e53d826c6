import Verif.Spec.Agreeing
import Verif.Proofs.Sessions7

/-!
# Users who have found a common session: lemmas for C117
-/

namespace Verif

variable {d : Duo} {ident : Side → PubKey} {G : List PubKey} {F : List Bytes} {N : Nat}

/-- Sending changes nobody's session. -/
theorem MInv.send_talks {S : MSys} {Ts : List Talk} (htr : d.Trusting ident) (h : MInv d ident G F N S Ts) (s : Side) (pt : Bytes) (t : Side) :
    ((d.mstep S (.send s pt)).world t).talksIn (d.address t.other) = (S.world t).talksIn (d.address t.other) := by
  by_cases hts : t = s
  · subst hts
    cases hr : (S.world t).sessions (d.address t.other) with
    | none =>
      have hrun : encryptMessage (d.env t) (d.address t.other) pt { S.world t with faults := [] } =
          (.err (.sessionNotFound (d.address t.other)), { S.world t with faults := [] }) := by
        unfold encryptMessage
        rw [M.bind_ok_run (x := loadSession _) (storeCall_nil _ _ rfl)]
        simp only [hr]
        rfl
      simp only [Duo.mstep, hrun, upd_same]
      rfl
    | some rec =>
      obtain ⟨T, hT, u, u', out, h1, h2, h3, h4, h5, hrun⟩ := h.sending htr t hr pt
      simp only [Duo.mstep, hrun, upd_same]
      simp only [World.talksIn, upd_same, hr, Option.bind_some, Record.setSessionState, h1, Option.map_some, h2, h5]
  · simp only [Duo.mstep]
    split <;> simp only [upd_ne _ _ hts]

/-- A message that is accepted makes its session the current one; one that is not accepted changes nothing. -/
theorem MInv.deliver_talks {S : MSys} {Ts : List Talk} (htr : d.Trusting ident) {s : Side} {i : Nat} {rand : Bytes} {F' : List Bytes}
    (hnone : none ∉ ((MEvent.deliver s i rand).pool ++ F').map (publicKeyOf d.C))
    (h : MInv d ident G ((MEvent.deliver s i rand).pool ++ F') N S Ts) (hlen : Ts.length ≤ 41) (hok : MEvent.Ok d S (.deliver s i rand)) (t : Side) :
    ((d.mstep S (.deliver s i rand)).world t).talksIn (d.address t.other) = (S.world t).talksIn (d.address t.other) ∨
      t = s ∧ ∃ c pt name, (S.sent s.other)[i]? = some (c, pt, name) ∧ ((d.mstep S (.deliver s i rand)).world t).talksIn (d.address t.other) = name := by
  cases hi : (S.sent s.other)[i]? with
  | none => left; simp only [Duo.mstep, hi]
  | some cp =>
    obtain ⟨c, pt, name⟩ := cp
    have hw : ∀ t, (d.mstep S (.deliver s i rand)).world t = upd S.world s (d.receive s c rand (S.world s)).2 t := by
      intro t
      simp only [Duo.mstep, hi]
      split <;> rfl
    by_cases hts : t = s
    · subst hts
      rw [hw, upd_same]
      have hmem := List.mem_of_getElem? hi
      obtain ⟨T, hT, hn⟩ := h.tags _ _ hmem
      simp only at hn
      subst hn
      have hrand : 32 * 41 ≤ rand.length := by
        obtain ⟨_, _, _, hl, _⟩ := publicKeyOf_some (C := d.C) (rd := rand.drop (32 * 40)) (fun hx => hnone (by
          rw [← hx]
          exact List.mem_map_of_mem (List.mem_append_left _ (pool_drop t i rand (by omega)))))
        rw [List.length_drop] at hl
        omega
      obtain ⟨m, e, u, n, j, ht, hj, hname, hdel⟩ := h.attempt htr hlen hT hmem hrand
        (fun j hj => List.mem_append_left _ (pool_drop t i rand hj)) (fun k n hp => hok c pt _ k n hi hp)
      rcases hdel with ⟨p, u', rd1, W, rec', l', hd, hr, w1, w2, w3, w4, w5, w6, r1, r2, r3⟩ | ⟨hno, r, W, hr, w0, w1, w2, w3, w4, w5⟩
      · right
        refine ⟨rfl, c, pt, _, rfl, ?_⟩
        rw [hr]
        simp [World.talksIn, w5, w6, (decryptMessageSession_keeps hd).2.1, hname]
      · left
        rw [hr]
        simp only [World.talksIn, w5]
    · left
      rw [hw, upd_ne _ _ hts]

theorem mstep_send_sent (d : Duo) (S : MSys) (s : Side) (pt : Bytes) (t : Side) : (d.mstep S (.send s pt)).sent t = S.sent t ∨
    ∃ c, (d.mstep S (.send s pt)).sent t = S.sent t ++ [(c, pt, (S.world t).talksIn (d.address t.other))] := by
  simp only [Duo.mstep]
  split
  · rename_i c _
    by_cases hts : t = s
    · subst hts; right; exact ⟨c, by simp only [upd_same]⟩
    · left; simp only [upd_ne _ _ hts]
  · left; rfl

theorem mstep_deliver_sent (d : Duo) (S : MSys) (s : Side) (i : Nat) (rand : Bytes) : (d.mstep S (.deliver s i rand)).sent = S.sent := by
  simp only [Duo.mstep]
  split
  · rfl
  · split <;> rfl

theorem MInv.stay (htr : d.Trusting ident) (n : Side → Nat) (name : Bytes) : ∀ (es : List MEvent) {N : Nat} {S : MSys} {Ts : List Talk},
    MInv d ident G (es.flatMap MEvent.pool) N S Ts → Ahead d G Ts es → d.MOk S es → N + es.length < 4294967297 → Ts.length ≤ 41 →
    (∀ e ∈ es, e.Since n) → (∀ t, (S.world t).talksIn (d.address t.other) = name) → (∀ t i x, (S.sent t)[i]? = some x → n t ≤ i → x.2.2 = name) →
    (∀ t, ((d.mrun S es).world t).talksIn (d.address t.other) = name) ∧ (∀ t i x, ((d.mrun S es).sent t)[i]? = some x → n t ≤ i → x.2.2 = name)
  | [], N, S, Ts, _, _, _, _, _, _, ht, hs => ⟨ht, hs⟩
  | e :: es, N, S, Ts, h, ha, hok, hN, hl, hsi, ht, hs => by
    simp only [List.length_cons] at hN
    have hopen : ([e].filterMap MEvent.opens) = [] := by
      have := hsi e List.mem_cons_self
      cases e with
      | start => exact this.elim
      | send => rfl
      | deliver => rfl
    obtain ⟨Ts', h1, ha1, hl1⟩ := MInv.run htr es [e] h ha ⟨hok.1, trivial⟩ (by simp only [List.length_singleton]; omega) (by rw [hopen]; simpa using hl)
    rw [hopen] at hl1
    have hrun : d.mrun S (e :: es) = d.mrun (d.mstep S e) es := rfl
    rw [hrun]
    refine MInv.stay htr n name es (S := d.mstep S e) h1 ha1 hok.2 (by simp only [List.length_singleton]; omega) (by simp at hl1; omega)
      (fun e he => hsi e (List.mem_cons_of_mem _ he)) ?_ ?_
    · intro t
      cases e with
      | start => exact (hsi _ List.mem_cons_self).elim
      | send s pt => rw [h.send_talks htr s pt t]; exact ht t
      | deliver s i rand =>
        simp only [List.flatMap_cons] at h
        have hm := ha.made
        simp only [List.flatMap_cons] at hm
        rcases h.deliver_talks htr hm hl hok.1 t with he | ⟨rfl, c, pt, nm, hi, he⟩
        · rw [he]; exact ht t
        · rw [he]; exact hs _ _ _ hi (hsi _ List.mem_cons_self)
    · intro t i x hx hi
      cases e with
      | start => exact (hsi _ List.mem_cons_self).elim
      | send s pt =>
        rcases mstep_send_sent d S s pt t with he | ⟨c, he⟩
        · rw [he] at hx; exact hs t i x hx hi
        · rw [he, List.getElem?_append] at hx
          split at hx
          · exact hs t i x hx hi
          · rw [List.getElem?_singleton] at hx
            split at hx
            · simp only [Option.some.injEq] at hx
              rw [← hx]
              exact ht t
            · cases hx
      | deliver s j rand => rw [mstep_deliver_sent] at hx; exact hs t i x hx hi

theorem Duo.MOk.append (d : Duo) (es' : List MEvent) : ∀ (es : List MEvent) (S : MSys), d.MOk S (es ++ es') → d.MOk S es ∧ d.MOk (d.mrun S es) es'
  | [], _, h => ⟨trivial, h⟩
  | _ :: es, _, h => ⟨⟨h.1, (Duo.MOk.append d es' es _ h.2).1⟩, (Duo.MOk.append d es' es _ h.2).2⟩

end Verif
