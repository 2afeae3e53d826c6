import Verif.Proofs.Sessions6

/-!
# Whole schedules with several sessions
-/

namespace Verif

variable {d : Duo} {ident : Side → PubKey} {G : List PubKey} {N : Nat}

/-- What is known about the keys of the steps that are still to come. -/
structure Ahead (d : Duo) (G : List PubKey) (Ts : List Talk) (es : List MEvent) : Prop where
  made : none ∉ (es.flatMap MEvent.pool).map (publicKeyOf d.C)
  nodup : ((es.flatMap MEvent.pool).map (publicKeyOf d.C)).Nodup
  signed : ∀ x ∈ es.filterMap MEvent.opens, x.2 ∈ G
  base : ((es.filterMap MEvent.opens).map fun x => publicKeyOf d.C x.1).Nodup
  names : ∀ x ∈ es.filterMap MEvent.opens, ∀ k, publicKeyOf d.C x.1 = some k → ∀ T ∈ Ts, k.bytes ≠ T.name

theorem Ahead.tail {Ts : List Talk} {e : MEvent} {es : List MEvent} (h : Ahead d G Ts (e :: es)) (he : e.opens = none) {Ts' : List Talk}
    (hn : Ts'.map Talk.name = Ts.map Talk.name) : Ahead d G Ts' es := by
  obtain ⟨h1, h2, h3, h4, h5⟩ := h
  simp only [List.flatMap_cons, List.map_append, List.mem_append, not_or, List.nodup_append] at h1 h2
  simp only [List.filterMap_cons, he] at h3 h4 h5
  refine ⟨h1.2, h2.2.1, h3, h4, ?_⟩
  intro x hx k hk T hT
  have : T.name ∈ Ts.map Talk.name := by rw [← hn]; exact List.mem_map_of_mem hT
  rw [List.mem_map] at this
  obtain ⟨U, hU, he⟩ := this
  rw [← he]
  exact h5 x hx k hk U hU

theorem Ahead.started {Ts : List Talk} {s : Side} {b : Bundle} {rand : Bytes} {es : List MEvent} (h : Ahead d G Ts (.start s b rand :: es)) {T : Talk}
    (hT : publicKeyOf d.C rand = some T.base) : Ahead d G (Ts ++ [T]) es := by
  obtain ⟨h1, h2, h3, h4, h5⟩ := h
  simp only [List.flatMap_cons, List.map_append, List.mem_append, not_or, List.nodup_append] at h1 h2
  simp only [List.filterMap_cons, MEvent.opens, List.mem_cons, List.map_cons, List.nodup_cons] at h3 h4 h5
  refine ⟨h1.2, h2.2.1, fun x hx => h3 x (.inr hx), h4.2, ?_⟩
  intro x hx k hk U hU
  rw [List.mem_append, List.mem_singleton] at hU
  rcases hU with hU | rfl
  · exact h5 x (.inr hx) k hk U hU
  · intro he
    apply h4.1
    rw [hT, ← PubKey.bytes_inj he, ← hk]
    exact List.mem_map_of_mem (f := fun x : Bytes × PubKey => publicKeyOf d.C x.1) hx

theorem MInv.names_eq {F F' : List Bytes} {N' : Nat} {S S' : MSys} {Ts Ts' : List Talk} (h : MInv d ident G F N S Ts) (h' : MInv d ident G F' N' S' Ts')
    (hs : S'.started = S.started) : Ts'.map Talk.name = Ts.map Talk.name := by
  have := h'.list
  rw [hs, h.list] at this
  have := congrArg (List.map fun x : Side × Bundle × Bytes => x.2.2) this
  simpa [List.map_map, Function.comp_def] using this.symm

theorem mstep_send_started (d : Duo) (S : MSys) (s : Side) (pt : Bytes) : (d.mstep S (.send s pt)).started = S.started := by
  simp only [Duo.mstep]
  split <;> rfl

theorem mstep_deliver_started (d : Duo) (S : MSys) (s : Side) (i : Nat) (rand : Bytes) : (d.mstep S (.deliver s i rand)).started = S.started := by
  simp only [Duo.mstep]
  split
  · rfl
  · split <;> rfl

theorem MInv.run (htr : d.Trusting ident) (es' : List MEvent) : ∀ (es : List MEvent) {N : Nat} {S : MSys} {Ts : List Talk},
    MInv d ident G ((es ++ es').flatMap MEvent.pool) N S Ts → Ahead d G Ts (es ++ es') → d.MOk S es → N + es.length < 4294967297 →
    Ts.length + (es.filterMap MEvent.opens).length ≤ 41 →
    ∃ Ts', MInv d ident G (es'.flatMap MEvent.pool) (N + es.length) (d.mrun S es) Ts' ∧ Ahead d G Ts' es' ∧
      Ts'.length = Ts.length + (es.filterMap MEvent.opens).length
  | [], N, S, Ts, h, ha, _, _, hl => ⟨Ts, h, ha, by simp⟩
  | e :: es, N, S, Ts, h, ha, hok, hN, hl => by
    have hnone := ha.made
    have hnd := ha.nodup
    simp only [List.cons_append, List.flatMap_cons] at h hnone hnd
    simp only [List.length_cons] at hN
    have next : ∀ Ts1, MInv d ident G ((es ++ es').flatMap MEvent.pool) (N + 1) (d.mstep S e) Ts1 → Ahead d G Ts1 (es ++ es') →
        Ts1.length + (es.filterMap MEvent.opens).length = Ts.length + ((e :: es).filterMap MEvent.opens).length →
        ∃ Ts', MInv d ident G (es'.flatMap MEvent.pool) (N + (e :: es).length) (d.mrun S (e :: es)) Ts' ∧ Ahead d G Ts' es' ∧
          Ts'.length = Ts.length + ((e :: es).filterMap MEvent.opens).length := by
      intro Ts1 h1 h2 h3
      obtain ⟨Ts', a1, a2, a3⟩ := MInv.run htr es' es h1 h2 hok.2 (by omega) (by omega)
      refine ⟨Ts', ?_, a2, by omega⟩
      have : N + (e :: es).length = N + 1 + es.length := by rw [List.length_cons]; omega
      rw [this]
      exact a1
    cases e with
    | start s b rand =>
      have hl1 : ((MEvent.start s b rand :: es).filterMap MEvent.opens).length = (es.filterMap MEvent.opens).length + 1 := by
        simp [List.filterMap_cons, MEvent.opens]
      obtain ⟨_, T, t1, t2, _⟩ := h.starts htr hnone hnd (by omega) hok.1 (ha.signed (rand, b.signedPreKeyPublic) (by simp [MEvent.opens]))
        (ha.names (rand, b.signedPreKeyPublic) (by simp [MEvent.opens]))
      exact next _ t2 (ha.started t1) (by rw [hl1, List.length_append]; simp only [List.length_singleton]; omega)
    | send s pt =>
      simp only [MEvent.pool, List.nil_append] at h hnd
      obtain ⟨Ts1, t1, t2⟩ := h.sends htr hnd s hok.1 (by omega)
      exact next _ t1 (ha.tail rfl (h.names_eq t1 (mstep_send_started ..))) (by simp [t2, List.filterMap_cons, MEvent.opens])
    | deliver s i rand =>
      obtain ⟨⟨Ts1, t1, t2⟩, _⟩ := h.delivered htr hnone hnd (by omega) hok.1
      exact next _ t1 (ha.tail rfl (h.names_eq t1 (mstep_deliver_started ..))) (by simp [t2, List.filterMap_cons, MEvent.opens])

/-- The invariant holds before any session is started. -/
theorem Duo.NoSessionYet.inv {w : Side → World} (h : d.NoSessionYet w) {es : List MEvent} (hf : MFreshKeys d.C es) :
    d.Trusting (fun s => (w s).identity.pub) ∧
    MInv d (fun s => (w s).identity.pub) ((es.filterMap MEvent.opens).map (·.2)) (es.flatMap MEvent.pool) 0 { world := w } [] ∧
    Ahead d ((es.filterMap MEvent.opens).map (·.2)) [] es := by
  refine ⟨fun s known dir hk => (h.trusts s).2 known dir hk, ⟨rfl, by simp, by simp, by simp, ?_, by simp, ?_, ?_, by simp, by simp, by simp, ?_, by simp⟩,
    ⟨hf.ratchet.1, hf.ratchet.2, ?_, hf.base, by simp⟩⟩
  · intro s rec hr
    simp only [h.new s] at hr
    cases hr
  · exact fun s => (h.trusts s).1
  · exact fun s => ⟨rfl, h.key s⟩
  · intro g hg
    rw [List.mem_map] at hg
    obtain ⟨x, hx, rfl⟩ := hg
    exact hf.signed x hx
  · intro x hx
    exact List.mem_map_of_mem hx

theorem Duo.MOk.split (e : MEvent) : ∀ (es : List MEvent) (S : MSys), d.MOk S (es ++ [e]) → d.MOk S es ∧ e.Ok d (d.mrun S es)
  | [], _, h => ⟨trivial, h.1⟩
  | _ :: es, _, h => by
    obtain ⟨h1, h2⟩ := Duo.MOk.split e es _ h.2
    exact ⟨⟨h.1, h1⟩, h2⟩

/-- A side that has started a session, or accepted a message, has a record. -/
theorem MInv.hasRecord {F : List Bytes} {S : MSys} {Ts : List Talk} (h : MInv d ident G F N S Ts) {s : Side}
    (hs : (∃ x ∈ S.started, x.1 = s) ∨ S.got s ≠ []) : ∃ rec, (S.world s).sessions (d.address s.other) = some rec := by
  have key : ∀ T ∈ Ts, ∀ r, T.st r ≠ none → ∃ rec, (S.world (T.x.as r)).sessions (d.address (T.x.as r).other) = some rec := by
    intro T hT r hr
    cases hx : T.st r with
    | none => exact absurd hx hr
    | some u =>
      obtain ⟨rec, a, _⟩ := (h.link T hT r u).mp hx
      exact ⟨rec, a⟩
  rcases hs with ⟨x, hx, he⟩ | hg
  · rw [h.list, List.mem_map] at hx
    obtain ⟨T, hT, rfl⟩ := hx
    simp only at he
    obtain ⟨t, ht, _⟩ := (h.each T hT).alice
    have := key T hT .alice (by rw [ht]; simp)
    rwa [Side.as_alice, he] at this
  · obtain ⟨g, hg⟩ := List.exists_mem_of_ne_nil _ hg
    obtain ⟨T, hT, hn⟩ := h.gtags s g hg
    have hne : (S.proj T).got (T.x.as s) ≠ [] := by
      simp only [MSys.proj, Side.as_as]
      unfold MSys.gotIn
      intro h0
      rw [List.filterMap_eq_nil_iff] at h0
      have := h0 g hg
      rw [if_pos hn] at this
      simp at this
    have := key T hT (T.x.as s) (by
      intro h0
      cases hr : T.x.as s with
      | alice =>
        obtain ⟨t, ht, _⟩ := (h.each T hT).alice
        rw [hr] at h0
        rw [h0] at ht
        simp at ht
      | bob =>
        rw [hr] at h0 hne
        exact hne ((h.each T hT).notReady h0).2.2.2.1)
    rwa [Side.as_as] at this

end Verif
