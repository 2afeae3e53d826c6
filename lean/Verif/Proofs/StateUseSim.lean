import Verif.Proofs.StateUseRun

namespace Verif

/-- Memory and values agree. -/
structure UseMem.Inv (m : UseMem) (v : StateVals) : Prop where
  looking : m.looking.Inv v
  fields : m.shared.map (·.1) = v.shared

theorem UseMem.Inv.start (s : SState) (h : Heap) (own : List Slice) (ho : ∀ x ∈ own, h.Valid x) :
    (UseMem.start s h own).Inv { state := s } := ⟨StateMem.Inv.start s h own ho, rfl⟩

theorem StateMem.Inv.holds {m : StateMem} {v : StateVals} (i : m.Inv v) : UHolds 0 m.heap m.state v.state :=
  ⟨i.seen, i.valid, fun _ _ => Nat.zero_le _, i.apart⟩

theorem UseMem.Inv.field {m : UseMem} {v : StateVals} (i : m.Inv v) : ∀ p ∈ m.shared, p.1.slice m.heap m.state = .ok (some p.2) := by
  have h := i.looking.shared
  rw [← i.fields] at h
  replace h : List.Forall₂ (fun x f => SharedField.slice m.heap m.state f = .ok (some x)) (m.shared.map (·.2)) (m.shared.map (·.1)) := h
  generalize m.shared = l at h
  induction l with
  | nil => simp
  | cons a l ih =>
    simp only [List.map_cons, List.forall₂_cons] at h
    intro p hp
    rcases List.mem_cons.1 hp with rfl | hp
    · exact h.1
    · exact ih h.2 p hp

theorem forall₂_of_field {h : Heap} {s : StateOf Slice} (l : List (SharedField × Slice)) (hl : ∀ p ∈ l, p.1.slice h s = .ok (some p.2)) :
    List.Forall₂ (fun x f => SharedField.slice h s f = .ok (some x)) (l.map (·.2)) (l.map (·.1)) := by
  induction l with
  | nil => exact .nil
  | cons a l ih => exact .cons (hl a (by simp)) (ih fun p hp => hl p (by simp [hp]))

theorem UseMem.Inv.place {m : UseMem} {v : StateVals} (i : m.Inv v) {p : SharedField × Slice} (hp : p ∈ m.shared) : p.2 ∈ m.state.places :=
  (shared_put p.1 m.heap m.state i.looking.valid i.looking.apart (i.field p hp) (offset := 0) (bytes := []) (by simp)).1

theorem UseMem.Inv.look (C : Crypto) {m : UseMem} {v : StateVals} (i : m.Inv v) (op : StateOp) :
    (m.step C (.look op)).1 = (v.use C (.look op)).1 ∧ (m.step C (.look op)).2.Inv (v.use C (.look op)).2 := by
  obtain ⟨h1, h2⟩ := i.looking.step C op
  have key : ∀ l : List (SharedField × Slice), l.map (·.2) = (m.looking.step C op).2.shared → l.map (·.1) = (v.step op).2.shared →
      UseMem.Inv ⟨(m.looking.step C op).2.heap, (m.looking.step C op).2.state, (m.looking.step C op).2.own, l⟩ (v.step op).2 := by
    intro l e1 e2
    refine ⟨?_, e2⟩
    have : UseMem.looking ⟨(m.looking.step C op).2.heap, (m.looking.step C op).2.state, (m.looking.step C op).2.own, l⟩ = (m.looking.step C op).2 := by
      simp only [UseMem.looking, e1]
    rw [this]
    exact h2
  refine ⟨h1, ?_⟩
  cases op with
  | shared f =>
    refine key _ ?_ ?_
    · simp only [StateMem.step]
      cases f.slice m.looking.heap m.looking.state with
      | ok o => cases o <;> simp [UseMem.looking]
      | err e => simp [UseMem.looking]
      | panic => simp [UseMem.looking]
    · have hval := shared_value f m.looking.heap m.looking.state i.looking.valid
      rw [i.looking.seen] at hval
      simp only [StateMem.step, StateVals.step]
      rw [hval]
      cases f.slice m.looking.heap m.looking.state with
      | ok o => cases o <;> simp [UseMem.looking, i.fields]
      | err e => simp [UseMem.looking, i.fields]
      | panic => simp [UseMem.looking, i.fields]
  | copied f =>
    refine key _ ?_ i.fields
    simp only [StateMem.step]
    generalize f.slice C m.looking.state m.looking.heap = z
    obtain ⟨r, h⟩ := z
    cases r with
    | ok o => cases o <;> rfl
    | err e => rfl
    | panic => rfl
  | messageKeys k n =>
    refine key _ ?_ i.fields
    simp only [StateMem.step]
    generalize m.looking.state.messageKeySlices m.looking.heap k n = z
    obtain ⟨r, h⟩ := z
    cases r with
    | ok o => cases o <;> rfl
    | err e => rfl
    | panic => rfl
  | write j o b =>
    refine key _ ?_ i.fields
    simp only [StateMem.step]
    cases m.looking.own[j]? with
    | none => rfl
    | some x =>
      simp only [StateMem.writeTo]
      split <;> rfl
  | writeShared j o b =>
    refine key _ ?_ ?_
    · simp only [StateMem.step]
      cases m.looking.shared[j]? with
      | none => rfl
      | some x =>
        simp only [StateMem.writeTo]
        split <;> rfl
    · rw [show m.shared.map (·.1) = v.shared from i.fields]
      simp only [StateVals.step]
      cases v.shared[j]? with
      | none => rfl
      | some f =>
        dsimp only
        split
        · split <;> rfl
        · rfl

/-- More memory, and one more slice of the program's own. -/
theorem UseMem.Inv.alloc {m : UseMem} {v : StateVals} (i : m.Inv v) (b : Bytes) :
    UseMem.Inv { m with heap := (newBytes b m.heap).2, own := m.own ++ [(newBytes b m.heap).1] } v := by
  have h := (parses_bytes b m.heap).1
  exact ⟨i.looking.grows h.grows [(newBytes b m.heap).1] h.fresh, i.fields⟩

theorem UseMem.Inv.grow {m : UseMem} {v : StateVals} (i : m.Inv v) {h : Heap} (g : Grows m.heap h) : UseMem.Inv { m with heap := h } v := by
  have := i.looking.grows g [] (by simp)
  simp only [List.append_nil] at this
  exact ⟨this, i.fields⟩

theorem UseMem.Inv.send (C : Crypto) {m : UseMem} {v : StateVals} (i : m.Inv v) (plaintext : Bytes) :
    (m.step C (.send plaintext)).1 = (v.use C (.send plaintext)).1 ∧ (m.step C (.send plaintext)).2.Inv (v.use C (.send plaintext)).2 := by
  have hs := i.looking.holds
  replace hs : UHolds 0 m.heap m.state v.state := hs
  obtain ⟨g, hd⟩ := does_use_encrypt C plaintext hs (Nat.zero_le _)
  simp only [UseMem.step, StateVals.use]
  generalize encryptStateRef C m.state plaintext m.heap = z at g hd
  obtain ⟨r, h⟩ := z
  generalize encryptState C v.state plaintext = y at hd
  cases r with
  | err e =>
    cases y with
    | err e' =>
      cases (show e = e' from hd)
      exact ⟨rfl, i.grow g⟩
    | _ => exact hd.elim
  | panic =>
    cases y with
    | panic => exact ⟨rfl, i.grow g⟩
    | _ => exact hd.elim
  | ok o =>
    cases y with
    | err e => exact hd.elim
    | panic => exact hd.elim
    | ok y =>
      obtain ⟨c, s'⟩ := o
      obtain ⟨c', v', k'⟩ := y
      obtain ⟨e1, hH, chain, k, x, hsc, hk, hl, hm, e2⟩ := hd
      replace e1 : c = c' := e1
      replace hH : UHolds 0 h s' v' := hH
      replace e2 : s' = m.state.setSenderChainKeyRef chain x := e2
      replace hm : Made m.heap h [x.key] := hm
      subst e1
      refine ⟨rfl, ?_⟩
      let rest : List Slice := StateOf.places { m.state with senderChain := some { chain with chainKey := none } }
      have p1 : m.state.places.Perm (k.key :: rest) := by
        refine List.perm_iff_count.2 fun a => ?_
        show _ = List.count a ([k.key] ++ rest)
        rw [List.count_append]
        simp only [rest]
        rw [StateOf.count_places, StateOf.count_places]
        simp only [hsc, Option.toList_some, List.flatMap_cons, List.flatMap_nil, List.append_nil]
        rw [ChainOf.count_places, ChainOf.count_places]
        simp only [hk, Option.toList_some, Option.toList_none, List.flatMap_cons, List.flatMap_nil, List.append_nil, ChainKeyOf.places, List.count_nil]
        omega
      have p2 : s'.places.Perm (x.key :: rest) := by
        refine List.perm_iff_count.2 fun a => ?_
        show _ = List.count a ([x.key] ++ rest)
        rw [e2, List.count_append]
        simp only [rest, StateOf.setSenderChainKeyRef]
        rw [StateOf.count_places, StateOf.count_places]
        simp only [Option.toList_some, List.flatMap_cons, List.flatMap_nil, List.append_nil]
        rw [ChainOf.count_places, ChainOf.count_places]
        simp only [Option.toList_some, Option.toList_none, List.flatMap_cons, List.flatMap_nil, List.append_nil, ChainKeyOf.places, List.count_nil]
        omega
      have ap := (p1.pairwise_iff fun h => NoOverlap.symm h).1 hs.apart
      rw [List.pairwise_cons] at ap
      -- what leaves the shared slices is the old chain key
      have hold : ∀ y ∈ (m.shared.filter fun p => !p.1.staysOnSend).map (·.2), y = k.key := by
        intro y hy
        obtain ⟨p, hp, rfl⟩ := List.mem_map.1 hy
        obtain ⟨hp, hst⟩ := List.mem_filter.1 hp
        have hf := i.field p hp
        obtain ⟨f, z⟩ := p
        cases f with
        | senderChainKey =>
          simp only [SharedField.slice, StateOf.senderChainKeySlice, hsc, hk, keySlice, hl, ne_eq, not_true, if_false, Res.bind_ok] at hf
          have := Option.some.inj (Res.ok.inj hf)
          exact this.symm
        | _ => simp [SharedField.staysOnSend] at hst
      have vk : m.heap.Valid k.key := hs.valid _ (p1.mem_iff.2 (by simp))
      have i1 : UseMem.Inv ⟨h, s', m.own ++ (m.shared.filter fun p => !p.1.staysOnSend).map (·.2), m.shared.filter fun p => p.1.staysOnSend⟩
          { state := v', shared := v.shared.filter fun f => f.staysOnSend } := by
        refine ⟨⟨hH.seen, hH.valid, ?_, hH.apart, ?_, ?_⟩, ?_⟩
        · intro y hy
          rcases List.mem_append.1 hy with hy | hy
          · exact g.valid (i.looking.validOwn y hy)
          · rw [hold y hy]
            exact g.valid vk
        · intro y hy p hp
          rcases List.mem_cons.1 (p2.mem_iff.1 hp) with rfl | hp
          · have hf := (hm.fresh x.key (by simp)).1
            have vy : m.heap.Valid y := by
              rcases List.mem_append.1 hy with hy | hy
              · exact i.looking.validOwn y hy
              · rw [hold y hy]; exact vk
            have := vy.1
            exact .inl (by omega)
          · rcases List.mem_append.1 hy with hy | hy
            · exact i.looking.apartOwn y hy p (p1.mem_iff.2 (by simp [hp]))
            · rw [hold y hy]
              exact ap.1 p hp
        · show List.Forall₂ (fun x f => SharedField.slice h s' f = .ok (some x)) ((m.shared.filter fun p => p.1.staysOnSend).map (·.2)) (v.shared.filter fun f => f.staysOnSend)
          have e : v.shared.filter (fun f => f.staysOnSend) = (m.shared.filter fun p => p.1.staysOnSend).map (·.1) := by
            rw [← i.fields, List.filter_map]
            rfl
          rw [e]
          refine forall₂_of_field _ fun p hp => ?_
          obtain ⟨hp, hst⟩ := List.mem_filter.1 hp
          have hf := i.field p hp
          rw [← hf]
          obtain ⟨f, z⟩ := p
          cases f with
          | senderChainKey => simp [SharedField.staysOnSend] at hst
          | receiverChainKey q =>
            simp only [SharedField.slice, StateOf.receiverChainKeySlice]
            have g' : Grows m.heap h := g
            rw [show s'.receiverChains = m.state.receiverChains from by rw [e2]; rfl, hs.find_grows g']
          | rootKey => rw [e2]; rfl
          | aliceBaseKey => rw [e2]; rfl
        · rw [← i.fields]
          rw [List.filter_map]
          rfl
      exact i1.alloc c.bytes

theorem UseMem.Inv.receive (C : Crypto) {m : UseMem} {v : StateVals} (i : m.Inv v) (c : Signal) (random : Bytes) :
    (m.step C (.receive c random)).1 = (v.use C (.receive c random)).1 ∧ (m.step C (.receive c random)).2.Inv (v.use C (.receive c random)).2 := by
  obtain ⟨g, -, hd⟩ := doesR_decrypt C c (m := ⟨m.heap, random⟩) (s := m.state)
  have es : m.state.seen m.heap = v.state := i.looking.seen
  dsimp only at g hd
  rw [es] at hd
  simp only [UseMem.step, StateVals.use]
  generalize decryptStateRef C m.state c ⟨m.heap, random⟩ = z at g hd
  obtain ⟨r, n⟩ := z
  generalize (decryptMessageSession C v.state c random).1 = y at hd
  cases r with
  | err e =>
    cases y with
    | err e' =>
      cases (show e = e' from hd)
      exact ⟨rfl, i.grow g⟩
    | _ => exact hd.elim
  | panic =>
    cases y with
    | panic => exact ⟨rfl, i.grow g⟩
    | _ => exact hd.elim
  | ok o =>
    cases y with
    | err e => exact hd.elim
    | panic => exact hd.elim
    | ok y =>
      obtain ⟨p, s'⟩ := o
      obtain ⟨p', v'⟩ := y
      obtain ⟨e1, hH⟩ := hd
      replace e1 : p = p' := e1
      replace hH : UHolds m.heap.length n.heap s' v' := hH
      subst e1
      refine ⟨rfl, ?_⟩
      have hold : ∀ y ∈ m.own ++ m.shared.map (·.2), m.heap.Valid y := by
        intro y hy
        rcases List.mem_append.1 hy with hy | hy
        · exact i.looking.validOwn y hy
        · obtain ⟨q, hq, rfl⟩ := List.mem_map.1 hy
          exact i.looking.valid _ (i.place hq)
      have i1 : UseMem.Inv ⟨n.heap, s', m.own ++ m.shared.map (·.2), []⟩ { state := v' } := by
        refine ⟨⟨hH.seen, hH.valid, fun y hy => g.valid (hold y hy), hH.apart, fun y hy q hq => .inl ?_, .nil⟩, rfl⟩
        have a := (hold y hy).1
        have b := hH.fresh q hq
        omega
      exact i1.alloc p

theorem UseMem.Inv.step (C : Crypto) {m : UseMem} {v : StateVals} (i : m.Inv v) (op : UseOp) :
    (m.step C op).1 = (v.use C op).1 ∧ (m.step C op).2.Inv (v.use C op).2 := by
  cases op with
  | look op => exact i.look C op
  | send plaintext => exact i.send C plaintext
  | receive c random => exact i.receive C c random

theorem UseMem.Inv.run (C : Crypto) {m : UseMem} {v : StateVals} (i : m.Inv v) (ops : List UseOp) :
    (m.run C ops).1 = (v.uses C ops).1 ∧ (m.run C ops).2.Inv (v.uses C ops).2 := by
  induction ops generalizing m v with
  | nil => exact ⟨rfl, i⟩
  | cons op ops ih =>
    obtain ⟨h1, h2⟩ := i.step C op
    obtain ⟨h3, h4⟩ := ih h2
    exact ⟨by simp only [UseMem.run, StateVals.uses, h1, h3], h4⟩

end Verif
