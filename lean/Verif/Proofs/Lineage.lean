import Verif.Proofs.AloneCalls

/-!
# A stored record is always what some of the calls, one after the other, leave

A group call loads a record at its first turn, and from then on it only changes the store.
-/

namespace Verif

section

variable {Op : Type → Type} {L α S : Type} {act : ∀ {β}, Op β → S → β × S} (Z : Parts act)

/-- A thread that reads nothing does the same on any stores. -/
theorem Thread.step_blind (t : Thread Op L α) (h : t.prog.Once Z fun _ => False) :
    ∃ t' : Thread Op L α, t'.prog.Once Z (fun _ => False) ∧ (∀ w : S, (t.step act w).1 = t') ∧
      ∀ j, (∀ w : S, Z.at_ j (t.step act w).2 = Z.at_ j w) ∨ ∀ w v : S, Z.at_ j (t.step act w).2 = Z.at_ j (t.step act v).2 := by
  rcases Thread.step_shape Z t h with ⟨t', ht', hst⟩ | ⟨β, op, g, hr, hg, hst⟩
  · exact ⟨t', ht', fun w => by rw [hst], fun j => .inl fun w => by rw [hst]⟩
  · rcases hp : Z.place op with _ | j0
    · exact (hr hp).elim
    · by_cases hS : Nonempty S
      · obtain ⟨w0⟩ := hS
        refine ⟨g (act op w0).1, (hg _).mono Z fun e he => he.1, fun w => ?_, fun j => ?_⟩
        · rw [hst, Z.write_answer op w w0 j0 hp]
        · by_cases hj : j = j0
          · subst hj
            refine .inr fun w v => ?_
            rw [hst, hst]
            exact Z.write_place op w v j hp
          · refine .inl fun w => ?_
            rw [hst]
            exact Z.write_others op w j0 hp j hj
      · exact ⟨t, h, fun w => (hS ⟨w⟩).elim, fun j => .inl fun w => (hS ⟨w⟩).elim⟩

theorem Thread.steps_once (n : Nat) (t : Thread Op L α) (h : t.prog.Once Z fun _ => False) (v : S) :
    (Thread.steps act n t v).1.prog.Once Z fun _ => False := by
  induction n with
  | zero => exact h
  | succ n ih =>
    obtain ⟨t', h1, h2, -⟩ := Thread.step_blind Z _ ih
    simp only [Thread.steps]
    rw [h2]
    exact h1

theorem blind_thread (ts : Nat → Thread Op L α) (w v : S) (i : Nat) (h : (ts i).prog.Once Z fun _ => False) (s : List Nat) :
    (interleave act s ts w).1 i = (Thread.steps act (s.count i) (ts i) v).1 := by
  have main : ∀ n (s : List Nat), s.length = n → (interleave act s ts w).1 i = (Thread.steps act (s.count i) (ts i) v).1 := by
    intro n
    induction n with
    | zero => intro s hs; rw [List.length_eq_zero_iff.1 hs]; rfl
    | succ n ih =>
      intro s hs
      rcases List.eq_nil_or_concat s with rfl | ⟨s', j, rfl⟩
      · rfl
      · rw [List.concat_eq_append] at hs ⊢
        have hl : s'.length = n := by simpa using hs
        rw [interleave_snoc]
        by_cases hj : j = i
        · subst hj
          simp only [upd_same, List.count_append, List.count_singleton_self, Thread.steps]
          rw [ih s' hl]
          obtain ⟨t', -, h2, -⟩ := Thread.step_blind Z _ (Thread.steps_once Z (s'.count j) (ts j) h v)
          rw [h2, h2]
        · simp only
          rw [upd_ne _ _ (Ne.symm hj), ih s' hl]
          simp [List.count_append, List.count_singleton, hj]
  exact main _ s rfl

/-- What such a thread changes at a turn. -/
theorem blind_change (ts : Nat → Thread Op L α) (w v : S) (i : Nat) (h : (ts i).prog.Once Z fun _ => False) (s : List Nat) (j : Z.J) :
    Z.at_ j (interleave act (s ++ [i]) ts w).2 = Z.at_ j (interleave act s ts w).2 ∨
      Z.at_ j (interleave act (s ++ [i]) ts w).2 = Z.at_ j (Thread.steps act (s.count i + 1) (ts i) v).2 := by
  rw [interleave_snoc]
  simp only [Thread.steps]
  rw [blind_thread Z ts w v i h s]
  obtain ⟨t', -, -, h3⟩ := Thread.step_blind Z _ (Thread.steps_once Z (s.count i) (ts i) h v)
  rcases h3 j with h | h
  · exact .inl (h _)
  · exact .inr (h _ _)

theorem interleave_append (s r : List Nat) : ∀ (ts : Nat → Thread Op L α) (w : S),
    interleave act (s ++ r) ts w = interleave act r (interleave act s ts w).1 (interleave act s ts w).2 := by
  induction s with
  | nil => intro ts w; rfl
  | cons j s ih => intro ts w; simp only [List.cons_append, interleave]; rw [ih]

theorem Thread.steps_front (n : Nat) (t : Thread Op L α) (w : S) :
    Thread.steps act (n + 1) t w = Thread.steps act n (t.step act w).1 (t.step act w).2 := by
  induction n with
  | zero => rfl
  | succ n ih =>
    have : Thread.steps act (n + 1 + 1) t w = (Thread.steps act (n + 1) t w).1.step act (Thread.steps act (n + 1) t w).2 := rfl
    rw [this, ih]
    rfl

end

/-! ## Group calls -/

/-- The first turn of a group call: it loads a record, or ends. -/
theorem GOp.prog_first (C : Crypto) (o : GOp) (l : Bytes × Bytes) (fs : List Fault) (w : GWorld) :
    ((⟨o.prog C, l, fs⟩ : Thread GStoreOp (Bytes × Bytes) GOut).step GStoreOp.act w).2 = w ∧
      GReadsOnce (fun _ => False) ((⟨o.prog C, l, fs⟩ : Thread GStoreOp (Bytes × Bytes) GOut).step GStoreOp.act w).1.prog := by
  have key : ∀ (k : Address × DistId) (f : Option GRecord → GProg GOut), GReadsOnce (fun _ => True) (.call false (.load k) f) →
      ((⟨.call false (.load k) f, l, fs⟩ : Thread GStoreOp (Bytes × Bytes) GOut).step GStoreOp.act w).2 = w ∧
      GReadsOnce (fun _ => False) ((⟨.call false (.load k) f, l, fs⟩ : Thread GStoreOp (Bytes × Bytes) GOut).step GStoreOp.act w).1.prog := by
    intro k f h
    have h2 : ∀ b, GReadsOnce (fun _ => False) (f b) := fun b => (h.2 b).mono _ fun e he => he.2 rfl
    cases fs with
    | nil => exact ⟨rfl, h2 _⟩
    | cons x fs =>
      cases x with
      | none => exact ⟨rfl, h2 _⟩
      | before => exact ⟨rfl, trivial⟩
      | after => exact ⟨rfl, trivial⟩
  have h := GOp.prog_once C o
  cases o with
  | encrypt a d pt => exact key _ _ h
  | decrypt a m => exact key _ _ h
  | process a m => exact key _ _ h
  | distribute a d => exact key _ _ h

/-- What a group call changes at a turn is what it leaves, run on the store that it met at its first turn. -/
theorem runGAtOnce_change_first (C : Crypto) (cs : List GCall) (s : List Nat) (w : GWorld) (i : Nat) (c : GCall) (hc : cs[i]? = some c) :
    (runGAtOnce C cs (s ++ [i]) w).2.records = (runGAtOnce C cs s w).2.records ∨
    ∃ s1 c', s1 ++ [i] <+: s ∧ i ∉ s1 ∧ (c' = c ∨ c.CutOff c') ∧
      ∀ k, (runGAtOnce C cs (s ++ [i]) w).2.records k = (runGAtOnce C cs s w).2.records k ∨
        (runGAtOnce C cs (s ++ [i]) w).2.records k = (c'.run ⟨C, false⟩ (runGAtOnce C cs s1 w).2).2.records k := by
  have ht : gThreads C cs i = ⟨c.op.prog C, (c.rand, c.sysRand), c.faults⟩ := by simp [gThreads, hc]
  by_cases hi : i ∈ s
  · refine .inr ?_
    obtain ⟨s1, s2, rfl, hn⟩ := List.eq_append_cons_of_mem hi
    have hi1 : (interleave GStoreOp.act s1 (gThreads C cs) w).1 i = ⟨c.op.prog C, (c.rand, c.sysRand), c.faults⟩ := by
      rw [interleave_untouched GStoreOp.act s1 _ w hn, ht]
    have hfst := GOp.prog_first C c.op (c.rand, c.sysRand) c.faults (interleave GStoreOp.act s1 (gThreads C cs) w).2
    -- after the first turn
    have e1 : ∀ r, interleave GStoreOp.act (s1 ++ i :: r) (gThreads C cs) w =
        interleave GStoreOp.act r (interleave GStoreOp.act (s1 ++ [i]) (gThreads C cs) w).1 (interleave GStoreOp.act (s1 ++ [i]) (gThreads C cs) w).2 := by
      intro r
      rw [← interleave_append, List.append_assoc]; rfl
    have e2 : (interleave GStoreOp.act (s1 ++ [i]) (gThreads C cs) w).1 i =
        ((⟨c.op.prog C, (c.rand, c.sysRand), c.faults⟩ : Thread GStoreOp (Bytes × Bytes) GOut).step GStoreOp.act (interleave GStoreOp.act s1 (gThreads C cs) w).2).1 := by
      rw [interleave_snoc]; simp only [upd_same]; rw [hi1]
    have hb := blind_change groupParts (interleave GStoreOp.act (s1 ++ [i]) (gThreads C cs) w).1 (interleave GStoreOp.act (s1 ++ [i]) (gThreads C cs) w).2
      (interleave GStoreOp.act s1 (gThreads C cs) w).2 i (by rw [e2]; exact hfst.2) s2
    rw [← e1, ← e1, e2] at hb
    have e3 := Thread.steps_front (act := GStoreOp.act) (s2.count i + 1) (⟨c.op.prog C, (c.rand, c.sysRand), c.faults⟩ : Thread GStoreOp (Bytes × Bytes) GOut)
      (interleave GStoreOp.act s1 (gThreads C cs) w).2
    rw [hfst.1] at e3
    rw [← e3] at hb
    obtain ⟨u, p1, p2, p3, p4⟩ := Thread.steps_cut (act := GStoreOp.act) ⟨c.op.prog C, (c.rand, c.sysRand), c.faults⟩ (s2.count i + 1 + 1)
      (interleave GStoreOp.act s1 (gThreads C cs) w).2 fun _ => GOp.prog_sureReads C c.op
    rcases u with ⟨up, ul, uf⟩
    simp only at p1 p2
    subst p1 p2
    refine ⟨s1, { c with faults := uf }, ⟨s2, by simp⟩, hn, ?_, fun k => ?_⟩
    · rcases p3 with ⟨h, -⟩ | ⟨-, m, hm⟩
      · injection h with _ _ h
        exact .inl (by rw [h])
      · exact .inr ⟨rfl, rfl, rfl, m, hm⟩
    · have hf := GOp.prog_finish C { c with faults := uf } (w := (runGAtOnce C cs s1 w).2) (v := (runGAtOnce C cs s1 w).2) rfl
      rw [List.append_assoc, List.cons_append]
      rcases hb k with h | h
      · exact .inl h
      · refine .inr ?_
        rw [← hf.2]
        refine h.trans ?_
        rw [p4]
        rfl
  · refine .inl ?_
    simp only [runGAtOnce]
    rw [interleave_snoc]
    simp only
    rw [interleave_untouched GStoreOp.act s _ w hi, ht, (GOp.prog_first C c.op _ _ _).1]

/-! ## A group call is about one record -/

theorem GProg.finish_local {α : Type} (k : Address × DistId) (p : GProg α) (hp : p.Uses (GStoreOp.In k)) :
    ∀ (l : Bytes × Bytes) (fs : List Fault) (w v : GWorld), w.records k = v.records k →
      (p.finish GStoreOp.act l fs w).1 = (p.finish GStoreOp.act l fs v).1 ∧
      (p.finish GStoreOp.act l fs w).2.2.2.records k = (p.finish GStoreOp.act l fs v).2.2.2.records k := by
  have hop : ∀ {β : Type} (op : GStoreOp β) (w v : GWorld), GStoreOp.In k _ op → w.records k = v.records k →
      (op.act w).1 = (op.act v).1 ∧ (op.act w).2.records k = (op.act v).2.records k := by
    intro β op w v ho h
    cases op with
    | load k' => cases ho; exact ⟨h, h⟩
    | store k' r => cases ho; exact ⟨rfl, (upd_same ..).trans (upd_same ..).symm⟩
  induction p with
  | done r => intro l fs w v h; exact ⟨rfl, h⟩
  | call s op f ih =>
    intro l fs w v h
    have ho := hop op w v hp.1 h
    cases s with
    | true =>
      simp only [Prog.finish]
      rw [ho.1]
      exact ih _ (hp.2 _) l fs _ _ ho.2
    | false =>
      cases fs with
      | nil =>
        simp only [Prog.finish]
        rw [ho.1]
        exact ih _ (hp.2 _) l [] _ _ ho.2
      | cons x fs =>
        cases x with
        | none =>
          simp only [Prog.finish]
          rw [ho.1]
          exact ih _ (hp.2 _) l fs _ _ ho.2
        | before => exact ⟨rfl, h⟩
        | after => exact ⟨rfl, ho.2⟩
  | own f g ih =>
    intro l fs w v h
    simp only [Prog.finish]
    rcases f l with ⟨r, l'⟩
    cases r with
    | ok b => exact ih b (hp b) l' fs w v h
    | err e => exact ⟨rfl, h⟩
    | panic => exact ⟨rfl, h⟩

theorem GCall.run_local (C : Crypto) (c : GCall) (w v : GWorld) (h : w.records c.op.key = v.records c.op.key) :
    (c.run ⟨C, false⟩ w).1 = (c.run ⟨C, false⟩ v).1 ∧ (c.run ⟨C, false⟩ w).2.records c.op.key = (c.run ⟨C, false⟩ v).2.records c.op.key := by
  have h1 := GOp.prog_finish C c (w := w) (v := w) rfl
  have h2 := GOp.prog_finish C c (w := v) (v := v) rfl
  have h3 := GProg.finish_local c.op.key (c.op.prog C) (GOp.prog_uses C c.op) (c.rand, c.sysRand) c.faults w v h
  rw [h1.1, h2.1, ← h1.2, ← h2.2, h3.1]
  exact ⟨rfl, h3.2⟩

theorem GCall.run_other (C : Crypto) (c : GCall) (w : GWorld) {k : Address × DistId} (h : k ≠ c.op.key) :
    (c.run ⟨C, false⟩ w).2.records k = w.records k := by
  rcases gcall_changed ⟨C, false⟩ c w k with he | ⟨g', hk, -⟩
  · exact he
  · exact absurd hk.symm h

theorem GCall.run_at (C : Crypto) (c : GCall) (w v : GWorld) (k : Address × DistId) (h : w.records k = v.records k) :
    (c.run ⟨C, false⟩ w).2.records k = (c.run ⟨C, false⟩ v).2.records k := by
  by_cases hk : k = c.op.key
  · subst hk; exact (GCall.run_local C c w v h).2
  · rw [GCall.run_other C c w hk, GCall.run_other C c v hk, h]

theorem runGCalls_snoc (E : GEnv) : ∀ (cs : List GCall) (c : GCall) (w : GWorld), (runGCalls E (cs ++ [c]) w).2 = (c.run E (runGCalls E cs w).2).2
  | [], _, _ => rfl
  | d :: cs, c, w => by simp only [List.cons_append, runGCalls]; exact runGCalls_snoc E cs c _

/-- The record is what some of the calls leave, each run at most once. -/
theorem runGAtOnce_lineage (C : Crypto) (cs : List GCall) (w : GWorld) (k : Address × DistId) :
    ∀ (n : Nat) (s : List Nat), s.length ≤ n → ∃ runs : List (Nat × GCall), (runs.map (·.1)).Nodup ∧
      (∀ x ∈ runs, x.1 ∈ s ∧ ∃ c, cs[x.1]? = some c ∧ (x.2 = c ∨ c.CutOff x.2)) ∧
      (runGAtOnce C cs s w).2.records k = (runGCalls ⟨C, false⟩ (runs.map (·.2)) w).2.records k := by
  intro n
  induction n with
  | zero =>
    intro s hs
    rw [List.length_eq_zero_iff.1 (Nat.le_zero.1 hs)]
    exact ⟨[], by simp, by simp, rfl⟩
  | succ n ih =>
    intro s hs
    rcases List.eq_nil_or_concat s with rfl | ⟨s', i, rfl⟩
    · exact ⟨[], by simp, by simp, rfl⟩
    · rw [List.concat_eq_append] at hs ⊢
      have hl : s'.length ≤ n := by simpa using hs
      have stay : (runGAtOnce C cs (s' ++ [i]) w).2.records k = (runGAtOnce C cs s' w).2.records k → ∃ runs : List (Nat × GCall), (runs.map (·.1)).Nodup ∧
          (∀ x ∈ runs, x.1 ∈ s' ++ [i] ∧ ∃ c, cs[x.1]? = some c ∧ (x.2 = c ∨ c.CutOff x.2)) ∧
          (runGAtOnce C cs (s' ++ [i]) w).2.records k = (runGCalls ⟨C, false⟩ (runs.map (·.2)) w).2.records k := by
        intro h
        obtain ⟨runs, h1, h2, h3⟩ := ih s' hl
        exact ⟨runs, h1, fun x hx => ⟨List.mem_append_left _ (h2 x hx).1, (h2 x hx).2⟩, h.trans h3⟩
      rcases hc : cs[i]? with _ | c
      · exact stay (by rw [runGAtOnce_nobody cs s' w i hc])
      · rcases runGAtOnce_change_first C cs s' w i c hc with h | ⟨s1, c', hs1, hn, hcut, h⟩
        · exact stay (by rw [h])
        · rcases h k with h | h
          · exact stay h
          · obtain ⟨runs, h1, h2, h3⟩ := ih s1 (by have := hs1.length_le; simp at this; omega)
            have hsub : ∀ x ∈ s1, x ∈ s' := fun x hx => hs1.subset (List.mem_append_left _ hx)
            refine ⟨runs ++ [(i, c')], ?_, ?_, ?_⟩
            · rw [List.map_append, List.nodup_append]
              refine ⟨h1, by simp, ?_⟩
              intro a ha b hb
              simp only [List.map_cons, List.map_nil, List.mem_singleton] at hb
              subst hb
              rintro rfl
              obtain ⟨x, hx, hxa⟩ := List.mem_map.1 ha
              exact hn (hxa ▸ (h2 x hx).1)
            · intro x hx
              rcases List.mem_append.1 hx with hx | hx
              · exact ⟨List.mem_append_left _ (hsub _ (h2 x hx).1), (h2 x hx).2⟩
              · rw [List.mem_singleton] at hx
                subst hx
                exact ⟨by simp, c, hc, hcut⟩
            · rw [List.map_append]
              simp only [List.map_cons, List.map_nil]
              rw [runGCalls_snoc, h]
              exact GCall.run_at C c' _ _ k h3

/-- The result of a group call is what it returns on the store that it met at its first turn. -/
theorem runGAtOnce_alone_first (C : Crypto) (cs : List GCall) (s : List Nat) (w : GWorld) (i : Nat) (c : GCall)
    (hc : cs[i]? = some c) (hi : i ∈ s) (o : GOut) (ho : (runGAtOnce C cs s w).1[i]? = some (some o)) :
    ∃ s1, s1 ++ [i] <+: s ∧ i ∉ s1 ∧ (c.run ⟨C, false⟩ (runGAtOnce C cs s1 w).2).1 = o := by
  have ht : gThreads C cs i = ⟨c.op.prog C, (c.rand, c.sysRand), c.faults⟩ := by simp [gThreads, hc]
  have hin : i < cs.length := (List.getElem?_eq_some_iff.1 hc).1
  have hout : (runGAtOnce C cs s w).1[i]? = some (((interleave GStoreOp.act s (gThreads C cs) w).1 i).result.map (GOut.of id)) := by
    simp [runGAtOnce, hin]
  rw [hout, Option.some.injEq, Option.map_eq_some_iff] at ho
  obtain ⟨r, hr, rfl⟩ := ho
  obtain ⟨s1, s2, rfl, hn⟩ := List.eq_append_cons_of_mem hi
  have hi1 : (interleave GStoreOp.act s1 (gThreads C cs) w).1 i = ⟨c.op.prog C, (c.rand, c.sysRand), c.faults⟩ := by
    rw [interleave_untouched GStoreOp.act s1 _ w hn, ht]
  have hfst := GOp.prog_first C c.op (c.rand, c.sysRand) c.faults (interleave GStoreOp.act s1 (gThreads C cs) w).2
  have e1 : interleave GStoreOp.act (s1 ++ i :: s2) (gThreads C cs) w =
      interleave GStoreOp.act s2 (interleave GStoreOp.act (s1 ++ [i]) (gThreads C cs) w).1 (interleave GStoreOp.act (s1 ++ [i]) (gThreads C cs) w).2 := by
    rw [← interleave_append, List.append_assoc]; rfl
  have e2 : (interleave GStoreOp.act (s1 ++ [i]) (gThreads C cs) w).1 i =
      ((⟨c.op.prog C, (c.rand, c.sysRand), c.faults⟩ : Thread GStoreOp (Bytes × Bytes) GOut).step GStoreOp.act (interleave GStoreOp.act s1 (gThreads C cs) w).2).1 := by
    rw [interleave_snoc]; simp only [upd_same]; rw [hi1]
  have hb := blind_thread groupParts (interleave GStoreOp.act (s1 ++ [i]) (gThreads C cs) w).1 (interleave GStoreOp.act (s1 ++ [i]) (gThreads C cs) w).2
    (interleave GStoreOp.act s1 (gThreads C cs) w).2 i (by rw [e2]; exact hfst.2) s2
  have e3 := Thread.steps_front (act := GStoreOp.act) (s2.count i) (⟨c.op.prog C, (c.rand, c.sysRand), c.faults⟩ : Thread GStoreOp (Bytes × Bytes) GOut)
    (interleave GStoreOp.act s1 (gThreads C cs) w).2
  rw [hfst.1] at e3
  rw [← e1, e2, ← e3] at hb
  rw [hb] at hr
  have hfin := Thread.finish_steps (act := GStoreOp.act) (s2.count i + 1) (⟨c.op.prog C, (c.rand, c.sysRand), c.faults⟩ : Thread GStoreOp (Bytes × Bytes) GOut)
    (interleave GStoreOp.act s1 (gThreads C cs) w).2
  rw [Thread.finish_result GStoreOp.act _ _ hr] at hfin
  have hf := GOp.prog_finish C c (w := (runGAtOnce C cs s1 w).2) (v := (runGAtOnce C cs s1 w).2) rfl
  refine ⟨s1, ⟨s2, by simp⟩, hn, ?_⟩
  rw [hf.1]
  have := congrArg Prod.fst hfin
  simp only at this
  rw [this]
  rfl

theorem runGAtOnce_sequential (C : Crypto) (cs : List GCall) (s : List Nat) (w : GWorld) (i : Nat) (c : GCall)
    (hc : cs[i]? = some c) (hi : i ∈ s) (o : GOut) (ho : (runGAtOnce C cs s w).1[i]? = some (some o)) :
    ∃ runs : List (Nat × GCall), (i :: runs.map (·.1)).Nodup ∧ (∀ x ∈ runs, ∃ c, cs[x.1]? = some c ∧ (x.2 = c ∨ c.CutOff x.2)) ∧
      (c.run ⟨C, false⟩ (runGCalls ⟨C, false⟩ (runs.map (·.2)) w).2).1 = o := by
  obtain ⟨s1, -, hn, h⟩ := runGAtOnce_alone_first C cs s w i c hc hi o ho
  obtain ⟨runs, h1, h2, h3⟩ := runGAtOnce_lineage C cs w c.op.key _ s1 (Nat.le_refl _)
  refine ⟨runs, List.nodup_cons.2 ⟨fun hm => ?_, h1⟩, fun x hx => (h2 x hx).2, ?_⟩
  · obtain ⟨x, hx, hxi⟩ := List.mem_map.1 hm
    exact hn (hxi ▸ (h2 x hx).1)
  · rw [← (GCall.run_local C c _ _ h3).1, h]

end Verif
