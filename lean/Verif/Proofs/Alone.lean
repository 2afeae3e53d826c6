import Verif.Proofs.Crash

/-!
# A thread among others does what it does alone: generic part

A call looks at every part of the stores at most once, and never at a part that it has changed. So whatever other calls do in between,
its answers are those of some fixed stores, put together from the parts that it met.
-/

namespace Verif

section

variable {Op : Type → Type} {L α S : Type} (act : ∀ {β}, Op β → S → β × S)

/-- How the stores fall into parts, of which every store call reads or changes one. -/
structure Parts where
  /-- the parts that a store call can read -/
  K : Type
  T : K → Type
  get : ∀ e : K, S → T e
  /-- the places that a store call can change -/
  J : Type
  V : J → Type
  at_ : ∀ j : J, S → V j
  part : ∀ {β : Type}, Op β → K
  place : ∀ {β : Type}, Op β → Option J
  mix : ∀ (e : K) (v w : S), ∃ v', get e v' = get e w ∧ ∀ e', e' ≠ e → get e' v' = get e' v
  read_same : ∀ {β : Type} (op : Op β) (w : S), place op = none → (act op w).2 = w
  read_answer : ∀ {β : Type} (op : Op β) (w w' : S), place op = none → get (part op) w = get (part op) w' → (act op w).1 = (act op w').1
  write_answer : ∀ {β : Type} (op : Op β) (w w' : S) (j : J), place op = some j → (act op w).1 = (act op w').1
  write_parts : ∀ {β : Type} (op : Op β) (w : S) (j : J), place op = some j → ∀ e, e ≠ part op → get e (act op w).2 = get e w
  write_place : ∀ {β : Type} (op : Op β) (w w' : S) (j : J), place op = some j → at_ j (act op w).2 = at_ j (act op w').2
  write_others : ∀ {β : Type} (op : Op β) (w : S) (j : J), place op = some j → ∀ j', j' ≠ j → at_ j' (act op w).2 = at_ j' w

variable {act} (Z : Parts act)

/-- Only the parts `F` are read, each at most once and not after a change. -/
def Prog.Once : (Z.K → Prop) → Prog Op L α → Prop
  | _, .done _ => True
  | F, .call _ op k => (Z.place op = none → F (Z.part op)) ∧ ∀ b, (k b).Once fun e => F e ∧ e ≠ Z.part op
  | F, .own _ k => ∀ b, (k b).Once F

theorem Thread.step_shape {F : Z.K → Prop} (t : Thread Op L α) (h : t.prog.Once Z F) :
    (∃ t' : Thread Op L α, t'.prog.Once Z F ∧ ∀ w : S, t.step act w = (t', w)) ∨
    (∃ (β : Type) (op : Op β) (g : β → Thread Op L α), (Z.place op = none → F (Z.part op)) ∧
      (∀ b, (g b).prog.Once Z fun e => F e ∧ e ≠ Z.part op) ∧ ∀ w : S, t.step act w = (g (act op w).1, (act op w).2)) := by
  obtain ⟨p, l, fs⟩ := t
  cases p with
  | done r => exact .inl ⟨_, h, fun _ => rfl⟩
  | call s op k =>
    have h1 := h.1
    have h2 := h.2
    cases s with
    | true => exact .inr ⟨_, op, fun b => ⟨k b, l, fs⟩, h1, h2, fun _ => rfl⟩
    | false =>
      cases fs with
      | nil => exact .inr ⟨_, op, fun b => ⟨k b, l, []⟩, h1, h2, fun _ => rfl⟩
      | cons f fs =>
        cases f with
        | none => exact .inr ⟨_, op, fun b => ⟨k b, l, fs⟩, h1, h2, fun _ => rfl⟩
        | before => exact .inl ⟨⟨.done (.err .store), l, fs⟩, trivial, fun _ => rfl⟩
        | after => exact .inr ⟨_, op, fun _ => ⟨.done (.err .store), l, fs⟩, h1, fun _ => trivial, fun _ => rfl⟩
  | own f k =>
    rcases hf : f l with ⟨r, l'⟩
    cases r with
    | ok b => exact .inl ⟨⟨k b, l', fs⟩, h b, fun _ => by simp [Thread.step, hf]⟩
    | err e => exact .inl ⟨⟨.done (.err e), l', fs⟩, trivial, fun _ => by simp [Thread.step, hf]⟩
    | panic => exact .inl ⟨⟨.done .panic, l', fs⟩, trivial, fun _ => by simp [Thread.step, hf]⟩

/-- `n` steps of a thread, alone. -/
def Thread.steps (act : ∀ {β}, Op β → S → β × S) : Nat → Thread Op L α → S → Thread Op L α × S
  | 0, t, w => (t, w)
  | n + 1, t, w => let x := Thread.steps act n t w; x.1.step act x.2

theorem Thread.finish_steps (n : Nat) (t : Thread Op L α) (w : S) :
    (Thread.steps act n t w).1.finish act (Thread.steps act n t w).2 = t.finish act w := by
  induction n with
  | zero => rfl
  | succ n ih => simp only [Thread.steps]; rw [Thread.finish_step, ih]

theorem interleave_snoc (s : List Nat) (i : Nat) : ∀ (ts : Nat → Thread Op L α) (w : S),
    interleave act (s ++ [i]) ts w = (upd (interleave act s ts w).1 i (((interleave act s ts w).1 i).step act (interleave act s ts w).2).1,
      (((interleave act s ts w).1 i).step act (interleave act s ts w).2).2) := by
  induction s with
  | nil => intro ts w; rfl
  | cons j s ih => intro ts w; simp only [List.cons_append, interleave]; rw [ih]

theorem Thread.steps_eq_interleave (n : Nat) (ts : Nat → Thread Op L α) (i : Nat) (w : S) :
    Thread.steps act n (ts i) w = ((interleave act (List.replicate n i) ts w).1 i, (interleave act (List.replicate n i) ts w).2) := by
  induction n with
  | zero => rfl
  | succ n ih =>
    simp only [Thread.steps, ih]
    rw [List.replicate_succ', interleave_snoc]
    simp

/-- The thread `i` has come from `t0` to `t`, as it does alone on stores put together from what it met at its turns up to `b`; and what it has
changed alone, it has left so after one of these turns. -/
def ComesTo (i : Nat) (ts : Nat → Thread Op L α) (w : S) (t0 t : Thread Op L α) (b : List Nat) (X : Nat → S → Prop) : Prop :=
  ∃ (v : S) (F : Z.K → Prop) (n : Nat),
    (∀ e, ∃ s1, s1 ++ [i] <+: b ∧ Z.get e v = Z.get e (interleave act s1 ts w).2) ∧ t.prog.Once Z F ∧
    ∀ u, (∀ e, ¬ F e → Z.get e u = Z.get e v) → ∃ u', Thread.steps act n t0 u = (t, u') ∧ (∀ e, F e → Z.get e u' = Z.get e u) ∧
      (∀ j, Z.at_ j u' = Z.at_ j u ∨ ∃ s1, s1 ++ [i] <+: b ∧ Z.at_ j u' = Z.at_ j (interleave act (s1 ++ [i]) ts w).2) ∧ X n u'

theorem ComesTo.mono {i : Nat} {ts : Nat → Thread Op L α} {w : S} {t0 t : Thread Op L α} {b b' : List Nat} {X : Nat → S → Prop}
    (h : ComesTo Z i ts w t0 t b X) (hb : b <+: b') : ComesTo Z i ts w t0 t b' fun _ _ => True := by
  obtain ⟨v, F, n, h1, h2, h3⟩ := h
  refine ⟨v, F, n, fun e => ?_, h2, fun u hu => ?_⟩
  · obtain ⟨s1, hs, he⟩ := h1 e
    exact ⟨s1, hs.trans hb, he⟩
  · obtain ⟨u', k1, k2, k3, -⟩ := h3 u hu
    refine ⟨u', k1, k2, fun j => ?_, trivial⟩
    rcases k3 j with k | ⟨s1, hs, he⟩
    · exact .inl k
    · exact .inr ⟨s1, hs.trans hb, he⟩

theorem ComesTo.step {i : Nat} {ts : Nat → Thread Op L α} {w : S} {t0 : Thread Op L α} {s : List Nat} {X : Nat → S → Prop}
    (h : ComesTo Z i ts w t0 ((interleave act s ts w).1 i) (s ++ [i]) X) :
    ComesTo Z i ts w t0 ((interleave act (s ++ [i]) ts w).1 i) (s ++ [i]) fun n u' => 0 < n ∧
      ∀ j, Z.at_ j (interleave act (s ++ [i]) ts w).2 = Z.at_ j (interleave act s ts w).2 ∨
        Z.at_ j (interleave act (s ++ [i]) ts w).2 = Z.at_ j u' := by
  classical
  obtain ⟨v, F, n, h1, h2, h3⟩ := h
  have e1 : (interleave act (s ++ [i]) ts w).1 i = (((interleave act s ts w).1 i).step act (interleave act s ts w).2).1 := by
    rw [interleave_snoc]; simp
  have e2 : (interleave act (s ++ [i]) ts w).2 = (((interleave act s ts w).1 i).step act (interleave act s ts w).2).2 := by
    rw [interleave_snoc]
  rcases Thread.step_shape Z _ h2 with ⟨t', ht', hst⟩ | ⟨β, op, g, hr, hg, hst⟩
  · rw [hst] at e1 e2
    refine ⟨v, F, n + 1, h1, by rw [e1]; exact ht', fun u hu => ?_⟩
    obtain ⟨u', k1, k2, k3, -⟩ := h3 u hu
    exact ⟨u', by simp only [Thread.steps, k1, hst, e1], k2, k3, Nat.succ_pos _, fun j => .inl (by rw [e2])⟩
  · rcases hp : Z.place op with _ | j0
    · -- it reads
      obtain ⟨v', hv1, hv2⟩ := Z.mix (Z.part op) v (interleave act s ts w).2
      rw [hst] at e1 e2
      rw [Z.read_same op _ hp] at e2
      refine ⟨v', fun e => F e ∧ e ≠ Z.part op, n + 1, fun e => ?_, by rw [e1]; exact hg _, fun u hu => ?_⟩
      · by_cases he : e = Z.part op
        · subst he; exact ⟨s, List.prefix_refl _, hv1⟩
        · rw [hv2 e he]; exact h1 e
      · obtain ⟨u', k1, k2, k3, -⟩ := h3 u fun e he => by
          have hne : e ≠ Z.part op := fun h => he (h ▸ hr hp)
          rw [hu e fun h => he h.1, hv2 e hne]
        have ha : (act op u').1 = (act op (interleave act s ts w).2).1 := by
          refine Z.read_answer op _ _ hp ?_
          rw [k2 _ (hr hp), hu _ fun h => h.2 rfl, hv1]
        refine ⟨u', ?_, fun e he => k2 e he.1, k3, Nat.succ_pos _, fun j => .inl (by rw [e2])⟩
        simp only [Thread.steps, k1, hst, e1, ha, Z.read_same op u' hp]
    · -- it changes something
      rw [hst] at e1 e2
      refine ⟨v, fun e => F e ∧ e ≠ Z.part op, n + 1, h1, by rw [e1]; exact hg _, fun u hu => ?_⟩
      obtain ⟨u', k1, k2, k3, -⟩ := h3 u fun e he => hu e fun h => he h.1
      refine ⟨(act op u').2, ?_, fun e he => ?_, fun j => ?_, Nat.succ_pos _, fun j => ?_⟩
      · simp only [Thread.steps, k1, hst, e1, Z.write_answer op u' (interleave act s ts w).2 j0 hp]
      · rw [Z.write_parts op u' j0 hp e he.2, k2 e he.1]
      · by_cases hj : j = j0
        · subst hj
          refine .inr ⟨s, List.prefix_refl _, ?_⟩
          rw [e2]
          exact Z.write_place op _ _ j hp
        · rw [Z.write_others op u' j0 hp j hj]; exact k3 j
      · by_cases hj : j = j0
        · subst hj
          refine .inr ?_
          rw [e2]
          exact Z.write_place op _ _ j hp
        · refine .inl ?_
          rw [e2]
          exact Z.write_others op _ j0 hp j hj

theorem prefix_snoc {s1 s : List Nat} {i j : Nat} (h : s1 ++ [i] <+: s ++ [j]) : (s1 = s ∧ i = j) ∨ s1 ++ [i] <+: s := by
  rcases List.prefix_concat_iff.1 h with h | h
  · have := List.append_inj' h rfl
    exact .inl ⟨this.1, by simpa using this.2⟩
  · exact .inr h

/-- After a turn of its own. -/
theorem comesTo_turn (ts : Nat → Thread Op L α) (w : S) (i : Nat) (hts : (ts i).prog.Once Z fun _ => True) (s : List Nat) :
    (i ∈ s → ComesTo Z i ts w (ts i) ((interleave act s ts w).1 i) s fun _ _ => True) ∧
    ComesTo Z i ts w (ts i) ((interleave act (s ++ [i]) ts w).1 i) (s ++ [i]) fun n u' => 0 < n ∧
      ∀ j, Z.at_ j (interleave act (s ++ [i]) ts w).2 = Z.at_ j (interleave act s ts w).2 ∨
        Z.at_ j (interleave act (s ++ [i]) ts w).2 = Z.at_ j u' := by
  -- lists from the end
  have snoc : ∀ s : List Nat, (i ∈ s → ComesTo Z i ts w (ts i) ((interleave act s ts w).1 i) s fun _ _ => True) →
      ComesTo Z i ts w (ts i) ((interleave act (s ++ [i]) ts w).1 i) (s ++ [i]) fun n u' => 0 < n ∧
        ∀ j, Z.at_ j (interleave act (s ++ [i]) ts w).2 = Z.at_ j (interleave act s ts w).2 ∨
          Z.at_ j (interleave act (s ++ [i]) ts w).2 = Z.at_ j u' := by
    intro s hs
    by_cases hi : i ∈ s
    · exact ComesTo.step Z (ComesTo.mono Z (hs hi) (List.prefix_append _ _))
    · refine ComesTo.step (X := fun _ _ => True) Z ?_
      rw [interleave_untouched act s ts w hi]
      exact ⟨(interleave act s ts w).2, fun _ => True, 0, fun e => ⟨s, List.prefix_refl _, rfl⟩, hts,
        fun u _ => ⟨u, rfl, fun _ _ => rfl, fun _ => .inl rfl, trivial⟩⟩
  have main : ∀ n (s : List Nat), s.length = n → i ∈ s → ComesTo Z i ts w (ts i) ((interleave act s ts w).1 i) s fun _ _ => True := by
    intro n
    induction n with
    | zero => intro s hs hi; rw [List.length_eq_zero_iff.1 hs] at hi; simp at hi
    | succ n ih =>
      intro s hs hi
      rcases List.eq_nil_or_concat s with h | ⟨s', j, rfl⟩
      · rw [h] at hi; simp at hi
      · rw [List.concat_eq_append] at hs hi ⊢
        have hl : s'.length = n := by simpa using hs
        by_cases hj : j = i
        · subst hj
          exact ComesTo.mono Z (snoc s' (ih s' hl)) (List.prefix_refl _)
        · have hi' : i ∈ s' := by
            rcases List.mem_append.1 hi with h | h
            · exact h
            · exact absurd (List.mem_singleton.1 h) (Ne.symm hj)
          have := ComesTo.mono Z (ih s' hl hi') (List.prefix_append s' [j])
          rw [interleave_snoc]
          simp only
          rw [upd_ne _ _ (Ne.symm hj)]
          exact this
  exact ⟨main _ s rfl, snoc s (main _ s rfl)⟩

/-- What a thread has come to return. -/
theorem comesTo_result (ts : Nat → Thread Op L α) (w : S) (i : Nat) (hts : (ts i).prog.Once Z fun _ => True) (s : List Nat) (hi : i ∈ s)
    {r : Res α} (hr : ((interleave act s ts w).1 i).result = some r) :
    ∃ v : S, (∀ e, ∃ s1, s1 ++ [i] <+: s ∧ Z.get e v = Z.get e (interleave act s1 ts w).2) ∧ ((ts i).finish act v).1 = r ∧
      ∀ j, Z.at_ j ((ts i).finish act v).2.2.2 = Z.at_ j v ∨
        ∃ s1, s1 ++ [i] <+: s ∧ Z.at_ j ((ts i).finish act v).2.2.2 = Z.at_ j (interleave act (s1 ++ [i]) ts w).2 := by
  obtain ⟨v, F, n, h1, -, h3⟩ := (comesTo_turn Z ts w i hts s).1 hi
  obtain ⟨u', k1, -, k3, -⟩ := h3 v fun _ _ => rfl
  have hf := Thread.finish_steps (act := act) n (ts i) v
  rw [k1] at hf
  rw [Thread.finish_result act _ _ hr] at hf
  refine ⟨v, h1, by rw [← hf], ?_⟩
  rw [← hf]
  exact k3

/-- What a thread changes at a turn is what some steps of it alone leave. -/
theorem comesTo_change (ts : Nat → Thread Op L α) (w : S) (i : Nat) (hts : (ts i).prog.Once Z fun _ => True) (s : List Nat) :
    ∃ (v : S) (n : Nat), 0 < n ∧ (∀ e, ∃ s1, s1 ++ [i] <+: s ++ [i] ∧ Z.get e v = Z.get e (interleave act s1 ts w).2) ∧
      ∀ j, Z.at_ j (interleave act (s ++ [i]) ts w).2 = Z.at_ j (interleave act s ts w).2 ∨
        Z.at_ j (interleave act (s ++ [i]) ts w).2 = Z.at_ j (Thread.steps act n (ts i) v).2 := by
  obtain ⟨v, F, n, h1, -, h3⟩ := (comesTo_turn Z ts w i hts s).2
  obtain ⟨u', k1, -, -, k0, k4⟩ := h3 v fun _ _ => rfl
  refine ⟨v, n, k0, h1, ?_⟩
  rw [k1]
  exact k4

/-- The stores that some steps of a thread alone leave are those that the whole thread leaves, perhaps cut off. -/
theorem Thread.steps_cut (t : Thread Op L α) (n : Nat) (v : S) (hs : (Thread.steps act n t v).1.result = none → t.prog.SureReads act) :
    ∃ u : Thread Op L α, u.prog = t.prog ∧ u.loc = t.loc ∧
      ((u = t ∧ (Thread.steps act n t v).1.result ≠ none) ∨ ((Thread.steps act n t v).1.result = none ∧ ∃ m, u.faults = cutFaults m t.faults)) ∧
      (Thread.steps act n t v).2 = (u.finish act v).2.2.2 := by
  obtain ⟨us, h1, h2, h3, h4⟩ := interleave_cut act (List.replicate n 0) (fun _ => t) v
  have e := Thread.steps_eq_interleave (act := act) n (fun _ => t) 0 v
  have e' := Thread.steps_eq_interleave (act := act) n us 0 v
  have hf := Thread.finish_steps (act := act) n (us 0) v
  refine ⟨us 0, (h1 0).1, (h1 0).2, ?_, ?_⟩
  · rw [e]
    by_cases hr : ((interleave act (List.replicate n 0) (fun _ => t) v).1 0).result = none
    · exact .inr ⟨hr, (h4 0 hr).1⟩
    · exact .inl ⟨(h3 0 hr).1, hr⟩
  · rw [← hf, e', e]
    simp only
    rw [← h2]
    by_cases hr : ((interleave act (List.replicate n 0) (fun _ => t) v).1 0).result = none
    · have hq := interleave_sureReads act (List.replicate n 0) (fun _ => t) v 0 (hs (by rw [e]; exact hr))
      rw [(h4 0 hr).2]
      exact (Prog.SureReads.quiet act hq _ _).symm
    · obtain ⟨r, hr'⟩ := Option.ne_none_iff_exists'.1 hr
      rw [(h3 0 hr).2, Thread.finish_result act _ _ hr']

/-! ## Once, step by step -/

theorem Prog.Once.mono {F G : Z.K → Prop} {p : Prog Op L α} (h : p.Once Z F) (hFG : ∀ e, F e → G e) : p.Once Z G := by
  induction p generalizing F G with
  | done r => trivial
  | call s op k ih => exact ⟨fun hp => hFG _ (h.1 hp), fun b => ih b (h.2 b) fun e he => ⟨hFG e he.1, he.2⟩⟩
  | own f k ih => exact fun b => ih b (h b) hFG

/-- The program uses the parts `A` at most, each once. -/
def Prog.OnceIn (A : Z.K → Prop) (p : Prog Op L α) : Prop := p.Once Z A ∧ p.Uses fun _ op => A (Z.part op)

theorem Prog.Once.bind_of {β : Type} {F G A : Z.K → Prop} {p : Prog Op L α} {f : α → Prog Op L β} (hp : p.Once Z G)
    (hu : p.Uses fun _ op => A (Z.part op)) (hGF : ∀ e, G e → F e) (hf : ∀ a, (f a).Once Z fun e => F e ∧ ¬ A e) : (p >>= f).Once Z F := by
  rw [Prog.bind_eq]
  induction p generalizing F G with
  | done r =>
    cases r with
    | ok a => exact (hf a).mono Z fun e h => h.1
    | err e => trivial
    | panic => trivial
  | call s op k ih =>
    refine ⟨fun h => hGF _ (hp.1 h), fun b => ih b (hp.2 b) (hu.2 b) (fun e he => ⟨hGF e he.1, he.2⟩) fun a => ?_⟩
    exact (hf a).mono Z fun e h => ⟨⟨h.1, fun he => h.2 (he ▸ hu.1)⟩, h.2⟩
  | own g k ih => exact fun b => ih b (hp b) (hu b) hGF hf

theorem Prog.uses_true (p : Prog Op L α) : p.Uses fun _ _ => True := by
  induction p with
  | done r => trivial
  | call s op k ih => exact ⟨trivial, ih⟩
  | own f k ih => exact ih

theorem Prog.OnceIn.bind {β : Type} {A : Z.K → Prop} {F : Z.K → Prop} {p : Prog Op L α} {f : α → Prog Op L β} (hp : p.OnceIn Z A)
    (hA : ∀ e, A e → F e) (hf : ∀ a, (f a).Once Z fun e => F e ∧ ¬ A e) : (p >>= f).Once Z F :=
  Prog.Once.bind_of Z hp.1 hp.2 hA hf

end

end Verif
