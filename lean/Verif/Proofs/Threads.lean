import Verif.Spec.Threads

/-!
# Interleaved threads: generic part

A step of a thread is at most one store call. Steps whose store calls commute can be exchanged, so a schedule in which clashing
threads do not overlap can be sorted into one that runs the threads one after the other.
-/

namespace Verif

variable {Op : Type → Type} {L α S : Type}

/-- Every store call the program can make satisfies `P`. -/
def Prog.Uses (P : ∀ β, Op β → Prop) : Prog Op L α → Prop
  | .done _ => True
  | .call _ op k => P _ op ∧ ∀ b, (k b).Uses P
  | .own _ k => ∀ b, (k b).Uses P

/-- The program ends within this many steps. -/
def Prog.Ends : Nat → Prog Op L α → Prop
  | _, .done _ => True
  | 0, _ => False
  | n + 1, .call _ _ k => ∀ b, (k b).Ends n
  | n + 1, .own _ k => ∀ b, (k b).Ends n

/-- Run a program to its end, alone. -/
def Prog.finish (act : ∀ {β}, Op β → S → β × S) : Prog Op L α → L → List Fault → S → Res α × L × List Fault × S
  | .done r, l, fs, w => (r, l, fs, w)
  | .call true op k, l, fs, w => (k (act op w).1).finish act l fs (act op w).2
  | .call false op k, l, fs, w =>
    match fs with
    | [] => (k (act op w).1).finish act l [] (act op w).2
    | .none :: fs => (k (act op w).1).finish act l fs (act op w).2
    | .before :: fs => (.err .store, l, fs, w)
    | .after :: fs => (.err .store, l, fs, (act op w).2)
  | .own f k, l, fs, w =>
    match f l with
    | (.ok b, l') => (k b).finish act l' fs w
    | (.err e, l') => (.err e, l', fs, w)
    | (.panic, l') => (.panic, l', fs, w)

/-- Run a thread to its end, alone. -/
def Thread.finish (act : ∀ {β}, Op β → S → β × S) (t : Thread Op L α) (w : S) : Res α × L × List Fault × S :=
  t.prog.finish act t.loc t.faults w

variable (act : ∀ {β}, Op β → S → β × S)

theorem Thread.finish_step (t : Thread Op L α) (w : S) : (t.step act w).1.finish act (t.step act w).2 = t.finish act w := by
  obtain ⟨p, l, fs⟩ := t
  cases p with
  | done r => rfl
  | call s op k =>
    cases s with
    | true => simp [Thread.step, Thread.finish, Prog.finish]
    | false =>
      cases fs with
      | nil => simp [Thread.step, Thread.ask, Thread.finish, Prog.finish]
      | cons f fs => cases f <;> simp [Thread.step, Thread.ask, Thread.finish, Prog.finish]
  | own f k =>
    rcases h : f l with ⟨r, l'⟩
    cases r <;> simp [Thread.step, Thread.finish, Prog.finish, h]

theorem Thread.finish_result (t : Thread Op L α) (w : S) {r : Res α} (h : t.result = some r) :
    t.finish act w = (r, t.loc, t.faults, w) := by
  obtain ⟨p, l, fs⟩ := t
  cases p <;> simp [Thread.result] at h
  subst h; rfl

/-- A step either leaves the stores alone, or makes exactly one store call. -/
theorem Thread.step_cases {P : ∀ β, Op β → Prop} (t : Thread Op L α) (h : t.prog.Uses P) :
    (∃ t' : Thread Op L α, t'.prog.Uses P ∧ ∀ w : S, t.step act w = (t', w)) ∨
    (∃ (β : Type) (op : Op β) (g : β → Thread Op L α), P _ op ∧ (∀ b, (g b).prog.Uses P) ∧
      ∀ w : S, t.step act w = (g (act op w).1, (act op w).2)) := by
  obtain ⟨p, l, fs⟩ := t
  cases p with
  | done r => exact .inl ⟨_, h, fun _ => rfl⟩
  | call s op k =>
    have h1 : P _ op := h.1
    have h2 : ∀ b, (k b).Uses P := h.2
    cases s with
    | true => exact .inr ⟨_, op, fun b => ⟨k b, l, fs⟩, h1, h2, fun _ => rfl⟩
    | false =>
      cases fs with
      | nil => exact .inr ⟨_, op, fun b => ⟨k b, l, []⟩, h1, h2, fun _ => rfl⟩
      | cons f fs =>
        cases f with
        | none => exact .inr ⟨_, op, fun b => ⟨k b, l, fs⟩, h1, h2, fun _ => rfl⟩
        | before => exact .inl ⟨⟨.done (.err .store), l, fs⟩, trivial, fun _ => rfl⟩
        | after => exact .inr ⟨_, op, fun _ => ⟨.done (.err .store), l, fs⟩, h1, fun _ => trivial, fun _ => rfl⟩
  | own f k =>
    have h2 : ∀ b, (k b).Uses P := h
    rcases hf : f l with ⟨r, l'⟩
    cases r with
    | ok b => exact .inl ⟨⟨k b, l', fs⟩, h2 b, fun _ => by simp [Thread.step, hf]⟩
    | err e => exact .inl ⟨⟨.done (.err e), l', fs⟩, trivial, fun _ => by simp [Thread.step, hf]⟩
    | panic => exact .inl ⟨⟨.done .panic, l', fs⟩, trivial, fun _ => by simp [Thread.step, hf]⟩

/-- Two store calls can be exchanged. -/
def Commute {β γ : Type} (o : Op β) (p : Op γ) : Prop :=
  ∀ w : S, (act p (act o w).2).1 = (act p w).1 ∧ (act o (act p w).2).1 = (act o w).1 ∧
    (act p (act o w).2).2 = (act o (act p w).2).2

theorem Thread.step_comm {P Q : ∀ β, Op β → Prop} (hc : ∀ {β γ} (o : Op β) (p : Op γ), P _ o → Q _ p → Commute act o p)
    (t u : Thread Op L α) (ht : t.prog.Uses P) (hu : u.prog.Uses @Q) (w : S) :
    (u.step act (t.step act w).2).1 = (u.step act w).1 ∧ (t.step act (u.step act w).2).1 = (t.step act w).1 ∧
    (u.step act (t.step act w).2).2 = (t.step act (u.step act w).2).2 := by
  rcases t.step_cases act ht with ⟨t', -, e1⟩ | ⟨β, o, g, ho, -, e1⟩ <;>
    rcases u.step_cases act hu with ⟨u', -, e2⟩ | ⟨γ, p, k, hp, -, e2⟩
  · simp [e1, e2]
  · simp [e1, e2]
  · simp [e1, e2]
  · obtain ⟨a, b, c⟩ := hc o p ho hp w
    simp [e1, e2, a, b, c]

theorem Thread.step_uses {P : ∀ β, Op β → Prop} (t : Thread Op L α) (h : t.prog.Uses P) (w : S) :
    (t.step act w).1.prog.Uses P := by
  rcases t.step_cases act h with ⟨t', h', e⟩ | ⟨β, o, g, -, h', e⟩
  · simpa [e] using h'
  · simpa [e] using h' _

theorem upd_comm {β γ : Type _} [DecidableEq β] (f : β → γ) {a b : β} (x y : γ) (h : a ≠ b) :
    upd (upd f a x) b y = upd (upd f b y) a x := by
  funext z
  by_cases hb : z = b
  · subst hb; simp [upd, Ne.symm h]
  · simp [upd, hb]

theorem upd_idem {β γ : Type _} [DecidableEq β] (f : β → γ) (a : β) (x y : γ) :
    upd (upd f a x) a y = upd f a y := by
  funext z
  by_cases hb : z = a <;> simp [upd, hb]

section Turns

variable (P : Nat → ∀ β, Op β → Prop)

/-- Threads whose steps can be exchanged. -/
def Apart (i j : Nat) : Prop := ∀ {β γ : Type} (o : Op β) (p : Op γ), P i _ o → P j _ p → Commute act o p

theorem interleave_swap {i j : Nat} (hij : i ≠ j) (hc : Apart act P i j) (s : List Nat) (ts : Nat → Thread Op L α)
    (hu : ∀ i, (ts i).prog.Uses (P i)) (w : S) :
    interleave act (i :: j :: s) ts w = interleave act (j :: i :: s) ts w := by
  obtain ⟨a, b, c⟩ := Thread.step_comm act (P := (P i)) (Q := (P j)) hc (ts i) (ts j) (hu i) (hu j) w
  simp only [interleave]
  rw [upd_ne ts _ (Ne.symm hij), upd_ne ts _ hij, a, b, c, upd_comm _ _ _ hij]

theorem uses_step {ts : Nat → Thread Op L α} (hu : ∀ i, (ts i).prog.Uses (P i)) (i : Nat) (w : S) :
    ∀ j, (upd ts i ((ts i).step act w).1 j).prog.Uses (P j) := by
  intro j
  by_cases h : j = i
  · subst h; rw [upd_same]; exact Thread.step_uses act _ (hu j) w
  · rw [upd_ne _ _ h]; exact hu j

/-- Insert into a sorted schedule. -/
def insertTurn (i : Nat) : List Nat → List Nat
  | [] => [i]
  | j :: s => if j < i then j :: insertTurn i s else i :: j :: s

def sortTurns : List Nat → List Nat
  | [] => []
  | i :: s => insertTurn i (sortTurns s)

theorem mem_insertTurn {i k : Nat} {s : List Nat} : k ∈ insertTurn i s ↔ k = i ∨ k ∈ s := by
  induction s with
  | nil => simp [insertTurn]
  | cons j s ih =>
    by_cases h : j < i
    · simp [insertTurn, h, ih, or_left_comm]
    · simp [insertTurn, h]

theorem mem_sortTurns {k : Nat} {s : List Nat} : k ∈ sortTurns s ↔ k ∈ s := by
  induction s with
  | nil => simp [sortTurns]
  | cons j s ih => simp [sortTurns, mem_insertTurn, ih]

theorem insertTurn_sorted (i : Nat) {s : List Nat} (h : s.Pairwise (· ≤ ·)) : (insertTurn i s).Pairwise (· ≤ ·) := by
  induction s with
  | nil => simp [insertTurn]
  | cons j s ih =>
    rw [List.pairwise_cons] at h
    by_cases hj : j < i
    · simp only [insertTurn, hj, if_true, List.pairwise_cons]
      refine ⟨fun k hk => ?_, ih h.2⟩
      rcases mem_insertTurn.1 hk with rfl | hk
      · omega
      · exact h.1 k hk
    · simp only [insertTurn, hj, if_false, List.pairwise_cons]
      refine ⟨fun k hk => ?_, h⟩
      rcases List.mem_cons.1 hk with rfl | hk
      · omega
      · have := h.1 k hk; omega

theorem sortTurns_sorted (s : List Nat) : (sortTurns s).Pairwise (· ≤ ·) := by
  induction s with
  | nil => simp [sortTurns]
  | cons j s ih => exact insertTurn_sorted j ih

theorem interleave_insert (i : Nat) (s : List Nat) (hs : ∀ j ∈ s, j < i → Apart act P i j) (ts : Nat → Thread Op L α)
    (hu : ∀ i, (ts i).prog.Uses (P i)) (w : S) :
    interleave act (i :: s) ts w = interleave act (insertTurn i s) ts w := by
  induction s generalizing ts w with
  | nil => rfl
  | cons j s ih =>
    by_cases h : j < i
    · simp only [insertTurn, h, if_true]
      rw [interleave_swap act P (by omega) (hs j (by simp) h) s ts hu w]
      simp only [interleave] at ih ⊢
      exact ih (fun k hk => hs k (by simp [hk])) _ (uses_step act P hu j w) _
    · simp [insertTurn, h]

/-- A schedule in which only steps that can be exchanged are out of order leads to the same end as the sorted one. -/
theorem interleave_sort (s : List Nat) (hs : s.Pairwise fun j i => i < j → Apart act P j i) (ts : Nat → Thread Op L α)
    (hu : ∀ i, (ts i).prog.Uses (P i)) (w : S) :
    interleave act s ts w = interleave act (sortTurns s) ts w := by
  induction s generalizing ts w with
  | nil => rfl
  | cons i s ih =>
    rw [List.pairwise_cons] at hs
    rw [sortTurns, ← interleave_insert act P i _ (fun j hj => hs.1 j (mem_sortTurns.1 hj)) ts hu w]
    simp only [interleave]
    exact ih hs.2 _ (uses_step act P hu i w) _

end Turns

/-! ## A sorted schedule runs the threads one after the other -/

/-- Run threads `k`, `k+1`, … (`n` of them) to the end, one after the other. -/
def oneByOne (ts : Nat → Thread Op L α) : Nat → Nat → S → List (Res α) × S
  | _, 0, w => ([], w)
  | k, n + 1, w =>
    let r := (ts k).finish act w
    let rest := oneByOne ts (k + 1) n r.2.2.2
    (r.1 :: rest.1, rest.2)

theorem oneByOne_congr {ts us : Nat → Thread Op L α} (k n : Nat) (h : ∀ i, k ≤ i → ts i = us i) (w : S) :
    oneByOne act ts k n w = oneByOne act us k n w := by
  induction n generalizing k w with
  | zero => rfl
  | succ n ih => simp only [oneByOne]; rw [h k (Nat.le_refl k), ih (k + 1) (fun i hi => h i (by omega))]

theorem interleave_untouched (s : List Nat) (ts : Nat → Thread Op L α) (w : S) {i : Nat} (h : i ∉ s) :
    (interleave act s ts w).1 i = ts i := by
  induction s generalizing ts w with
  | nil => rfl
  | cons j s ih =>
    simp only [List.mem_cons, not_or] at h
    simp only [interleave]
    rw [ih _ _ h.2, upd_ne _ _ h.1]

theorem interleave_idle (s : List Nat) (ts : Nat → Thread Op L α) (w : S)
    (h : ∀ i ∈ s, ∃ r, (ts i).prog = .done r) : interleave act s ts w = (ts, w) := by
  induction s generalizing ts w with
  | nil => rfl
  | cons j s ih =>
    obtain ⟨r, hr⟩ := h j (by simp)
    have e : (ts j).step act w = (ts j, w) := by simp [Thread.step, hr]
    have e' : upd ts j (ts j) = ts := by
      funext i; by_cases hi : i = j
      · subst hi; simp
      · rw [upd_ne _ _ hi]
    simp only [interleave, e, e']
    exact ih _ _ fun i hi => h i (by simp [hi])

/-- In a sorted schedule the turns of the first thread come first. -/
theorem interleave_sorted (n k : Nat) (s : List Nat) (hs : s.Pairwise (· ≤ ·)) (hk : ∀ i ∈ s, k ≤ i)
    (ts : Nat → Thread Op L α) (w : S) (hidle : ∀ i, k + n ≤ i → ∃ r, (ts i).prog = .done r)
    (hdone : ∀ i, k ≤ i → i < k + n → ((interleave act s ts w).1 i).result ≠ none) :
    (∀ i, i < n → ((interleave act s ts w).1 (k + i)).result = (oneByOne act ts k n w).1[i]?) ∧
      (interleave act s ts w).2 = (oneByOne act ts k n w).2 := by
  induction n generalizing k s ts w with
  | zero =>
    rw [interleave_idle act s ts w (fun i hi => hidle i (hk i hi))]
    exact ⟨fun i hi => absurd hi (by omega), rfl⟩
  | succ n ih =>
    induction s generalizing ts w with
    | nil =>
      -- every thread has ended already
      have hd := hdone k (by omega) (by omega)
      obtain ⟨r, hr⟩ := Option.ne_none_iff_exists'.1 hd
      have hf := (ts k).finish_result act w hr
      have := ih (k + 1) [] (by simp) (by simp) ts w (fun i hi => hidle i (by omega))
        (fun i h1 h2 => hdone i (by omega) (by omega))
      simp only [oneByOne, hf]
      refine ⟨fun i hi => ?_, this.2⟩
      cases i with
      | zero => simpa using hr
      | succ i => simpa [Nat.add_assoc, Nat.add_comm 1 i] using this.1 i (by omega)
    | cons j s ihs =>
      rw [List.pairwise_cons] at hs
      by_cases hj : j = k
      · subst hj
        simp only [interleave] at hdone ⊢
        have hidle' : ∀ i, j + (n + 1) ≤ i → ∃ r, (upd ts j ((ts j).step act w).1 i).prog = .done r := by
          intro i hi
          rw [upd_ne _ _ (by omega)]; exact hidle i hi
        have := ihs hs.2 (fun i hi => hk i (by simp [hi])) _ _ hidle' hdone
        have e : oneByOne act (upd ts j ((ts j).step act w).1) j (n + 1) ((ts j).step act w).2 = oneByOne act ts j (n + 1) w := by
          simp only [oneByOne, upd_same, Thread.finish_step]
          rw [oneByOne_congr act (us := ts) (j + 1) n (fun i hi => upd_ne _ _ (by omega))]
        rw [e] at this
        exact this
      · have hkj : ∀ i ∈ j :: s, k + 1 ≤ i := by
          intro i hi
          have h1 := hk j (by simp)
          rcases List.mem_cons.1 hi with rfl | hi
          · omega
          · have := hs.1 i hi; omega
        have hnk : k ∉ j :: s := fun h => by have := hkj k h; omega
        have hd := hdone k (by omega) (by omega)
        rw [interleave_untouched act _ ts w hnk] at hd
        obtain ⟨r, hr⟩ := Option.ne_none_iff_exists'.1 hd
        have hf := (ts k).finish_result act w hr
        have := ih (k + 1) (j :: s) (List.pairwise_cons.2 hs) hkj ts w (fun i hi => hidle i (by omega))
          (fun i h1 h2 => hdone i (by omega) (by omega))
        simp only [oneByOne, hf]
        refine ⟨fun i hi => ?_, this.2⟩
        cases i with
        | zero => simpa [interleave_untouched act _ ts w hnk] using hr
        | succ i => simpa [Nat.add_assoc, Nat.add_comm 1 i] using this.1 i (by omega)

theorem oneByOne_length (ts : Nat → Thread Op L α) (k n : Nat) (w : S) : (oneByOne act ts k n w).1.length = n := by
  induction n generalizing k w with
  | zero => rfl
  | succ n ih => simp [oneByOne, ih]

/-- A schedule without overlap of clashing threads is the sequential execution. -/
theorem interleave_oneByOne (P : Nat → ∀ β, Op β → Prop) (n : Nat) (s : List Nat)
    (hs : s.Pairwise fun j i => i < j → Apart act P j i) (ts : Nat → Thread Op L α) (hu : ∀ i, (ts i).prog.Uses (P i)) (w : S)
    (hidle : ∀ i, n ≤ i → ∃ r, (ts i).prog = .done r)
    (hdone : ∀ i, i < n → ((interleave act s ts w).1 i).result ≠ none) :
    (List.range n).map (fun i => ((interleave act s ts w).1 i).result) = (oneByOne act ts 0 n w).1.map some ∧
      (interleave act s ts w).2 = (oneByOne act ts 0 n w).2 := by
  rw [interleave_sort act P s hs ts hu w] at hdone ⊢
  have := interleave_sorted act n 0 _ (sortTurns_sorted s) (fun _ _ => Nat.zero_le _) ts w (by simpa using hidle)
    (fun i _ hi => hdone i (by omega))
  refine ⟨?_, this.2⟩
  apply List.ext_getElem
  · simp [oneByOne_length]
  · intro i h1 h2
    have hi : i < n := by simpa using h1
    have := this.1 i hi
    rw [Nat.zero_add, List.getElem?_eq_getElem (by rw [oneByOne_length]; exact hi)] at this
    simpa using this

/-! ## Threads end -/

theorem Prog.Ends.mono {n m : Nat} (h : n ≤ m) {p : Prog Op L α} (hp : p.Ends n) : p.Ends m := by
  induction p generalizing n m with
  | done r => cases m <;> trivial
  | call s op k ih =>
    cases n with
    | zero => exact hp.elim
    | succ n =>
      cases m with
      | zero => omega
      | succ m => exact fun b => ih b (by omega) (hp b)
  | own f k ih =>
    cases n with
    | zero => exact hp.elim
    | succ n =>
      cases m with
      | zero => omega
      | succ m => exact fun b => ih b (by omega) (hp b)

theorem Thread.step_ends (t : Thread Op L α) (n : Nat) (h : t.prog.Ends (n + 1)) (w : S) : (t.step act w).1.prog.Ends n := by
  obtain ⟨p, l, fs⟩ := t
  cases p with
  | done r => cases n <;> trivial
  | call s op k =>
    cases s with
    | true => exact h _
    | false =>
      cases fs with
      | nil => exact h _
      | cons f fs =>
        cases f with
        | none => exact h _
        | before => cases n <;> trivial
        | after => cases n <;> trivial
  | own f k =>
    rcases hf : f l with ⟨r, l'⟩
    cases r with
    | ok b => simpa [Thread.step, hf] using h b
    | err e => simp only [Thread.step, hf]; cases n <;> trivial
    | panic => simp only [Thread.step, hf]; cases n <;> trivial

theorem Thread.ends_zero {t : Thread Op L α} (h : t.prog.Ends 0) : t.result ≠ none := by
  obtain ⟨p, l, fs⟩ := t
  cases p with
  | done r => simp [Thread.result]
  | call s op k => exact h.elim
  | own f k => exact h.elim

/-- A thread that has had enough turns has ended, whatever the others do. -/
theorem interleave_ends (s : List Nat) (ts : Nat → Thread Op L α) (w : S) (i n : Nat) (h : (ts i).prog.Ends n)
    (hs : n ≤ s.count i) : ((interleave act s ts w).1 i).result ≠ none := by
  induction s generalizing ts w n with
  | nil =>
    have : n = 0 := by simpa using hs
    subst this
    exact Thread.ends_zero h
  | cons j s ih =>
    simp only [interleave]
    by_cases hj : j = i
    · subst hj
      rw [List.count_cons_self] at hs
      refine ih _ _ (n - 1) ?_ (by omega)
      rw [upd_same]
      cases n with
      | zero => exact Thread.step_ends act _ 0 (h.mono (by omega)) w
      | succ n => exact Thread.step_ends act _ n h w
    · rw [List.count_cons_of_ne hj] at hs
      refine ih _ _ n ?_ hs
      rw [upd_ne _ _ (Ne.symm hj)]; exact h

/-! ## Programs and the functions they stand for -/

theorem Prog.bind_eq {β : Type} (p : Prog Op L α) (f : α → Prog Op L β) : (p >>= f) = p.bind f := rfl

theorem Prog.Uses.bind {β : Type} {P : ∀ β, Op β → Prop} {p : Prog Op L α} {f : α → Prog Op L β} (hp : p.Uses P)
    (hf : ∀ a, (f a).Uses P) : (p >>= f).Uses P := by
  rw [Prog.bind_eq]
  induction p with
  | done r => cases r <;> simp [Prog.bind, hf, Prog.Uses]
  | call s op k ih => exact ⟨hp.1, fun b => ih b (hp.2 b)⟩
  | own g k ih => exact fun b => ih b (hp b)

theorem Prog.Ends.bind {β : Type} {p : Prog Op L α} {f : α → Prog Op L β} {n m : Nat} (hp : p.Ends n)
    (hf : ∀ a, (f a).Ends m) : (p >>= f).Ends (n + m) := by
  rw [Prog.bind_eq]
  induction p generalizing n with
  | done r =>
    cases r with
    | ok a => exact (hf a).mono (by omega)
    | err e => simp only [Prog.bind]; cases n + m <;> trivial
    | panic => simp only [Prog.bind]; cases n + m <;> trivial
  | call s op k ih =>
    cases n with
    | zero => exact hp.elim
    | succ n => rw [Nat.succ_add]; exact fun b => ih b (hp b)
  | own g k ih =>
    cases n with
    | zero => exact hp.elim
    | succ n => rw [Nat.succ_add]; exact fun b => ih b (hp b)

theorem Prog.finish_bind {β : Type} (p : Prog Op L α) (f : α → Prog Op L β) (l : L) (fs : List Fault) (w : S) :
    (p >>= f).finish act l fs w =
      match p.finish act l fs w with
      | (.ok a, l', fs', w') => (f a).finish act l' fs' w'
      | (.err e, l', fs', w') => (.err e, l', fs', w')
      | (.panic, l', fs', w') => (.panic, l', fs', w') := by
  rw [Prog.bind_eq]
  induction p generalizing l fs w with
  | done r => cases r <;> rfl
  | call s op k ih =>
    cases s with
    | true => simpa [Prog.bind, Prog.finish] using ih _ _ _ _
    | false =>
      cases fs with
      | nil => simpa [Prog.bind, Prog.finish] using ih _ _ _ _
      | cons f fs =>
        cases f with
        | none => simpa [Prog.bind, Prog.finish] using ih _ _ _ _
        | before => simp [Prog.bind, Prog.finish]
        | after => simp [Prog.bind, Prog.finish]
  | own g k ih =>
    rcases hg : g l with ⟨r, l'⟩
    cases r with
    | ok b => simpa [Prog.bind, Prog.finish, hg] using ih _ _ _ _
    | err e => simp [Prog.bind, Prog.finish, hg]
    | panic => simp [Prog.bind, Prog.finish, hg]

theorem Prog.finish_own {β : Type} (f : M L β) (k : β → Prog Op L α) (l : L) (fs : List Fault) (w : S) :
    (Prog.own f k).finish act l fs w =
      match f l with
      | (.ok b, l') => (k b).finish act l' fs w
      | (.err e, l') => (.err e, l', fs, w)
      | (.panic, l') => (.panic, l', fs, w) := by
  rcases h : f l with ⟨r, l'⟩
  cases r <;> simp [Prog.finish, h]

/-- Every value the program can return satisfies `Q`. -/
def Prog.Gives (Q : α → Prop) : Prog Op L α → Prop
  | .done (.ok a) => Q a
  | .done _ => True
  | .call _ _ k => ∀ b, (k b).Gives Q
  | .own _ k => ∀ b, (k b).Gives Q

theorem Prog.Gives.bind {β : Type} {Q : α → Prop} {R : β → Prop} {p : Prog Op L α} {f : α → Prog Op L β} (hp : p.Gives Q)
    (hf : ∀ a, Q a → (f a).Gives R) : (p >>= f).Gives R := by
  rw [Prog.bind_eq]
  induction p with
  | done r => cases r with
    | ok a => exact hf a hp
    | err e => trivial
    | panic => trivial
  | call s op k ih => exact fun b => ih b (hp b)
  | own g k ih => exact fun b => ih b (hp b)

theorem Prog.gives_true (p : Prog Op L α) : p.Gives fun _ => True := by
  induction p with
  | done r => cases r <;> trivial
  | call s op k ih => exact fun b => ih b
  | own g k ih => exact fun b => ih b

theorem Prog.Uses.bind_of {β : Type} {P : ∀ β, Op β → Prop} {Q : α → Prop} {p : Prog Op L α} {f : α → Prog Op L β} (hp : p.Uses P)
    (hq : p.Gives Q) (hf : ∀ a, Q a → (f a).Uses P) : (p >>= f).Uses P := by
  rw [Prog.bind_eq]
  induction p with
  | done r => cases r with
    | ok a => exact hf a hq
    | err e => trivial
    | panic => trivial
  | call s op k ih => exact ⟨hp.1, fun b => ih b (hp.2 b) (hq b)⟩
  | own g k ih => exact fun b => ih b (hp b) (hq b)

end Verif
