import Verif.Spec.Crash
import Verif.Proofs.ThreadGroups

/-!
# Schedules that end early
-/

namespace Verif

section

variable {Op : Type → Type} {L α S : Type} (act : ∀ {β}, Op β → S → β × S)

theorem interleave_done (s : List Nat) : ∀ (ts : Nat → Thread Op L α) (w : S) (i : Nat), (ts i).result ≠ none → (interleave act s ts w).1 i = ts i := by
  induction s with
  | nil => intro ts w i _; rfl
  | cons j s ih =>
    intro ts w i h
    simp only [interleave]
    have e : upd ts j ((ts j).step act w).1 i = ts i := by
      by_cases hij : i = j
      · subst hij
        rw [upd_same]
        rcases ht : ts i with ⟨p, l, fs⟩
        rw [ht] at h
        cases p with
        | done r => rfl
        | call s op k => simp [Thread.result] at h
        | own f k => simp [Thread.result] at h
      · rw [upd_ne _ _ hij]
    rw [ih _ _ i (by rw [e]; exact h), e]

theorem cutFaults_succ_nil (n : Nat) : cutFaults (n + 1) [] = .none :: cutFaults n [] := by
  simp [cutFaults, List.replicate_succ]

theorem cutFaults_succ_cons (n : Nat) (f : Fault) (fs : List Fault) : cutFaults (n + 1) (f :: fs) = f :: cutFaults n fs := by
  simp only [cutFaults, List.cons_append, List.take_succ_cons, List.cons.injEq, true_and]
  congr 1
  rw [List.take_append, List.take_append]
  congr 1
  simp only [List.take_replicate]
  congr 1
  omega

/-- The threads that make the same steps, and fail at the next store call after the end of the schedule. -/
theorem interleave_cut (s : List Nat) : ∀ (ts : Nat → Thread Op L α) (w : S), ∃ us : Nat → Thread Op L α,
    (∀ i, (us i).prog = (ts i).prog ∧ (us i).loc = (ts i).loc) ∧
    (interleave act s us w).2 = (interleave act s ts w).2 ∧
    (∀ i, ((interleave act s ts w).1 i).result ≠ none → us i = ts i ∧ (interleave act s us w).1 i = (interleave act s ts w).1 i) ∧
    (∀ i, ((interleave act s ts w).1 i).result = none → (∃ n, (us i).faults = cutFaults n (ts i).faults) ∧
      (interleave act s us w).1 i = { (interleave act s ts w).1 i with faults := [.before] }) := by
  classical
  induction s with
  | nil =>
    intro ts w
    refine ⟨fun i => if (ts i).result = none then { ts i with faults := [.before] } else ts i, ?_, rfl, ?_, ?_⟩
    · intro i
      by_cases h : (ts i).result = none
      · simp only [h, if_true, and_self]
      · simp only [h, if_false, and_self]
    · intro i h
      have h' : (ts i).result ≠ none := h
      simp only [interleave, h', if_false, and_self]
    · intro i h
      have h' : (ts i).result = none := h
      refine ⟨⟨0, ?_⟩, ?_⟩
      · simp only [h', if_true]; rfl
      · simp only [interleave, h', if_true]
  | cons i s ih =>
    intro ts w
    obtain ⟨us, h1, h2, h3, h4⟩ := ih (upd ts i ((ts i).step act w).1) ((ts i).step act w).2
    -- the thread that moves first
    have key : ∃ u : Thread Op L α, u.prog = (ts i).prog ∧ u.loc = (ts i).loc ∧ (u.step act w).1 = us i ∧ (u.step act w).2 = ((ts i).step act w).2 ∧
        (((interleave act (i :: s) ts w).1 i).result ≠ none → u = ts i) ∧
        (((interleave act (i :: s) ts w).1 i).result = none → ∃ n, u.faults = cutFaults n (ts i).faults) := by
      by_cases hr : ((interleave act (i :: s) ts w).1 i).result = none
      rotate_left
      · have := (h3 i hr).1
        rw [upd_same] at this
        exact ⟨ts i, rfl, rfl, this.symm, rfl, fun _ => rfl, fun h => absurd h hr⟩
      · obtain ⟨⟨n, hn⟩, -⟩ := h4 i hr
        obtain ⟨hp, hl⟩ := h1 i
        have hnd : (upd ts i ((ts i).step act w).1 i).result = none := by
          refine Classical.byContradiction fun hne => ?_
          have := interleave_done act s _ ((ts i).step act w).2 i hne
          simp only [interleave] at hr
          rw [this] at hr
          exact hne hr
        rw [upd_same] at hn hp hl hnd
        rcases hu : us i with ⟨up, ul, uf⟩
        rw [hu] at hp hl hn
        rcases ht : ts i with ⟨p, l, fs⟩
        rw [ht] at hn hp hl hnd
        cases p with
        | done r => simp [Thread.step, Thread.result] at hnd
        | call b op k =>
          cases b with
          | true =>
            simp only [Thread.step] at hn hp hl
            subst hp; subst hl; subst hn
            exact ⟨⟨.call true op k, _, cutFaults n fs⟩, rfl, rfl, rfl, rfl, fun h => absurd hr h, fun _ => ⟨n, rfl⟩⟩
          | false =>
            cases fs with
            | nil =>
              simp only [Thread.step, Thread.ask] at hn hp hl
              subst hp; subst hl; subst hn
              exact ⟨⟨.call false op k, _, .none :: cutFaults n []⟩, rfl, rfl, rfl, rfl, fun h => absurd hr h, fun _ => ⟨n + 1, (cutFaults_succ_nil n).symm⟩⟩
            | cons f fs =>
              cases f with
              | none =>
                simp only [Thread.step, Thread.ask] at hn hp hl
                subst hp; subst hl; subst hn
                exact ⟨⟨.call false op k, _, .none :: cutFaults n fs⟩, rfl, rfl, rfl, rfl, fun h => absurd hr h, fun _ => ⟨n + 1, (cutFaults_succ_cons n _ fs).symm⟩⟩
              | before => simp [Thread.step, Thread.ask, Thread.result] at hnd
              | after => simp [Thread.step, Thread.ask, Thread.result] at hnd
        | own f k =>
          rcases hf : f l with ⟨r, l'⟩
          cases r with
          | ok b =>
            simp only [Thread.step, hf] at hn hp hl
            subst hp; subst hl; subst hn
            exact ⟨⟨.own f k, l, cutFaults n fs⟩, rfl, rfl, by simp [Thread.step, hf], by simp [Thread.step, hf], fun h => absurd hr h, fun _ => ⟨n, rfl⟩⟩
          | err e => simp [Thread.step, hf, Thread.result] at hnd
          | panic => simp [Thread.step, hf, Thread.result] at hnd
    obtain ⟨u, k1, k2, k3, k4, k5, k6⟩ := key
    have e : upd (upd us i u) i ((upd us i u i).step act w).1 = us ∧ ((upd us i u i).step act w).2 = ((ts i).step act w).2 := by
      rw [upd_same, k3, k4]
      refine ⟨?_, rfl⟩
      funext j
      by_cases hj : j = i
      · subst hj; rw [upd_same]
      · rw [upd_ne _ _ hj, upd_ne _ _ hj]
    have run : interleave act (i :: s) (upd us i u) w = interleave act s us ((ts i).step act w).2 := by
      simp only [interleave]
      rw [e.1, e.2]
    refine ⟨upd us i u, ?_, ?_, ?_, ?_⟩
    · intro j
      by_cases hj : j = i
      · subst hj; rw [upd_same]; exact ⟨k1, k2⟩
      · have := h1 j
        rw [upd_ne _ _ hj] at this ⊢
        exact this
    · rw [run]; exact h2
    · intro j hj
      rw [run]
      refine ⟨?_, (h3 j hj).2⟩
      by_cases hji : j = i
      · subst hji; rw [upd_same]; exact k5 hj
      · have := (h3 j hj).1
        rw [upd_ne _ _ hji] at this ⊢
        exact this
    · intro j hj
      rw [run]
      refine ⟨?_, (h4 j hj).2⟩
      by_cases hji : j = i
      · subst hji; rw [upd_same]; exact k6 hj
      · have := (h4 j hj).1
        rw [upd_ne _ _ hji] at this ⊢
        exact this

/-- A thread that does nothing more to the stores. -/
def Thread.Quiet (t : Thread Op L α) : Prop := ∀ w : S, (t.finish act w).2.2.2 = w

/-- As `interleave_sorted`, for schedules at whose end the threads are quiet. -/
theorem interleave_sorted_quiet (n k : Nat) (s : List Nat) (hs : s.Pairwise (· ≤ ·)) (hk : ∀ i ∈ s, k ≤ i)
    (ts : Nat → Thread Op L α) (w : S) (hidle : ∀ i, k + n ≤ i → ∃ r, (ts i).prog = .done r)
    (hquiet : ∀ i, k ≤ i → i < k + n → ((interleave act s ts w).1 i).Quiet act) :
    (∀ i, i < n → ((interleave act s ts w).1 (k + i)).result ≠ none →
        ((interleave act s ts w).1 (k + i)).result = (oneByOne act ts k n w).1[i]?) ∧
      (interleave act s ts w).2 = (oneByOne act ts k n w).2 := by
  induction n generalizing k s ts w with
  | zero =>
    rw [interleave_idle act s ts w (fun i hi => hidle i (hk i hi))]
    exact ⟨fun i hi => absurd hi (by omega), rfl⟩
  | succ n ih =>
    induction s generalizing ts w with
    | nil =>
      have hq : ((ts k).finish act w).2.2.2 = w := hquiet k (by omega) (by omega) w
      have := ih (k + 1) [] (by simp) (by simp) ts w (fun i hi => hidle i (by omega))
        (fun i h1 h2 => hquiet i (by omega) (by omega))
      simp only [oneByOne, hq]
      refine ⟨fun i hi hn => ?_, this.2⟩
      cases i with
      | zero =>
        obtain ⟨r, hr⟩ := Option.ne_none_iff_exists'.1 hn
        have hr' : (ts k).result = some r := hr
        rw [(ts k).finish_result act w hr']
        exact hr
      | succ i =>
        have e : k + (i + 1) = k + 1 + i := by omega
        rw [e] at hn ⊢
        simpa using this.1 i (by omega) hn
    | cons j s ihs =>
      rw [List.pairwise_cons] at hs
      by_cases hj : j = k
      · subst hj
        simp only [interleave] at hquiet ⊢
        have hidle' : ∀ i, j + (n + 1) ≤ i → ∃ r, (upd ts j ((ts j).step act w).1 i).prog = .done r := by
          intro i hi
          rw [upd_ne _ _ (by omega)]; exact hidle i hi
        have := ihs hs.2 (fun i hi => hk i (by simp [hi])) _ _ hidle' hquiet
        have e : oneByOne act (upd ts j ((ts j).step act w).1) j (n + 1) ((ts j).step act w).2 = oneByOne act ts j (n + 1) w := by
          simp only [oneByOne, upd_same, Thread.finish_step]
          rw [oneByOne_congr act (us := ts) (j + 1) n (fun i hi => upd_ne _ _ (by omega))]
        rw [e] at this
        exact this
      · have hkj : ∀ i ∈ j :: s, k + 1 ≤ i := by
          intro i hi
          have h1 := hk j (by simp)
          rcases List.mem_cons.1 hi with rfl | hi
          · omega
          · have := hs.1 i hi; omega
        have hnk : k ∉ j :: s := fun h => by have := hkj k h; omega
        have hq : ((ts k).finish act w).2.2.2 = w := by
          have := hquiet k (by omega) (by omega)
          rw [interleave_untouched act _ ts w hnk] at this
          exact this w
        have := ih (k + 1) (j :: s) (List.pairwise_cons.2 hs) hkj ts w (fun i hi => hidle i (by omega))
          (fun i h1 h2 => hquiet i (by omega) (by omega))
        simp only [oneByOne, hq]
        refine ⟨fun i hi hn => ?_, this.2⟩
        cases i with
        | zero =>
          rw [Nat.add_zero, interleave_untouched act _ ts w hnk] at hn ⊢
          obtain ⟨r, hr⟩ := Option.ne_none_iff_exists'.1 hn
          rw [(ts k).finish_result act w hr]
          simpa using hr
        | succ i =>
          have e : k + (i + 1) = k + 1 + i := by omega
          rw [e] at hn ⊢
          simpa using this.1 i (by omega) hn

/-- The store calls that cannot fail change nothing. -/
def Prog.SureReads : Prog Op L α → Prop
  | .done _ => True
  | .call s op k => (s = true → ∀ w : S, (act op w).2 = w) ∧ ∀ b, (k b).SureReads
  | .own _ k => ∀ b, (k b).SureReads

theorem Prog.SureReads.quiet {p : Prog Op L α} (h : p.SureReads act) (l : L) (w : S) : (p.finish act l [.before] w).2.2.2 = w := by
  induction p generalizing l w with
  | done r => rfl
  | call s op k ih =>
    cases s with
    | true =>
      simp only [Prog.finish]
      rw [h.1 rfl w]
      exact ih _ (h.2 _) l w
    | false => rfl
  | own f k ih =>
    simp only [Prog.finish]
    rcases f l with ⟨r, l'⟩
    cases r with
    | ok b => exact ih b (h b) l' w
    | err e => rfl
    | panic => rfl

theorem Thread.step_sureReads (t : Thread Op L α) (h : t.prog.SureReads act) (w : S) : (t.step act w).1.prog.SureReads act := by
  obtain ⟨p, l, fs⟩ := t
  cases p with
  | done r => trivial
  | call s op k =>
    cases s with
    | true => exact h.2 _
    | false =>
      cases fs with
      | nil => exact h.2 _
      | cons f fs => cases f <;> first | exact h.2 _ | trivial
  | own f k =>
    rcases hf : f l with ⟨r, l'⟩
    cases r with
    | ok b => simpa [Thread.step, hf] using h b
    | err e => simp only [Thread.step, hf]; trivial
    | panic => simp only [Thread.step, hf]; trivial

theorem interleave_sureReads (s : List Nat) : ∀ (ts : Nat → Thread Op L α) (w : S) (i : Nat), (ts i).prog.SureReads act →
    ((interleave act s ts w).1 i).prog.SureReads act := by
  induction s with
  | nil => intro ts w i h; exact h
  | cons j s ih =>
    intro ts w i h
    simp only [interleave]
    refine ih _ _ i ?_
    by_cases hij : i = j
    · subst hij; rw [upd_same]; exact Thread.step_sureReads act _ h w
    · rw [upd_ne _ _ hij]; exact h

theorem Prog.SureReads.bind {β : Type} {p : Prog Op L α} {f : α → Prog Op L β} (hp : p.SureReads act)
    (hf : ∀ a, (f a).SureReads act) : (p >>= f).SureReads act := by
  rw [Prog.bind_eq]
  induction p with
  | done r => cases r <;> simp [Prog.bind, hf, Prog.SureReads]
  | call s op k ih => exact ⟨hp.1, fun b => ih b (hp.2 b)⟩
  | own g k ih => exact fun b => ih b (hp b)

theorem Prog.sureReads_ask {β : Type} (op : Op β) : (Prog.ask op : Prog Op L β).SureReads act := ⟨fun h => by simp at h, fun _ => trivial⟩

/-- A schedule that ends early leaves the stores that the calls leave one after the other when those that have not returned
fail at their next store call. -/
theorem interleave_crash (P : Nat → ∀ β, Op β → Prop) (n : Nat) (s : List Nat)
    (hs : s.Pairwise fun j i => i < j → Apart act P j i) (ts : Nat → Thread Op L α) (hu : ∀ i, (ts i).prog.Uses (P i))
    (hsure : ∀ i, (ts i).prog.SureReads act) (w : S) (hidle : ∀ i, n ≤ i → ∃ r, (ts i).prog = .done r) :
    ∃ us : Nat → Thread Op L α, (∀ i, (us i).prog = (ts i).prog ∧ (us i).loc = (ts i).loc) ∧
      (∀ i, ((interleave act s ts w).1 i).result ≠ none → us i = ts i) ∧
      (∀ i, ((interleave act s ts w).1 i).result = none → ∃ n, (us i).faults = cutFaults n (ts i).faults) ∧
      (∀ i, i < n → ((interleave act s ts w).1 i).result ≠ none → ((interleave act s ts w).1 i).result = (oneByOne act us 0 n w).1[i]?) ∧
      (interleave act s ts w).2 = (oneByOne act us 0 n w).2 := by
  obtain ⟨us, h1, h2, h3, h4⟩ := interleave_cut act s ts w
  have hu' : ∀ i, (us i).prog.Uses (P i) := fun i => by rw [(h1 i).1]; exact hu i
  have hsort := interleave_sort act P s hs us hu' w
  have hq : ∀ i, ((interleave act s us w).1 i).Quiet act := by
    intro i w'
    by_cases hr : ((interleave act s ts w).1 i).result = none
    · rw [(h4 i hr).2]
      exact Prog.SureReads.quiet act (interleave_sureReads act s ts w i (hsure i)) _ w'
    · rw [(h3 i hr).2]
      obtain ⟨r, hr'⟩ := Option.ne_none_iff_exists'.1 hr
      rw [Thread.finish_result act _ w' hr']
  have hmain := interleave_sorted_quiet act n 0 (sortTurns s) (sortTurns_sorted s) (fun _ _ => Nat.zero_le _) us w
    (fun i hi => by rw [(h1 i).1]; exact hidle i (by omega)) (fun i _ _ => by rw [← hsort]; exact hq i)
  rw [← hsort] at hmain
  refine ⟨us, h1, fun i h => (h3 i h).1, fun i h => (h4 i h).1, ?_, ?_⟩
  · intro i hi hr
    have := hmain.1 i hi
    rw [Nat.zero_add, (h3 i hr).2] at this
    exact this hr
  · rw [← h2]; exact hmain.2

end

/-! ## The calls -/

theorem SProg.sureReads_me (E : Env) : SProg.me.SureReads (StoreOp.act E) := ⟨fun _ _ => rfl, fun _ => ⟨fun _ _ => rfl, fun _ => trivial⟩⟩
theorem SProg.sureReads_lift {α : Type} (E : Env) (x : Res α) : (SProg.lift x).SureReads (StoreOp.act E) := trivial
theorem SProg.sureReads_random {α : Type} (E : Env) (x : M Bytes α) : (SProg.random x).SureReads (StoreOp.act E) := fun _ => trivial
theorem SProg.sureReads_ask {β : Type} (E : Env) (op : StoreOp β) : (Prog.ask op : SProg β).SureReads (StoreOp.act E) := Prog.sureReads_ask _ op

theorem encryptProg_sureReads (E : Env) (a : Address) (pt : Bytes) : (encryptProg E a pt).SureReads (StoreOp.act E) := by
  unfold encryptProg
  refine (SProg.sureReads_ask E _).bind _ fun o => ?_
  cases o with
  | none => trivial
  | some record =>
    dsimp only
    split
    · trivial
    · refine (SProg.sureReads_lift E _).bind _ fun ⟨msg, state', k⟩ => ?_
      refine (SProg.sureReads_ask E _).bind _ fun t => ?_
      split
      · exact (SProg.sureReads_ask E _).bind _ fun _ => (SProg.sureReads_ask E _).bind _ fun _ => trivial
      · trivial

theorem optKeyPairProg_sureReads (E : Env) (o : Option PreKeyRec) : (optKeyPairProg o).SureReads (StoreOp.act E) := by
  cases o with
  | none => trivial
  | some p => exact (SProg.sureReads_lift E _).bind _ fun k => trivial

theorem processPreKeyV3Prog_sureReads (E : Env) (record : Record) (msg : PreKeyMsg) :
    (processPreKeyV3Prog E record msg).SureReads (StoreOp.act E) := by
  unfold processPreKeyV3Prog
  refine (SProg.sureReads_lift E _).bind _ fun found => ?_
  split
  · trivial
  · refine ((SProg.sureReads_ask E _).bind _ fun o => optKeyPairProg_sureReads E o).bind _ fun sp => ?_
    cases hid : msg.preKeyID with
    | none => exact Prog.SureReads.bind (p := Pure.pure none) _ trivial fun ot => (SProg.sureReads_me E).bind _ fun ⟨_, _⟩ => (SProg.sureReads_lift E _).bind _ fun _ => trivial
    | some id =>
      exact ((SProg.sureReads_ask E _).bind _ fun o => optKeyPairProg_sureReads E o).bind _ fun ot =>
        (SProg.sureReads_me E).bind _ fun ⟨_, _⟩ => (SProg.sureReads_lift E _).bind _ fun _ => trivial

theorem decryptPreKeyProg_sureReads (E : Env) (a : Address) (msg : PreKeyMsg) : (decryptPreKeyProg E a msg).SureReads (StoreOp.act E) := by
  unfold decryptPreKeyProg
  refine (SProg.sureReads_ask E _).bind _ fun stored => ?_
  refine Prog.SureReads.bind _ ?_ fun ⟨id, record⟩ => ?_
  · unfold processPreKeyProg
    refine (SProg.sureReads_ask E _).bind _ fun t => ?_
    split
    · exact (processPreKeyV3Prog_sureReads E _ msg).bind _ fun _ => (SProg.sureReads_ask E _).bind _ fun _ => trivial
    · trivial
  · refine (SProg.sureReads_random E _).bind _ fun ⟨pt, record⟩ => (SProg.sureReads_ask E _).bind _ fun _ => ?_
    cases id with
    | none => trivial
    | some id => exact (SProg.sureReads_ask E _).bind _ fun _ => trivial

theorem decryptSignalProg_sureReads (E : Env) (a : Address) (msg : Signal) : (decryptSignalProg E a msg).SureReads (StoreOp.act E) := by
  unfold decryptSignalProg
  refine (SProg.sureReads_ask E _).bind _ fun o => ?_
  cases o with
  | none => trivial
  | some record =>
    refine (SProg.sureReads_random E _).bind _ fun out => ?_
    dsimp only
    split
    · trivial
    · split
      · refine (SProg.sureReads_ask E _).bind _ fun t => ?_
        split
        · exact (SProg.sureReads_ask E _).bind _ fun _ => (SProg.sureReads_ask E _).bind _ fun _ => trivial
        · trivial
      · trivial
      · trivial

theorem bundleProg_sureReads (E : Env) (a : Address) (b : Bundle) : (bundleProg E a b).SureReads (StoreOp.act E) := by
  unfold bundleProg
  refine (SProg.sureReads_ask E _).bind _ fun t => ?_
  split
  · refine (SProg.sureReads_lift E _).bind _ fun ok => ?_
    split
    · refine (SProg.sureReads_ask E _).bind _ fun stored => (SProg.sureReads_random E _).bind _ fun kp =>
        (SProg.sureReads_me E).bind _ fun ⟨_, _⟩ => (SProg.sureReads_random E _).bind _ fun s =>
        (SProg.sureReads_ask E _).bind _ fun _ => SProg.sureReads_ask E _
    · trivial
  · trivial

theorem Op.prog_sureReads (E : Env) (o : Op) (ho : o.address ≠ none) : (o.prog E).SureReads (StoreOp.act E) := by
  cases o with
  | encrypt a pt => exact (encryptProg_sureReads E a pt).bind _ fun _ => trivial
  | decrypt a m =>
    refine Prog.SureReads.bind _ ?_ fun _ => trivial
    cases m with
    | preKey m => exact (decryptPreKeyProg_sureReads E a m).bind _ fun _ => trivial
    | signal m => exact decryptSignalProg_sureReads E a m
    | senderKey m => trivial
    | plaintext m => trivial
  | bundle a b => exact (bundleProg_sureReads E a b).bind _ fun _ => trivial
  | addPreKey id k => exact absurd rfl ho
  | addSignedPreKey id k => exact absurd rfl ho

theorem runAtOnce_crash {E : Env} (hE : E.aliased = false) (hT : E.TrustIsLocal) (cs : List Call) (s : List Nat) (w : World)
    (hs : InTurn cs s) (hops : ∀ c ∈ cs, c.op.address ≠ none) :
    ∃ cs' : List Call, cs'.length = cs.length ∧ (runAtOnce E cs s w).2.SameStores (runCalls E cs' w).2 ∧
      ∀ (i : Nat) (c c' : Call), cs[i]? = some c → cs'[i]? = some c' →
        (∀ o, (runAtOnce E cs s w).1[i]? = some (some o) → c' = c ∧ (runCalls E cs' w).1[i]? = some o) ∧
        ((runAtOnce E cs s w).1[i]? = some none → c.CutOff c') := by
  have key := interleave_crash (StoreOp.act E)
    (fun i => match cs[i]? with
      | some c => StoreOp.In c.op
      | none => fun _ _ => False) cs.length s ?_ (threads E cs) ?_ ?_ w ?_
  · obtain ⟨us, h1, h2, h3, h4, h5⟩ := key
    let cs' : List Call := cs.mapIdx fun (i : Nat) (c : Call) => { c with faults := (us i).faults }
    have hlen : cs'.length = cs.length := List.length_mapIdx
    have hget : ∀ i, cs'[i]? = cs[i]?.map fun (c : Call) => ({ c with faults := (us i).faults } : Call) := fun i => List.getElem?_mapIdx
    have hus : threads E cs' = us := by
      funext i
      rcases hi : cs[i]? with _ | c
      · have e : threads E cs i = ⟨.done .panic, [], []⟩ := by simp [threads, hi]
        have : us i = threads E cs i := by
          refine h2 i ?_
          rw [interleave_done (StoreOp.act E) s _ _ _ (by rw [e]; simp [Thread.result]), e]
          simp [Thread.result]
        rw [this, e]
        simp [threads, hget, hi]
      · obtain ⟨p1, p2⟩ := h1 i
        rcases hu : us i with ⟨up, ul, uf⟩
        rw [hu] at p1 p2
        simp only [threads, hi] at p1 p2
        simp [threads, hget, hi, p1, p2, hu]
    have h0 := oneByOne_calls hE [] cs' (w := w) (v := w) ⟨rfl, rfl, rfl, rfl, rfl, rfl⟩
    simp only [List.nil_append, List.length_nil, hus, hlen] at h0
    refine ⟨cs', hlen, ?_, ?_⟩
    · have : (runAtOnce E cs s w).2 = (interleave (StoreOp.act E) s (threads E cs) w).2 := rfl
      rw [this, h5]
      exact h0.2
    · intro i c c' hi hi'
      have hin : i < cs.length := (List.getElem?_eq_some_iff.1 hi).1
      have hout : (runAtOnce E cs s w).1[i]? = some (((interleave (StoreOp.act E) s (threads E cs) w).1 i).result.map (Out.of id)) := by
        simp [runAtOnce, hin]
      rw [hget, hi] at hi'
      simp only [Option.map_some, Option.some.injEq] at hi'
      rw [hout]
      refine ⟨fun o ho => ?_, fun ho => ?_⟩
      · rw [Option.some.injEq] at ho
        have hne : ((interleave (StoreOp.act E) s (threads E cs) w).1 i).result ≠ none := by
          intro hn; rw [hn] at ho; cases ho
        refine ⟨?_, ?_⟩
        · rw [← hi', h2 i hne]
          simp [threads, hi]
        · rw [← h0.1, List.getElem?_map, ← h4 i hin hne, ho]
      · rw [Option.some.injEq, Option.map_eq_none_iff] at ho
        obtain ⟨n, hn⟩ := h3 i ho
        refine ⟨by rw [← hi'], by rw [← hi'], n, ?_⟩
        rw [← hi', hn]
        simp [threads, hi]
  · refine hs.imp fun {j i} h hij β γ o p ho hp => ?_
    rcases hj : cs[j]? with _ | d
    · simp [hj] at ho
    · rcases hi : cs[i]? with _ | c
      · simp [hi] at hp
      · simp only [hj, hi] at ho hp
        refine StoreOp.commute hT o p (StoreOp.far_of_not_clash (fun hcl => h hij c d hi hj ?_) ho hp)
        rcases hcl with ⟨e, he, hf | hf⟩ | ⟨e, he, hf⟩
        · exact .inl ⟨e, hf, .inl he⟩
        · exact .inr ⟨e, he, hf⟩
        · exact .inl ⟨e, he, .inr hf⟩
  · intro i
    unfold threads
    rcases hi : cs[i]? with _ | c
    · trivial
    · exact Op.prog_uses E c.op
  · intro i
    unfold threads
    rcases hi : cs[i]? with _ | c
    · trivial
    · exact Op.prog_sureReads E c.op (hops c (List.mem_of_getElem? hi))
  · intro i hi
    exact ⟨.panic, by simp [threads, List.getElem?_eq_none hi]⟩

/-! ## Groups -/

theorem GProg.sureReads_lift {α : Type} (x : Res α) : (GProg.lift x).SureReads GStoreOp.act := trivial
theorem GProg.sureReads_random {α : Type} (x : M Bytes α) : (GProg.random x).SureReads GStoreOp.act := fun _ => trivial
theorem GProg.sureReads_sysRandom {α : Type} (x : M Bytes α) : (GProg.sysRandom x).SureReads GStoreOp.act := fun _ => trivial
theorem GProg.sureReads_ask {β : Type} (op : GStoreOp β) : (Prog.ask op : GProg β).SureReads GStoreOp.act := Prog.sureReads_ask _ op

theorem GOp.prog_sureReads (C : Crypto) (o : GOp) : (o.prog C).SureReads GStoreOp.act := by
  cases o with
  | encrypt a d pt =>
    refine Prog.SureReads.bind _ ?_ fun _ => trivial
    refine (GProg.sureReads_ask _).bind _ fun o => ?_
    cases o with
    | none => trivial
    | some record =>
      exact (GProg.sureReads_lift _).bind _ fun _ => (GProg.sureReads_lift _).bind _ fun _ => (GProg.sureReads_lift _).bind _ fun _ =>
        (GProg.sureReads_random _).bind _ fun _ => (GProg.sureReads_ask _).bind _ fun _ => trivial
  | decrypt a m =>
    refine Prog.SureReads.bind _ ?_ fun _ => trivial
    refine (GProg.sureReads_ask _).bind _ fun o => ?_
    cases o with
    | none => trivial
    | some record =>
      dsimp only
      split
      · trivial
      · split
        · trivial
        · refine (GProg.sureReads_lift _).bind _ fun _ => (GProg.sureReads_lift _).bind _ fun _ => ?_
          split
          · exact (GProg.sureReads_lift _).bind _ fun _ => (GProg.sureReads_lift _).bind _ fun _ => (GProg.sureReads_ask _).bind _ fun _ => trivial
          · trivial
  | process a m =>
    refine Prog.SureReads.bind _ ?_ fun _ => trivial
    exact (GProg.sureReads_ask _).bind _ fun o => (GProg.sureReads_lift _).bind _ fun _ => GProg.sureReads_ask _
  | distribute a d =>
    refine Prog.SureReads.bind _ ?_ fun _ => trivial
    refine (GProg.sureReads_ask _).bind _ fun o => ?_
    cases o with
    | some r => exact (GProg.sureReads_lift (.ok r)).bind _ fun _ => (GProg.sureReads_lift _).bind _ fun _ => (GProg.sureReads_lift _).bind _ fun _ => trivial
    | none =>
      refine Prog.SureReads.bind _ ?_ fun _ => (GProg.sureReads_lift _).bind _ fun _ => (GProg.sureReads_lift _).bind _ fun _ => trivial
      exact (GProg.sureReads_sysRandom _).bind _ fun _ => (GProg.sureReads_random _).bind _ fun _ => (GProg.sureReads_random _).bind _ fun _ =>
        (GProg.sureReads_lift _).bind _ fun _ => (GProg.sureReads_ask _).bind _ fun _ => trivial

theorem runGAtOnce_crash (C : Crypto) (cs : List GCall) (s : List Nat) (w : GWorld) (hs : GInTurn cs s) :
    ∃ cs' : List GCall, cs'.length = cs.length ∧ (runGAtOnce C cs s w).2.records = (runGCalls ⟨C, false⟩ cs' w).2.records ∧
      ∀ (i : Nat) (c c' : GCall), cs[i]? = some c → cs'[i]? = some c' →
        (∀ o, (runGAtOnce C cs s w).1[i]? = some (some o) → c' = c ∧ (runGCalls ⟨C, false⟩ cs' w).1[i]? = some o) ∧
        ((runGAtOnce C cs s w).1[i]? = some none → c.CutOff c') := by
  have key := interleave_crash GStoreOp.act
    (fun i => match cs[i]? with
      | some c => GStoreOp.In c.op.key
      | none => fun _ _ => False) cs.length s ?_ (gThreads C cs) ?_ ?_ w ?_
  · obtain ⟨us, h1, h2, h3, h4, h5⟩ := key
    let cs' : List GCall := cs.mapIdx fun (i : Nat) (c : GCall) => { c with faults := (us i).faults }
    have hlen : cs'.length = cs.length := List.length_mapIdx
    have hget : ∀ i, cs'[i]? = cs[i]?.map fun (c : GCall) => ({ c with faults := (us i).faults } : GCall) := fun i => List.getElem?_mapIdx
    have hus : gThreads C cs' = us := by
      funext i
      rcases hi : cs[i]? with _ | c
      · have e : gThreads C cs i = ⟨.done .panic, ([], []), []⟩ := by simp [gThreads, hi]
        have : us i = gThreads C cs i := by
          refine h2 i ?_
          rw [interleave_done GStoreOp.act s _ _ _ (by rw [e]; simp [Thread.result]), e]
          simp [Thread.result]
        rw [this, e]
        simp [gThreads, hget, hi]
      · obtain ⟨p1, p2⟩ := h1 i
        rcases hu : us i with ⟨up, ul, uf⟩
        rw [hu] at p1 p2
        simp only [gThreads, hi] at p1 p2
        simp [gThreads, hget, hi, p1, p2, hu]
    have h0 := oneByOne_gCalls C [] cs' (w := w) (v := w) rfl
    simp only [List.nil_append, List.length_nil, hus, hlen] at h0
    refine ⟨cs', hlen, ?_, ?_⟩
    · have : (runGAtOnce C cs s w).2 = (interleave GStoreOp.act s (gThreads C cs) w).2 := rfl
      rw [this, h5]
      exact h0.2
    · intro i c c' hi hi'
      have hin : i < cs.length := (List.getElem?_eq_some_iff.1 hi).1
      have hout : (runGAtOnce C cs s w).1[i]? = some (((interleave GStoreOp.act s (gThreads C cs) w).1 i).result.map (GOut.of id)) := by
        simp [runGAtOnce, hin]
      rw [hget, hi] at hi'
      simp only [Option.map_some, Option.some.injEq] at hi'
      rw [hout]
      refine ⟨fun o ho => ?_, fun ho => ?_⟩
      · rw [Option.some.injEq] at ho
        have hne : ((interleave GStoreOp.act s (gThreads C cs) w).1 i).result ≠ none := by
          intro hn; rw [hn] at ho; cases ho
        refine ⟨?_, ?_⟩
        · rw [← hi', h2 i hne]
          simp [gThreads, hi]
        · rw [← h0.1, List.getElem?_map, ← h4 i hin hne, ho]
      · rw [Option.some.injEq, Option.map_eq_none_iff] at ho
        obtain ⟨n, hn⟩ := h3 i ho
        refine ⟨by rw [← hi'], by rw [← hi'], by rw [← hi'], n, ?_⟩
        rw [← hi', hn]
        simp [gThreads, hi]
  · refine hs.imp fun {j i} h hij β γ o p ho hp => ?_
    rcases hj : cs[j]? with _ | d
    · simp [hj] at ho
    · rcases hi : cs[i]? with _ | c
      · simp [hi] at hp
      · simp only [hj, hi] at ho hp
        exact GStoreOp.commute (Ne.symm (h hij c d hi hj)) o p ho hp
  · intro i
    unfold gThreads
    rcases hi : cs[i]? with _ | c
    · trivial
    · exact GOp.prog_uses C c.op
  · intro i
    unfold gThreads
    rcases hi : cs[i]? with _ | c
    · trivial
    · exact GOp.prog_sureReads C c.op
  · intro i hi
    exact ⟨.panic, by simp [gThreads, List.getElem?_eq_none hi]⟩

end Verif
