import Verif.Proofs.ThreadCalls

/-!
# The group calls as threads
-/

namespace Verif

/-- Run alone, the program is this function. -/
def GModels {α : Type} (p : GProg α) (x : M GWorld α) : Prop :=
  ∀ (w : GWorld) (l : Bytes × Bytes) (fs : List Fault), x { w with rand := l.1, sysRand := l.2, faults := fs } =
    ((p.finish GStoreOp.act l fs w).1,
      { (p.finish GStoreOp.act l fs w).2.2.2 with rand := (p.finish GStoreOp.act l fs w).2.1.1, sysRand := (p.finish GStoreOp.act l fs w).2.1.2, faults := (p.finish GStoreOp.act l fs w).2.2.1 })

theorem GModels.bind {α β : Type} {p : GProg α} {x : M GWorld α} {f : α → GProg β} {g : α → M GWorld β}
    (hp : GModels p x) (hf : ∀ a, GModels (f a) (g a)) : GModels (p >>= f) (x >>= g) := by
  intro w l fs
  rw [M.bind_run, hp w l fs, Prog.finish_bind]
  rcases p.finish GStoreOp.act l fs w with ⟨r, l', fs', w'⟩
  cases r with
  | ok a => exact hf a w' l' fs'
  | err e => rfl
  | panic => rfl

theorem GModels.pure {α : Type} (a : α) : GModels (Pure.pure a : GProg α) (Pure.pure a) := fun _ _ _ => rfl
theorem GModels.throw {α : Type} (e : Err) : GModels (.done (.err e) : GProg α) (M.throw e) := fun _ _ _ => rfl
theorem GModels.lift {α : Type} (r : Res α) : GModels (GProg.lift r) (M.lift r) := fun _ _ _ => rfl

theorem GModels.random {α : Type} (x : M Bytes α) : GModels (GProg.random x) (gWithRand x) := by
  intro w l fs
  simp only [gWithRand, GProg.random, Prog.finish, callerReader]
  rcases x l.1 with ⟨r, l'⟩
  cases r <;> rfl

theorem GModels.sysRandom {α : Type} (x : M Bytes α) : GModels (GProg.sysRandom x) (gWithSysRand x) := by
  intro w l fs
  simp only [gWithSysRand, GProg.sysRandom, Prog.finish, systemReader]
  rcases x l.2 with ⟨r, l'⟩
  cases r <;> rfl

theorem GModels.ask {β : Type} (op : GStoreOp β) (a : GWorld → β × GWorld)
    (h : ∀ w l m fs, a { w with rand := l, sysRand := m, faults := fs } =
      ((op.act w).1, { (op.act w).2 with rand := l, sysRand := m, faults := fs })) :
    GModels (.ask op) (gStoreCall a) := by
  intro w l fs
  cases fs with
  | nil => simp [gStoreCall, Prog.ask, Prog.finish, h w l.1 l.2 []]
  | cons f fs =>
    cases f with
    | none => have := h w l.1 l.2 fs; simp_all [gStoreCall, Prog.ask, Prog.finish]
    | before => simp [gStoreCall, Prog.ask, Prog.finish]
    | after => have := h w l.1 l.2 fs; simp_all [gStoreCall, Prog.ask, Prog.finish]

theorem GModels.load (k : Address × DistId) : GModels (.ask (.load k)) (gLoad k) := .ask _ _ fun _ _ _ _ => rfl
theorem GModels.store (k : Address × DistId) (r : GRecord) : GModels (.ask (.store k r)) (gStore k r) :=
  .ask _ _ fun _ _ _ _ => rfl

theorem gTouch_bind {α : Type} (k : Address × DistId) (b : Bool) (r : GRecord) (x : M GWorld α) :
    (gTouch false k b r >>= fun _ => x) = x := by
  funext w
  simp [M.bind_run, gTouch]

theorem groupEncryptProg_models (C : Crypto) (a : Address) (d : DistId) (pt : Bytes) :
    GModels (groupEncryptProg C a d pt) (groupEncrypt C false a d pt) := by
  unfold groupEncryptProg groupEncrypt
  refine (GModels.load _).bind fun o => ?_
  cases o with
  | none => exact .throw _
  | some record =>
    refine (GModels.lift _).bind fun state => (GModels.lift _).bind fun ct => (GModels.lift _).bind fun sk =>
      (GModels.random _).bind fun msg => ?_
    rw [gTouch_bind]
    exact (GModels.store _ _).bind fun _ => .pure _

theorem groupDecryptProg_models (C : Crypto) (a : Address) (m : SenderKeyMsg) :
    GModels (groupDecryptProg C a m) (groupDecrypt C false a m) := by
  unfold groupDecryptProg groupDecrypt
  refine (GModels.load _).bind fun o => ?_
  cases o with
  | none => exact .throw _
  | some record =>
    dsimp only
    rcases GRecord.stateForChainID record m.chainID with _ | state
    · exact .throw _
    · dsimp only
      split
      · exact .throw _
      · refine (GModels.lift _).bind fun sk => (GModels.lift _).bind fun ok => ?_
        split
        · refine (GModels.lift _).bind fun ⟨mk, s'⟩ => ?_
          dsimp only
          rw [gTouch_bind]
          exact (GModels.lift _).bind fun _ => (GModels.store _ _).bind fun _ => .pure _
        · exact .throw _

theorem processDistributionProg_models (a : Address) (m : DistributionMsg) :
    GModels (processDistributionProg a m) (processDistribution false a m) := by
  unfold processDistributionProg processDistribution
  refine (GModels.load _).bind fun o => (GModels.lift _).bind fun r => ?_
  rw [gTouch_bind]
  exact GModels.store _ _

theorem newDistributionProg_models (C : Crypto) (a : Address) (d : DistId) :
    GModels (newDistributionProg C a d) (newSenderKeyDistribution C a d) := by
  unfold newDistributionProg newSenderKeyDistribution
  refine (GModels.load _).bind fun o => ?_
  cases o with
  | some r => exact (GModels.pure _).bind fun _ => (GModels.lift _).bind fun _ => (GModels.lift _).bind fun _ => .pure _
  | none =>
    refine GModels.bind ?_ fun _ => (GModels.lift _).bind fun _ => (GModels.lift _).bind fun _ => .pure _
    unfold createSenderKeyProg createSenderKey
    exact (GModels.sysRandom _).bind fun _ => (GModels.random _).bind fun _ => (GModels.random _).bind fun _ =>
      (GModels.lift _).bind fun _ => (GModels.store _ _).bind fun _ => .pure _

theorem GOp.prog_finish (C : Crypto) (c : GCall) {w v : GWorld} (hw : w.records = v.records) :
    let r := (c.op.prog C).finish GStoreOp.act (c.rand, c.sysRand) c.faults w
    (c.run ⟨C, false⟩ v).1 = GOut.of id r.1 ∧ r.2.2.2.records = (c.run ⟨C, false⟩ v).2.records := by
  obtain ⟨op, l, m, fs⟩ := c
  have hv : ({ v with rand := l, sysRand := m, faults := fs } : GWorld) = { w with rand := l, sysRand := m, faults := fs } := by
    simp [hw]
  have key : ∀ {α : Type} (p : GProg α) (x : M GWorld α) (f : α → GOut), GModels p x →
      let r := (p >>= fun a => (Pure.pure (f a) : GProg GOut)).finish GStoreOp.act (l, m) fs w
      GOut.of f (x { v with rand := l, sysRand := m, faults := fs }).1 = GOut.of id r.1 ∧
        r.2.2.2.records = (x { v with rand := l, sysRand := m, faults := fs }).2.records := by
    intro α p x f hp
    dsimp only
    rw [hv, hp w (l, m) fs, Prog.finish_bind]
    rcases p.finish GStoreOp.act (l, m) fs w with ⟨r, l', fs', w'⟩
    cases r <;> exact ⟨rfl, rfl⟩
  cases op with
  | encrypt a d pt => exact key _ _ (.ciphertext a d) (groupEncryptProg_models C a d pt)
  | decrypt a m => exact key _ _ (.plaintext a m) (groupDecryptProg_models C a m)
  | process a m => exact key _ _ (fun _ => .done) (processDistributionProg_models a m)
  | distribute a d => exact key _ _ (.distribution a d) (newDistributionProg_models C a d)

/-- The store call is about this sender key. -/
def GStoreOp.In (k : Address × DistId) : ∀ β, GStoreOp β → Prop
  | _, .load k' => k' = k
  | _, .store k' _ => k' = k

theorem GStoreOp.commute {k k' : Address × DistId} (h : k ≠ k') {β γ : Type} (x : GStoreOp β) (y : GStoreOp γ)
    (hx : GStoreOp.In k _ x) (hy : GStoreOp.In k' _ y) : Commute GStoreOp.act x y := by
  intro w
  cases x <;> cases y <;> simp only [GStoreOp.In] at hx hy <;> subst hx <;> subst hy
  · exact ⟨rfl, rfl, rfl⟩
  · exact ⟨rfl, upd_ne _ _ h, rfl⟩
  · exact ⟨upd_ne _ _ (Ne.symm h), rfl, rfl⟩
  · exact ⟨rfl, rfl, congrArg (fun m => { w with records := m }) (upd_comm _ _ _ h)⟩

theorem GProg.uses_random {α : Type} {P : ∀ β, GStoreOp β → Prop} (x : M Bytes α) : (GProg.random x).Uses P := fun _ => trivial
theorem GProg.uses_sysRandom {α : Type} {P : ∀ β, GStoreOp β → Prop} (x : M Bytes α) : (GProg.sysRandom x).Uses P := fun _ => trivial
theorem GProg.uses_lift {α : Type} {P : ∀ β, GStoreOp β → Prop} (x : Res α) : (GProg.lift x).Uses P := trivial

theorem GOp.prog_uses (C : Crypto) (o : GOp) : (o.prog C).Uses (GStoreOp.In o.key) := by
  have hl : ∀ k, k = o.key → GStoreOp.In o.key _ (.load k) := fun k h => h
  have hs : ∀ k r, k = o.key → GStoreOp.In o.key _ (.store k r) := fun k r h => h
  cases o with
  | encrypt a d pt =>
    refine Prog.Uses.bind ?_ fun _ => trivial
    refine (Prog.uses_ask (hl _ rfl)).bind fun o => ?_
    cases o with
    | none => trivial
    | some record =>
      exact (GProg.uses_lift _).bind fun _ => (GProg.uses_lift _).bind fun _ => (GProg.uses_lift _).bind fun _ =>
        (GProg.uses_random _).bind fun _ => (Prog.uses_ask (hs _ _ rfl)).bind fun _ => trivial
  | decrypt a m =>
    refine Prog.Uses.bind ?_ fun _ => trivial
    refine (Prog.uses_ask (hl _ rfl)).bind fun o => ?_
    cases o with
    | none => trivial
    | some record =>
      dsimp only
      split
      · trivial
      · split
        · trivial
        · refine (GProg.uses_lift _).bind fun _ => (GProg.uses_lift _).bind fun _ => ?_
          split
          · exact (GProg.uses_lift _).bind fun _ => (GProg.uses_lift _).bind fun _ => (Prog.uses_ask (hs _ _ rfl)).bind fun _ => trivial
          · trivial
  | process a m =>
    refine Prog.Uses.bind ?_ fun _ => trivial
    exact (Prog.uses_ask (hl _ rfl)).bind fun o => (GProg.uses_lift _).bind fun _ => Prog.uses_ask (hs _ _ rfl)
  | distribute a d =>
    refine Prog.Uses.bind ?_ fun _ => trivial
    refine (Prog.uses_ask (hl _ rfl)).bind fun o => ?_
    cases o with
    | some r => exact (GProg.uses_lift (.ok r)).bind fun _ => (GProg.uses_lift _).bind fun _ => (GProg.uses_lift _).bind fun _ => trivial
    | none =>
      refine Prog.Uses.bind ?_ fun _ => (GProg.uses_lift _).bind fun _ => (GProg.uses_lift _).bind fun _ => trivial
      exact (GProg.uses_sysRandom _).bind fun _ => (GProg.uses_random _).bind fun _ => (GProg.uses_random _).bind fun _ =>
        (GProg.uses_lift _).bind fun _ => (Prog.uses_ask (hs _ _ rfl)).bind fun _ => trivial

theorem GProg.ends_random {α : Type} (x : M Bytes α) : (GProg.random x).Ends 1 := fun _ => trivial
theorem GProg.ends_sysRandom {α : Type} (x : M Bytes α) : (GProg.sysRandom x).Ends 1 := fun _ => trivial
theorem GProg.ends_lift {α : Type} (x : Res α) : (GProg.lift x).Ends 0 := trivial

theorem GOp.prog_ends (C : Crypto) (o : GOp) : (o.prog C).Ends 5 := by
  cases o with
  | encrypt a d pt =>
    refine Prog.Ends.mono (n := 3) (by decide) (Prog.Ends.bind (n := 3) (m := 0) ?_ fun _ => trivial)
    refine (Prog.ends_ask _).bind (m := 2) fun o => ?_
    cases o with
    | none => trivial
    | some record =>
      exact (GProg.ends_lift _).bind (n := 0) (m := 2) fun _ => (GProg.ends_lift _).bind (n := 0) (m := 2) fun _ =>
        (GProg.ends_lift _).bind (n := 0) (m := 2) fun _ => (GProg.ends_random _).bind (m := 1) fun _ =>
        (Prog.ends_ask _).bind (m := 0) fun _ => trivial
  | decrypt a m =>
    refine Prog.Ends.mono (n := 2) (by decide) (Prog.Ends.bind (n := 2) (m := 0) ?_ fun _ => trivial)
    refine (Prog.ends_ask _).bind (m := 1) fun o => ?_
    cases o with
    | none => trivial
    | some record =>
      dsimp only
      split
      · trivial
      · split
        · trivial
        · refine (GProg.ends_lift _).bind (n := 0) (m := 1) fun _ => (GProg.ends_lift _).bind (n := 0) (m := 1) fun _ => ?_
          split
          · exact (GProg.ends_lift _).bind (n := 0) (m := 1) fun _ => (GProg.ends_lift _).bind (n := 0) (m := 1) fun _ =>
              (Prog.ends_ask _).bind (m := 0) fun _ => trivial
          · trivial
  | process a m =>
    refine Prog.Ends.mono (n := 2) (by decide) (Prog.Ends.bind (n := 2) (m := 0) ?_ fun _ => trivial)
    exact (Prog.ends_ask _).bind (m := 1) fun o => (GProg.ends_lift _).bind (n := 0) (m := 1) fun _ => Prog.ends_ask _
  | distribute a d =>
    refine Prog.Ends.bind (n := 5) (m := 0) ?_ fun _ => trivial
    refine (Prog.ends_ask _).bind (m := 4) fun o => ?_
    cases o with
    | some r =>
      exact (Prog.ends_done 4 (.ok r)).bind (n := 4) (m := 0) fun _ => (GProg.ends_lift _).bind (n := 0) (m := 0) fun _ =>
        (GProg.ends_lift _).bind (n := 0) (m := 0) fun _ => trivial
    | none =>
      refine Prog.Ends.bind (n := 4) (m := 0) ?_ fun _ => (GProg.ends_lift _).bind (n := 0) (m := 0) fun _ =>
        (GProg.ends_lift _).bind (n := 0) (m := 0) fun _ => trivial
      exact (GProg.ends_sysRandom _).bind (m := 3) fun _ => (GProg.ends_random _).bind (m := 2) fun _ =>
        (GProg.ends_random _).bind (m := 1) fun _ => (GProg.ends_lift _).bind (n := 0) (m := 1) fun _ =>
        (Prog.ends_ask _).bind (m := 0) fun _ => trivial

/-! ## Lists of calls -/

theorem oneByOne_calls {E : Env} (h : E.aliased = false) (pre cs : List Call) {w v : World} (hw : w.SameStores v) :
    (oneByOne (StoreOp.act E) (threads E (pre ++ cs)) pre.length cs.length w).1.map (Out.of id) = (runCalls E cs v).1 ∧
      (oneByOne (StoreOp.act E) (threads E (pre ++ cs)) pre.length cs.length w).2.SameStores (runCalls E cs v).2 := by
  induction cs generalizing pre w v with
  | nil => exact ⟨rfl, hw⟩
  | cons c cs ih =>
    have ht : threads E (pre ++ c :: cs) pre.length = ⟨c.op.prog E, c.rand, c.faults⟩ := by simp [threads]
    obtain ⟨h1, h2⟩ := Op.prog_finish h c hw
    have := ih (pre ++ [c]) h2
    simp only [List.append_assoc, List.singleton_append, List.length_append, List.length_singleton] at this
    simp only [List.length_cons, oneByOne, ht, Thread.finish, runCalls, List.map_cons]
    exact ⟨by rw [this.1, h1], this.2⟩

theorem oneByOne_gCalls (C : Crypto) (pre cs : List GCall) {w v : GWorld} (hw : w.records = v.records) :
    (oneByOne GStoreOp.act (gThreads C (pre ++ cs)) pre.length cs.length w).1.map (GOut.of id) = (runGCalls ⟨C, false⟩ cs v).1 ∧
      (oneByOne GStoreOp.act (gThreads C (pre ++ cs)) pre.length cs.length w).2.records = (runGCalls ⟨C, false⟩ cs v).2.records := by
  induction cs generalizing pre w v with
  | nil => exact ⟨rfl, hw⟩
  | cons c cs ih =>
    have ht : gThreads C (pre ++ c :: cs) pre.length = ⟨c.op.prog C, (c.rand, c.sysRand), c.faults⟩ := by simp [gThreads]
    obtain ⟨h1, h2⟩ := GOp.prog_finish C c hw
    have := ih (pre ++ [c]) h2
    simp only [List.append_assoc, List.singleton_append, List.length_append, List.length_singleton] at this
    simp only [List.length_cons, oneByOne, ht, Thread.finish, runGCalls, List.map_cons]
    exact ⟨by rw [this.1, h1], this.2⟩

theorem runAtOnce_eq {E : Env} (hE : E.aliased = false) (hT : E.TrustIsLocal) (cs : List Call) (s : List Nat) (w : World)
    (hs : InTurn cs s) (hdone : ∀ o ∈ (runAtOnce E cs s w).1, o ≠ none) :
    (runAtOnce E cs s w).1 = (runCalls E cs w).1.map some ∧ (runAtOnce E cs s w).2.SameStores (runCalls E cs w).2 := by
  have key := interleave_oneByOne (StoreOp.act E)
    (fun i => match cs[i]? with
      | some c => StoreOp.In c.op
      | none => fun _ _ => False) cs.length s ?_ (threads E cs) ?_ w ?_ ?_
  · have h0 := oneByOne_calls hE [] cs (w := w) (v := w) ⟨rfl, rfl, rfl, rfl, rfl, rfl⟩
    simp only [List.nil_append, List.length_nil] at h0
    unfold runAtOnce
    dsimp only
    rw [key.2]
    refine ⟨?_, h0.2⟩
    have e := congrArg (List.map (Option.map (Out.of id))) key.1
    rw [← h0.1]
    simpa [Function.comp_def] using e
  · refine hs.imp fun {j i} h hij β γ o p ho hp => ?_
    rcases hj : cs[j]? with _ | d
    · simp [hj] at ho
    · rcases hi : cs[i]? with _ | c
      · simp [hi] at hp
      · simp only [hj, hi] at ho hp
        refine StoreOp.commute hT o p (StoreOp.far_of_not_clash (fun hcl => h hij c d hi hj ?_) ho hp)
        rcases hcl with ⟨e, he, hf | hf⟩ | ⟨e, he, hf⟩
        · exact .inl ⟨e, hf, .inl he⟩
        · exact .inr ⟨e, he, hf⟩
        · exact .inl ⟨e, he, .inr hf⟩
  · intro i
    unfold threads
    rcases hi : cs[i]? with _ | c
    · trivial
    · exact Op.prog_uses E c.op
  · intro i hi
    exact ⟨.panic, by simp [threads, List.getElem?_eq_none hi]⟩
  · intro i hi hn
    refine hdone none ?_ rfl
    simp only [runAtOnce, List.mem_map, List.mem_range]
    exact ⟨i, hi, by rw [hn]; rfl⟩

theorem runGAtOnce_eq (C : Crypto) (cs : List GCall) (s : List Nat) (w : GWorld)
    (hs : GInTurn cs s) (hdone : ∀ o ∈ (runGAtOnce C cs s w).1, o ≠ none) :
    (runGAtOnce C cs s w).1 = (runGCalls ⟨C, false⟩ cs w).1.map some ∧
      (runGAtOnce C cs s w).2.records = (runGCalls ⟨C, false⟩ cs w).2.records := by
  have key := interleave_oneByOne GStoreOp.act
    (fun i => match cs[i]? with
      | some c => GStoreOp.In c.op.key
      | none => fun _ _ => False) cs.length s ?_ (gThreads C cs) ?_ w ?_ ?_
  · have h0 := oneByOne_gCalls C [] cs (w := w) (v := w) rfl
    simp only [List.nil_append, List.length_nil] at h0
    unfold runGAtOnce
    dsimp only
    rw [key.2]
    refine ⟨?_, h0.2⟩
    have e := congrArg (List.map (Option.map (GOut.of id))) key.1
    rw [← h0.1]
    simpa [Function.comp_def] using e
  · refine hs.imp fun {j i} h hij β γ o p ho hp => ?_
    rcases hj : cs[j]? with _ | d
    · simp [hj] at ho
    · rcases hi : cs[i]? with _ | c
      · simp [hi] at hp
      · simp only [hj, hi] at ho hp
        exact GStoreOp.commute (Ne.symm (h hij c d hi hj)) o p ho hp
  · intro i
    unfold gThreads
    rcases hi : cs[i]? with _ | c
    · trivial
    · exact GOp.prog_uses C c.op
  · intro i hi
    exact ⟨.panic, by simp [gThreads, List.getElem?_eq_none hi]⟩
  · intro i hi hn
    refine hdone none ?_ rfl
    simp only [runGAtOnce, List.mem_map, List.mem_range]
    exact ⟨i, hi, by rw [hn]; rfl⟩

end Verif
