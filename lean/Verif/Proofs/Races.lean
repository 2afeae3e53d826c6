import Verif.Spec.Races
import Verif.Proofs.Threads

/-!
# Accesses of calls: helper lemmas for C110
-/

namespace Verif

variable {Op : Type → Type} {L α S : Type}

/-- Whatever the store calls answer, the program ends with `Q` of its accesses and its result, where `as` are the accesses so far. -/
def Prog.Always (acc : ∀ {β}, Op β → List MapAccess) (Q : List MapAccess → Res α → Prop) : List MapAccess → Prog Op L α → Prop
  | as, .done r => Q as r
  | as, .call _ op k => ∀ b, (k b).Always acc Q (as ++ acc op)
  | as, .own _ k => (∀ b, (k b).Always acc Q as) ∧ (∀ e, Q as (.err e)) ∧ Q as .panic

theorem Prog.Always.mono {acc : ∀ {β}, Op β → List MapAccess} {Q R : List MapAccess → Res α → Prop} (hQ : ∀ as r, Q as r → R as r)
    {p : Prog Op L α} : ∀ {as}, p.Always acc Q as → p.Always acc R as := by
  induction p with
  | done r => exact fun h => hQ _ _ h
  | call s op k ih => exact fun h b => ih b (h b)
  | own f k ih => exact fun h => ⟨fun b => ih b (h.1 b), fun e => hQ _ _ (h.2.1 e), hQ _ _ h.2.2⟩

theorem Prog.Always.bind {β : Type} {acc : ∀ {β}, Op β → List MapAccess} {Q : List MapAccess → Res β → Prop} {f : α → Prog Op L β}
    {p : Prog Op L α} : ∀ {as}, p.Always acc (fun as r => match r with
      | .ok a => (f a).Always acc Q as
      | .err e => Q as (.err e)
      | .panic => Q as .panic) as → (p >>= f).Always acc Q as := by
  rw [Prog.bind_eq]
  induction p with
  | done r => intro as h; cases r <;> exact h
  | call s op k ih => exact fun h b => ih b (h b)
  | own g k ih => exact fun h => ⟨fun b => ih b (h.1 b), h.2.1, h.2.2⟩

/-- The accesses of one thread. -/
def ownAccesses (i : Nat) (log : List (Nat × MapAccess)) : List MapAccess := (log.filter fun x => x.1 == i).map (·.2)

theorem mem_ownAccesses {i : Nat} {log : List (Nat × MapAccess)} {x : MapAccess} : x ∈ ownAccesses i log ↔ (i, x) ∈ log := by
  simp only [ownAccesses, List.mem_map, List.mem_filter, beq_iff_eq]
  constructor
  · rintro ⟨⟨j, y⟩, ⟨h, rfl⟩, rfl⟩; exact h
  · exact fun h => ⟨_, ⟨h, rfl⟩, rfl⟩

theorem ownAccesses_append (i : Nat) (x y : List (Nat × MapAccess)) : ownAccesses i (x ++ y) = ownAccesses i x ++ ownAccesses i y := by
  simp [ownAccesses]

theorem ownAccesses_self (i : Nat) (as : List MapAccess) : ownAccesses i (as.map fun a => (i, a)) = as := by
  induction as with
  | nil => rfl
  | cons a as ih => simp_all [ownAccesses]

theorem ownAccesses_other {i j : Nat} (h : j ≠ i) (as : List MapAccess) : ownAccesses i (as.map fun a => (j, a)) = [] := by
  induction as with
  | nil => rfl
  | cons a as ih => simp_all [ownAccesses]

theorem Thread.step_always (act : ∀ {β}, Op β → S → β × S) (acc : ∀ {β}, Op β → List MapAccess) {Q : List MapAccess → Res α → Prop}
    (t : Thread Op L α) (w : S) (as : List MapAccess) (hf : t.faults = []) (ha : t.prog.Always acc Q as) :
    (t.step act w).1.faults = [] ∧ (t.step act w).1.prog.Always acc Q (as ++ t.prog.nextAccesses acc) := by
  obtain ⟨p, l, fs⟩ := t
  simp only at hf ha
  subst hf
  cases p with
  | done r => exact ⟨rfl, by simpa [Prog.nextAccesses, Thread.step] using ha⟩
  | call sure op k => cases sure <;> exact ⟨rfl, ha _⟩
  | own f k =>
    simp only [Thread.step, Prog.nextAccesses, List.append_nil]
    rcases hx : f l with ⟨x, l'⟩
    cases x with
    | ok b => exact ⟨rfl, ha.1 b⟩
    | err e => exact ⟨rfl, ha.2.1 e⟩
    | panic => exact ⟨rfl, ha.2.2⟩

/-- A thread without store failures that has ended satisfies what its program always satisfies. -/
theorem accessLog_always (act : ∀ {β}, Op β → S → β × S) (acc : ∀ {β}, Op β → List MapAccess) {Q : List MapAccess → Res α → Prop} (i : Nat)
    (s : List Nat) : ∀ (ts : Nat → Thread Op L α) (w : S) (as : List MapAccess), (ts i).faults = [] → (ts i).prog.Always acc Q as →
      ∀ r, ((interleave act s ts w).1 i).result = some r → Q (as ++ ownAccesses i (accessLog act acc s ts w)) r := by
  induction s with
  | nil =>
    intro ts w as hf ha r hr
    simp only [interleave, accessLog] at hr ⊢
    simp only [ownAccesses, List.filter_nil, List.map_nil, List.append_nil]
    unfold Thread.result at hr
    split at hr
    · rename_i hp; rw [hp] at ha; injection hr with hr; exact hr ▸ ha
    · cases hr
  | cons j s ih =>
    intro ts w as hf ha r hr
    simp only [interleave, accessLog, ownAccesses_append] at hr ⊢
    rw [← List.append_assoc]
    by_cases hj : j = i
    · subst hj
      rw [ownAccesses_self]
      obtain ⟨h1, h2⟩ := Thread.step_always act acc (ts j) w as hf ha
      refine ih _ _ _ ?_ ?_ r hr <;> rw [upd_same]
      · exact h1
      · exact h2
    · rw [ownAccesses_other hj, List.append_nil]
      refine ih _ _ _ ?_ ?_ r hr <;> rw [upd_ne _ _ (Ne.symm hj)]
      · exact hf
      · exact ha

/-! ## Session calls -/

/-- What `EncryptMessage`, `DecryptMessage` on a plain message and `ProcessPreKeyBundle` access, by their result. -/
def PlainAccesses {α : Type} (as : List MapAccess) (r : Res α) : Prop :=
  (⟨.sessions, false⟩ ∈ as ∨ ⟨.knownKeys, false⟩ ∈ as) ∧
  match r with
  | .ok _ => ⟨.sessions, true⟩ ∈ as ∧ ⟨.knownKeys, true⟩ ∈ as
  | _ => ∀ x ∈ as, x.write = false

/-- A successful call on a session, of whatever kind. -/
def SessionAccesses {α : Type} (as : List MapAccess) (r : Res α) : Prop :=
  (⟨.sessions, false⟩ ∈ as ∨ ⟨.knownKeys, false⟩ ∈ as) ∧
  match r with
  | .ok _ => ⟨.sessions, true⟩ ∈ as ∧ ⟨.knownKeys, true⟩ ∈ as
  | _ => True

theorem encryptProg_accesses (E : Env) (a : Address) (pt : Bytes) :
    (encryptProg E a pt).Always StoreOp.accesses PlainAccesses [] := by
  unfold encryptProg
  refine Prog.Always.bind fun o => ?_
  cases o with
  | none => simp [Prog.Always, PlainAccesses, StoreOp.accesses]
  | some r =>
    simp only [Prog.Always]
    split
    · simp [Prog.Always, PlainAccesses, StoreOp.accesses]
    refine Prog.Always.bind ?_
    simp only [SProg.lift, Prog.Always]
    split
    · refine Prog.Always.bind fun t => ?_
      simp only [Prog.Always]
      cases t with
      | true =>
        refine Prog.Always.bind fun _ => ?_
        refine Prog.Always.bind fun _ => ?_
        simp [Prog.Always, PlainAccesses, StoreOp.accesses, pure]
      | false => simp [Prog.Always, PlainAccesses, StoreOp.accesses]
    · simp [PlainAccesses, StoreOp.accesses]
    · simp [PlainAccesses, StoreOp.accesses]

theorem decryptSignalProg_accesses (E : Env) (a : Address) (m : Signal) :
    (decryptSignalProg E a m).Always StoreOp.accesses PlainAccesses [] := by
  unfold decryptSignalProg
  refine Prog.Always.bind fun o => ?_
  cases o with
  | none => simp [Prog.Always, PlainAccesses, StoreOp.accesses]
  | some r =>
    simp only [Prog.Always]
    refine Prog.Always.bind ?_
    refine ⟨fun out => ?_, ?_, ?_⟩
    · simp only [Prog.Always]
      generalize hx : (match out with
        | .ok (p, r) => (some p, r)
        | .error _ => (none, r) : Option Bytes × Record) = x
      obtain ⟨p, r'⟩ := x
      split
      · simp [Prog.Always, PlainAccesses, StoreOp.accesses]
      split
      · refine Prog.Always.bind fun t => ?_
        simp only [Prog.Always]
        cases t with
        | true =>
          refine Prog.Always.bind fun _ => ?_
          refine Prog.Always.bind fun _ => ?_
          simp [Prog.Always, PlainAccesses, StoreOp.accesses, pure]
        | false => simp [Prog.Always, PlainAccesses, StoreOp.accesses]
      · simp [Prog.Always, PlainAccesses, StoreOp.accesses]
      · simp [Prog.Always, PlainAccesses, StoreOp.accesses]
    · simp [PlainAccesses, StoreOp.accesses]
    · simp [PlainAccesses, StoreOp.accesses]

theorem bundleProg_accesses (E : Env) (a : Address) (b : Bundle) :
    (bundleProg E a b).Always StoreOp.accesses PlainAccesses [] := by
  unfold bundleProg
  refine Prog.Always.bind fun t => ?_
  simp only [Prog.Always]
  cases t with
  | false => simp [Prog.Always, PlainAccesses, StoreOp.accesses]
  | true =>
    refine Prog.Always.bind ?_
    simp only [SProg.lift, Prog.Always]
    split
    · rename_i ok _
      cases ok with
      | false => simp [Prog.Always, PlainAccesses, StoreOp.accesses]
      | true =>
        refine Prog.Always.bind fun o => ?_
        refine Prog.Always.bind ⟨fun kp => ?_, ?_, ?_⟩
        · refine Prog.Always.bind fun id => fun rg => ?_
          refine Prog.Always.bind ⟨fun s => ?_, ?_, ?_⟩
          · refine Prog.Always.bind fun _ => ?_
            intro _
            simp [Prog.Always, PlainAccesses, StoreOp.accesses, pure]
          · simp [PlainAccesses, StoreOp.accesses]
          · simp [PlainAccesses, StoreOp.accesses]
        · simp [PlainAccesses, StoreOp.accesses]
        · simp [PlainAccesses, StoreOp.accesses]
    · simp [PlainAccesses, StoreOp.accesses]
    · simp [PlainAccesses, StoreOp.accesses]

/-- Through `processPreKey`, both maps have been looked at, and after a success the identities have been written. -/
def Looked {α : Type} (as : List MapAccess) (r : Res α) : Prop :=
  ⟨.sessions, false⟩ ∈ as ∧ match r with
  | .ok _ => ⟨.knownKeys, true⟩ ∈ as
  | _ => True

theorem optKeyPairProg_accesses (o : Option PreKeyRec) {as : List MapAccess} (h : ⟨.sessions, false⟩ ∈ as) :
    (optKeyPairProg o).Always StoreOp.accesses (fun as _ => ⟨.sessions, false⟩ ∈ as) as := by
  cases o with
  | none => exact h
  | some p =>
    refine Prog.Always.bind ?_
    simp only [SProg.lift, Prog.Always]
    split <;> exact h

theorem askKeyPair_accesses (op : StoreOp (Option PreKeyRec)) {as : List MapAccess} (h : ⟨.sessions, false⟩ ∈ as) :
    (Prog.ask op >>= optKeyPairProg : SProg _).Always StoreOp.accesses (fun as _ => ⟨.sessions, false⟩ ∈ as) as := by
  refine Prog.Always.bind fun o => ?_
  exact optKeyPairProg_accesses o (List.mem_append_left _ h)

theorem processPreKeyV3Prog_accesses (E : Env) (r : Record) (m : PreKeyMsg) {as : List MapAccess} (h : ⟨.sessions, false⟩ ∈ as) :
    (processPreKeyV3Prog E r m).Always StoreOp.accesses (fun as _ => ⟨.sessions, false⟩ ∈ as) as := by
  have hme : ∀ (x y : Option KeyPair) {as : List MapAccess}, ⟨.sessions, false⟩ ∈ as →
      (do
        let (identity, regId) ← SProg.me
        let s ← SProg.lift (orPanic (initializeBobSession E.C
          { ourIdentityKeyPair := identity, ourSignedPreKeyPair := x, ourOneTimePreKeyPair := y, ourRatchetKeyPair := x,
            theirIdentityKey := m.identityKey, theirBaseKey := m.baseKey }))
        let s := { s with localRegistrationId := regId, remoteRegistrationId := m.registrationID, aliceBaseKey := m.baseKey.bytes }
        return (m.preKeyID, r.promoteState s) : SProg (Option UInt32 × Record)).Always StoreOp.accesses
          (fun as _ => ⟨.sessions, false⟩ ∈ as) as := by
    intro x y as h
    refine Prog.Always.bind fun id rg => ?_
    refine Prog.Always.bind ?_
    have h' := List.mem_append_left (StoreOp.registrationID.accesses) (List.mem_append_left (StoreOp.keyPair.accesses) h)
    simp only [SProg.lift, Prog.Always]
    split <;> exact h'
  unfold processPreKeyV3Prog
  refine Prog.Always.bind ?_
  simp only [SProg.lift, Prog.Always]
  split
  · rename_i f _
    cases f with
    | true => exact h
    | false =>
      refine Prog.Always.bind ((askKeyPair_accesses _ h).mono fun as x hx => ?_)
      cases x with
      | err e => exact hx
      | panic => exact hx
      | ok x =>
        have h1 := fun y {as : List MapAccess} (h : ⟨.sessions, false⟩ ∈ as) => hme x y h
        dsimp only
        cases hp : m.preKeyID with
        | none =>
          rw [hp] at h1
          exact h1 none hx
        | some id =>
          rw [hp] at h1
          refine Prog.Always.bind ((askKeyPair_accesses _ hx).mono fun as y hy => ?_)
          cases y with
          | err e => exact hy
          | panic => exact hy
          | ok y => exact h1 y hy
  · exact h
  · exact h

theorem decryptPreKeyProg_accesses (E : Env) (a : Address) (m : PreKeyMsg) :
    (decryptPreKeyProg E a m).Always StoreOp.accesses SessionAccesses [] := by
  unfold decryptPreKeyProg
  refine Prog.Always.bind fun o => ?_
  have hp : (processPreKeyProg E a (o.getD {}) m).Always StoreOp.accesses Looked ([] ++ (StoreOp.loadSession a).accesses) := by
    unfold processPreKeyProg
    refine Prog.Always.bind fun t => ?_
    cases t with
    | false => exact ⟨by simp [StoreOp.accesses], trivial⟩
    | true =>
      refine Prog.Always.bind ((processPreKeyV3Prog_accesses E _ m (by simp [StoreOp.accesses])).mono fun as x hx => ?_)
      cases x with
      | err e => exact ⟨hx, trivial⟩
      | panic => exact ⟨hx, trivial⟩
      | ok x => exact Prog.Always.bind fun _ => ⟨List.mem_append_left _ hx, by simp [StoreOp.accesses]⟩
  refine Prog.Always.bind (hp.mono fun as x hx => ?_)
  cases x with
  | err e => exact ⟨.inl hx.1, trivial⟩
  | panic => exact ⟨.inl hx.1, trivial⟩
  | ok x =>
    obtain ⟨id, r⟩ := x
    refine Prog.Always.bind ⟨fun y => ?_, fun e => ⟨.inl hx.1, trivial⟩, ⟨.inl hx.1, trivial⟩⟩
    refine Prog.Always.bind fun _ => ?_
    cases id with
    | none =>
      exact ⟨.inl (List.mem_append_left _ hx.1), List.mem_append_right _ (by simp [StoreOp.accesses]), List.mem_append_left _ hx.2⟩
    | some id =>
      refine Prog.Always.bind fun _ => ?_
      exact ⟨.inl (List.mem_append_left _ (List.mem_append_left _ hx.1)),
        List.mem_append_left _ (List.mem_append_right _ (by simp [StoreOp.accesses])),
        List.mem_append_left _ (List.mem_append_left _ hx.2)⟩

theorem PlainAccesses.session {α : Type} {as : List MapAccess} {r : Res α} (h : PlainAccesses as r) : SessionAccesses as r := by
  cases r with
  | ok a => exact h
  | err e => exact ⟨h.1, trivial⟩
  | panic => exact ⟨h.1, trivial⟩

/-- A result that is not an error is not reported as one. -/
def Honest (r : Res Out) : Prop := ∀ a, r = .ok a → ¬ a.Failed

/-- A result that is not an error is not reported as one. -/
def GHonest (r : Res GOut) : Prop := ∀ a, r = .ok a → ¬ a.Failed

theorem plain_accesses (E : Env) (op : Verif.Op) (h : op.Plain) :
    (op.prog E).Always StoreOp.accesses (fun as r => PlainAccesses as r ∧ Honest r) [] := by
  cases op with
  | encrypt a pt => exact Prog.Always.bind ((encryptProg_accesses E a pt).mono fun as r hr => by cases r <;> exact ⟨hr, fun a ha => by cases ha <;> exact id⟩)
  | bundle a b => exact Prog.Always.bind ((bundleProg_accesses E a b).mono fun as r hr => by cases r <;> exact ⟨hr, fun a ha => by cases ha <;> exact id⟩)
  | decrypt a m =>
    cases m with
    | signal m => exact Prog.Always.bind ((decryptSignalProg_accesses E a m).mono fun as r hr => by cases r <;> exact ⟨hr, fun a ha => by cases ha <;> exact id⟩)
    | _ => exact h.elim
  | _ => exact h.elim

theorem session_accesses (E : Env) (op : Verif.Op) (h : op.OnSession) : (op.prog E).Always StoreOp.accesses SessionAccesses [] := by
  by_cases hp : op.Plain
  · exact (plain_accesses E op hp).mono fun as r hr => hr.1.session
  · cases op with
    | decrypt a m =>
      cases m with
      | preKey m =>
        refine Prog.Always.bind (Prog.Always.bind ((decryptPreKeyProg_accesses E a m).mono fun as r hr => ?_))
        cases r <;> exact hr
      | signal m => exact absurd trivial hp
      | _ => exact h.elim
    | encrypt a pt => exact absurd trivial hp
    | bundle a b => exact absurd trivial hp
    | _ => exact h.elim

theorem sessionAccesses_of {S : Type} {answer : ∀ {β}, StoreOp β → S → β × S} {E : Env} {cs : List Call} {schedule : List Nat} {w : S}
    {i : Nat} {c : Call} {o : Out} (hc : cs[i]? = some c) (hf : c.faults = []) (ho : sessionResult answer E cs schedule w i = some o)
    {Q : List MapAccess → Res Out → Prop} (hQ : (c.op.prog E).Always StoreOp.accesses Q []) :
    ∃ as r, o = Out.of id r ∧ Q as r ∧ ∀ x, x ∈ as ↔ (i, x) ∈ sessionAccesses answer E cs schedule w := by
  obtain ⟨r, hr, he⟩ := Option.map_eq_some_iff.1 ho
  have ht : threads E cs i = ⟨c.op.prog E, c.rand, c.faults⟩ := by simp [threads, hc]
  have := accessLog_always answer StoreOp.accesses i schedule (threads E cs) w [] (by rw [ht]; exact hf) (by rw [ht]; exact hQ) r hr
  exact ⟨_, r, he.symm, this, fun x => by rw [List.nil_append]; exact mem_ownAccesses⟩

/-! ## Group calls -/

/-- What the group calls access, by their result. -/
def GroupAccesses {α : Type} (as : List MapAccess) (r : Res α) : Prop :=
  (∀ x ∈ as, x.map = .senderKeys) ∧ as ≠ [] ∧
  match r with
  | .ok _ => ⟨.senderKeys, true⟩ ∈ as
  | _ => ∀ x ∈ as, x.write = false

theorem groupEncryptProg_accesses (C : Crypto) (a : Address) (d : DistId) (pt : Bytes) :
    (groupEncryptProg C a d pt).Always GStoreOp.accesses GroupAccesses [] := by
  have h0 : ∀ e : Err, GroupAccesses ([] ++ (GStoreOp.load (a, d)).accesses) (.err e : Res SenderKeyMsg) := by
    intro e; simp [GroupAccesses, GStoreOp.accesses]
  have h1 : GroupAccesses ([] ++ (GStoreOp.load (a, d)).accesses) (.panic : Res SenderKeyMsg) := by simp [GroupAccesses, GStoreOp.accesses]
  unfold groupEncryptProg
  refine Prog.Always.bind fun o => ?_
  cases o with
  | none => exact h0 .noSenderKeyState
  | some r =>
    refine Prog.Always.bind ?_
    cases hs : GRecord.state r with
    | err e => exact h0 e
    | panic => exact h1
    | ok s =>
      refine Prog.Always.bind ?_
      simp only [GProg.lift, Prog.Always]
      split
      · refine Prog.Always.bind ?_
        simp only [GProg.lift, Prog.Always]
        split
        · refine Prog.Always.bind ⟨fun m => ?_, h0, h1⟩
          refine Prog.Always.bind fun _ => ?_
          simp [Prog.Always, GroupAccesses, GStoreOp.accesses, pure]
        · exact h0 _
        · exact h1
      · exact h0 _
      · exact h1

theorem groupDecryptProg_accesses (C : Crypto) (a : Address) (m : SenderKeyMsg) :
    (groupDecryptProg C a m).Always GStoreOp.accesses GroupAccesses [] := by
  have h0 : ∀ e : Err, GroupAccesses ([] ++ (GStoreOp.load (a, m.distID)).accesses) (.err e : Res Bytes) := by
    intro e; simp [GroupAccesses, GStoreOp.accesses]
  have h1 : GroupAccesses ([] ++ (GStoreOp.load (a, m.distID)).accesses) (.panic : Res Bytes) := by simp [GroupAccesses, GStoreOp.accesses]
  unfold groupDecryptProg
  refine Prog.Always.bind fun o => ?_
  cases o with
  | none => exact h0 .noSenderKeyState
  | some r =>
    simp only [Prog.Always]
    split
    · exact h0 _
    split
    · exact h0 _
    refine Prog.Always.bind ?_
    simp only [GProg.lift, Prog.Always]
    split
    · refine Prog.Always.bind ?_
      simp only [GProg.lift, Prog.Always]
      split
      · split
        · refine Prog.Always.bind ?_
          simp only [GProg.lift, Prog.Always]
          split
          · refine Prog.Always.bind ?_
            simp only [GProg.lift, Prog.Always]
            split
            · refine Prog.Always.bind fun _ => ?_
              simp [Prog.Always, GroupAccesses, GStoreOp.accesses, pure]
            · exact h0 _
            · exact h1
          · exact h0 _
          · exact h1
        · exact h0 _
      · exact h0 _
      · exact h1
    · exact h0 _
    · exact h1

theorem processDistributionProg_accesses (a : Address) (m : DistributionMsg) :
    (processDistributionProg a m).Always GStoreOp.accesses GroupAccesses [] := by
  unfold processDistributionProg
  refine Prog.Always.bind fun o => ?_
  refine Prog.Always.bind ?_
  simp only [GProg.lift, Prog.Always]
  split
  · intro _
    simp [Prog.Always, GroupAccesses, GStoreOp.accesses]
  · simp [GroupAccesses, GStoreOp.accesses]
  · simp [GroupAccesses, GStoreOp.accesses]

theorem group_accesses (C : Crypto) (op : GOp) (h : op.UsesKey) :
    (op.prog C).Always GStoreOp.accesses (fun as r => GroupAccesses as r ∧ GHonest r) [] := by
  cases op with
  | encrypt a d pt => exact Prog.Always.bind ((groupEncryptProg_accesses C a d pt).mono fun as r hr => by cases r <;> exact ⟨hr, fun a ha => by cases ha <;> exact id⟩)
  | decrypt a m => exact Prog.Always.bind ((groupDecryptProg_accesses C a m).mono fun as r hr => by cases r <;> exact ⟨hr, fun a ha => by cases ha <;> exact id⟩)
  | process a m => exact Prog.Always.bind ((processDistributionProg_accesses a m).mono fun as r hr => by cases r <;> exact ⟨hr, fun a ha => by cases ha <;> exact id⟩)
  | distribute a d => exact h.elim

theorem groupAccesses_of {S : Type} {answer : ∀ {β}, GStoreOp β → S → β × S} {C : Crypto} {cs : List GCall} {schedule : List Nat} {w : S}
    {i : Nat} {c : GCall} {o : GOut} (hc : cs[i]? = some c) (hf : c.faults = []) (ho : groupResult answer C cs schedule w i = some o)
    {Q : List MapAccess → Res GOut → Prop} (hQ : (c.op.prog C).Always GStoreOp.accesses Q []) :
    ∃ as r, o = GOut.of id r ∧ Q as r ∧ ∀ x, x ∈ as ↔ (i, x) ∈ groupAccesses answer C cs schedule w := by
  obtain ⟨r, hr, he⟩ := Option.map_eq_some_iff.1 ho
  have ht : gThreads C cs i = ⟨c.op.prog C, (c.rand, c.sysRand), c.faults⟩ := by simp [gThreads, hc]
  have := accessLog_always answer GStoreOp.accesses i schedule (gThreads C cs) w [] (by rw [ht]; exact hf) (by rw [ht]; exact hQ) r hr
  exact ⟨_, r, he.symm, this, fun x => by rw [List.nil_append]; exact mem_ownAccesses⟩

end Verif
