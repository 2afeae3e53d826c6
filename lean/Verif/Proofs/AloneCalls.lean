import Verif.Spec.Alone
import Verif.Proofs.Alone
import Verif.Proofs.History
import Verif.Proofs.Group

/-!
# The calls, among others
-/

namespace Verif

/-- The parts of a user's stores. -/
inductive Part where
  | session (a : Address)
  | preKey (id : UInt32)
  | signedPreKey (id : UInt32)
  | known
  | identity
  | regId
deriving DecidableEq

inductive Place where
  | session (a : Address)
  | preKey (id : UInt32)
  | signedPreKey (id : UInt32)
  | known (a : Address)
deriving DecidableEq

def Part.Type : Part → Type
  | .session _ => Option Record
  | .preKey _ => Option PreKeyRec
  | .signedPreKey _ => Option PreKeyRec
  | .known => Address → Option PubKey
  | .identity => KeyPair
  | .regId => UInt32

def Part.get : ∀ e : Part, World → e.Type
  | .session a, w => w.sessions a
  | .preKey id, w => w.preKeys id
  | .signedPreKey id, w => w.signedPreKeys id
  | .known, w => w.known
  | .identity, w => w.identity
  | .regId, w => w.regId

def Place.Type : Place → Type
  | .session _ => Option Record
  | .preKey _ => Option PreKeyRec
  | .signedPreKey _ => Option PreKeyRec
  | .known _ => Option PubKey

def Place.get : ∀ j : Place, World → j.Type
  | .session a, w => w.sessions a
  | .preKey id, w => w.preKeys id
  | .signedPreKey id, w => w.signedPreKeys id
  | .known a, w => w.known a

def StoreOp.part : {β : Type} → StoreOp β → Part
  | _, .loadSession a => .session a
  | _, .storeSession a _ => .session a
  | _, .loadPreKey id => .preKey id
  | _, .storePreKey id _ => .preKey id
  | _, .deletePreKey id => .preKey id
  | _, .loadSignedPreKey id => .signedPreKey id
  | _, .storeSignedPreKey id _ => .signedPreKey id
  | _, .isTrusted _ _ _ => .known
  | _, .storeIdentity _ _ => .known
  | _, .keyPair => .identity
  | _, .registrationID => .regId

def StoreOp.place : {β : Type} → StoreOp β → Option Place
  | _, .storeSession a _ => some (.session a)
  | _, .storePreKey id _ => some (.preKey id)
  | _, .deletePreKey id => some (.preKey id)
  | _, .storeSignedPreKey id _ => some (.signedPreKey id)
  | _, .storeIdentity a _ => some (.known a)
  | _, .loadSession _ => none
  | _, .loadPreKey _ => none
  | _, .loadSignedPreKey _ => none
  | _, .isTrusted _ _ _ => none
  | _, .keyPair => none
  | _, .registrationID => none

def worldParts (E : Env) : Parts (StoreOp.act E) where
  K := Part
  T := Part.Type
  get := Part.get
  J := Place
  V := Place.Type
  at_ := Place.get
  part := StoreOp.part
  place := StoreOp.place
  mix e v w := by
    cases e with
    | session a =>
      refine ⟨{ v with sessions := upd v.sessions a (w.sessions a) }, upd_same .., fun e he => ?_⟩
      cases e <;> try rfl
      exact upd_ne _ _ fun h => he (by rw [h])
    | preKey a =>
      refine ⟨{ v with preKeys := upd v.preKeys a (w.preKeys a) }, upd_same .., fun e he => ?_⟩
      cases e <;> try rfl
      exact upd_ne _ _ fun h => he (by rw [h])
    | signedPreKey a =>
      refine ⟨{ v with signedPreKeys := upd v.signedPreKeys a (w.signedPreKeys a) }, upd_same .., fun e he => ?_⟩
      cases e <;> try rfl
      exact upd_ne _ _ fun h => he (by rw [h])
    | known => exact ⟨{ v with known := w.known }, rfl, fun e he => by cases e <;> first | rfl | exact absurd rfl he⟩
    | identity => exact ⟨{ v with identity := w.identity }, rfl, fun e he => by cases e <;> first | rfl | exact absurd rfl he⟩
    | regId => exact ⟨{ v with regId := w.regId }, rfl, fun e he => by cases e <;> first | rfl | exact absurd rfl he⟩
  read_same op w h := by cases op <;> first | rfl | cases h
  read_answer op w w' h hg := by
    cases op with
    | isTrusted a k d => exact congrArg (fun x => E.trusted x a k d) hg
    | _ => first | exact hg | cases h
  write_answer op w w' j h := by cases op <;> first | rfl | cases h
  write_parts op w j h e he := by
    cases op with
    | storeSession a r => cases e <;> first | rfl | exact upd_ne _ _ fun h => he (by rw [h]; rfl)
    | storePreKey a r => cases e <;> first | rfl | exact upd_ne _ _ fun h => he (by rw [h]; rfl)
    | deletePreKey a => cases e <;> first | rfl | exact upd_ne _ _ fun h => he (by rw [h]; rfl)
    | storeSignedPreKey a r => cases e <;> first | rfl | exact upd_ne _ _ fun h => he (by rw [h]; rfl)
    | storeIdentity a r => cases e <;> first | rfl | exact absurd rfl he
    | _ => cases h
  write_place op w w' j h := by
    cases op with
    | storeSession a r => cases h; exact (upd_same ..).trans (upd_same ..).symm
    | storePreKey a r => cases h; exact (upd_same ..).trans (upd_same ..).symm
    | deletePreKey a => cases h; exact (upd_same ..).trans (upd_same ..).symm
    | storeSignedPreKey a r => cases h; exact (upd_same ..).trans (upd_same ..).symm
    | storeIdentity a r => cases h; exact (upd_same ..).trans (upd_same ..).symm
    | _ => cases h
  write_others op w j h j' hj := by
    cases op with
    | storeSession a r => cases h; cases j' <;> first | rfl | exact upd_ne _ _ fun h => hj (by rw [h])
    | storePreKey a r => cases h; cases j' <;> first | rfl | exact upd_ne _ _ fun h => hj (by rw [h])
    | deletePreKey a => cases h; cases j' <;> first | rfl | exact upd_ne _ _ fun h => hj (by rw [h])
    | storeSignedPreKey a r => cases h; cases j' <;> first | rfl | exact upd_ne _ _ fun h => hj (by rw [h])
    | storeIdentity a r => cases h; cases j' <;> first | rfl | exact upd_ne _ _ fun h => hj (by rw [h])
    | _ => cases h

/-! ## The programs read every part once -/

abbrev ReadsOnce (E : Env) {α : Type} (F : Part → Prop) (p : SProg α) : Prop := Prog.Once (worldParts E) F p

section
variable (E : Env) {α β γ : Type} {F : Part → Prop}

/-- A store call that reads, and then the rest. -/
theorem once_read {op : StoreOp α} {f : α → SProg β} (h : F op.part) (hf : ∀ a, ReadsOnce E (fun e => F e ∧ e ≠ op.part) (f a)) :
    ReadsOnce E F ((Prog.ask op : SProg α) >>= f) := ⟨fun _ => h, hf⟩

theorem once_read_bind {op : StoreOp α} {g : α → SProg γ} {f : γ → SProg β} (h : F op.part)
    (hf : ∀ a, ReadsOnce E (fun e => F e ∧ e ≠ op.part) (g a >>= f)) :
    ReadsOnce E F ((Prog.ask op >>= g) >>= f) := ⟨fun _ => h, hf⟩

/-- A store call that changes something, and then the rest. -/
theorem once_write {op : StoreOp α} {f : α → SProg β} (h : op.place ≠ none) (hf : ∀ a, ReadsOnce E (fun e => F e ∧ e ≠ op.part) (f a)) :
    ReadsOnce E F ((Prog.ask op : SProg α) >>= f) := ⟨fun h' => absurd h' h, hf⟩

theorem once_lift {r : Res α} {f : α → SProg β} (hf : ∀ a, ReadsOnce E F (f a)) : ReadsOnce E F (SProg.lift r >>= f) := by
  cases r with
  | ok a => exact hf a
  | err e => trivial
  | panic => trivial

theorem once_random {x : M Bytes α} {f : α → SProg β} (hf : ∀ a, ReadsOnce E F (f a)) : ReadsOnce E F (SProg.random x >>= f) := hf

theorem once_me {f : KeyPair × UInt32 → SProg β} (h1 : F .identity) (h2 : F .regId)
    (hf : ∀ a, ReadsOnce E (fun e => (F e ∧ e ≠ .identity) ∧ e ≠ .regId) (f a)) : ReadsOnce E F (SProg.me >>= f) :=
  ⟨fun _ => h1, fun _ => ⟨fun _ => ⟨h2, by simp [worldParts, StoreOp.part]⟩, fun _ => hf _⟩⟩

theorem once_optKeyPair {o : Option PreKeyRec} {f : Option KeyPair → SProg β} (hf : ∀ a, ReadsOnce E F (f a)) :
    ReadsOnce E F (optKeyPairProg o >>= f) := by
  cases o with
  | none => exact hf none
  | some p =>
    simp only [optKeyPairProg]
    cases p.keyPair with
    | ok k => exact hf (some k)
    | err e => trivial
    | panic => trivial

theorem once_pure {a : α} : ReadsOnce E F (Pure.pure a : SProg α) := trivial

/-- The rest reads nothing. -/
theorem once_then {p : SProg α} {f : α → SProg β} (hp : ReadsOnce E F p) (hf : ∀ a, ReadsOnce E (fun _ => False) (f a)) :
    ReadsOnce E F (p >>= f) :=
  Prog.Once.bind_of (worldParts E) (A := fun _ => True) hp (Prog.uses_true p) (fun _ h => h) fun a => (hf a).mono _ fun _ h => h.elim

end

theorem encryptProg_once (E : Env) (a : Address) (pt : Bytes) : ReadsOnce E (fun _ => True) (encryptProg E a pt) := by
  unfold encryptProg
  refine once_read E trivial fun o => ?_
  cases o with
  | none => trivial
  | some record =>
    dsimp only
    split
    · trivial
    · refine once_lift E fun ⟨msg, state', k⟩ => once_read E ⟨trivial, by simp [StoreOp.part]⟩ fun t => ?_
      split
      · exact once_write E (by simp [StoreOp.place]) fun _ => once_write E (by simp [StoreOp.place]) fun _ => trivial
      · trivial

theorem processPreKeyV3Prog_once (E : Env) (record : Record) (msg : PreKeyMsg) {F : Part → Prop}
    (h1 : ∀ id, F (.signedPreKey id)) (h2 : ∀ id, F (.preKey id)) (h3 : F .identity) (h4 : F .regId) :
    ReadsOnce E F (processPreKeyV3Prog E record msg) := by
  unfold processPreKeyV3Prog
  refine once_lift E fun found => ?_
  split
  · trivial
  · refine once_read_bind E (h1 _) fun o => once_optKeyPair E fun sp => ?_
    cases hid : msg.preKeyID with
    | none =>
      refine once_lift (r := .ok none) E fun ot => ?_
      exact once_me E ⟨h3, by simp [StoreOp.part]⟩ ⟨h4, by simp [StoreOp.part]⟩ fun ⟨_, _⟩ => once_lift E fun _ => trivial
    | some id =>
      refine once_read_bind E ⟨h2 _, by simp [StoreOp.part]⟩ fun o => once_optKeyPair E fun sp => ?_
      exact once_me E ⟨⟨h3, by simp [StoreOp.part]⟩, by simp [StoreOp.part]⟩ ⟨⟨h4, by simp [StoreOp.part]⟩, by simp [StoreOp.part]⟩
        fun ⟨_, _⟩ => once_lift E fun _ => trivial

theorem decryptPreKeyProg_once (E : Env) (a : Address) (msg : PreKeyMsg) : ReadsOnce E (fun _ => True) (decryptPreKeyProg E a msg) := by
  unfold decryptPreKeyProg
  refine once_read E trivial fun stored => ?_
  refine once_then E ?_ fun ⟨id, record⟩ => ?_
  · unfold processPreKeyProg
    refine once_read E ⟨trivial, by simp [StoreOp.part]⟩ fun t => ?_
    split
    · refine once_then E (processPreKeyV3Prog_once E _ msg ?_ ?_ ?_ ?_) fun _ => once_write E (by simp [StoreOp.place]) fun _ => trivial
      all_goals simp [StoreOp.part]
    · trivial
  · refine once_random E fun ⟨pt, record⟩ => once_write E (by simp [StoreOp.place]) fun _ => ?_
    cases id with
    | none => trivial
    | some id => exact once_write E (by simp [StoreOp.place]) fun _ => trivial

theorem decryptSignalProg_once (E : Env) (a : Address) (msg : Signal) : ReadsOnce E (fun _ => True) (decryptSignalProg E a msg) := by
  unfold decryptSignalProg
  refine once_read E trivial fun o => ?_
  cases o with
  | none => trivial
  | some record =>
    refine once_random E fun out => ?_
    dsimp only
    split
    · trivial
    · split
      · refine once_read E ⟨trivial, by simp [StoreOp.part]⟩ fun t => ?_
        split
        · exact once_write E (by simp [StoreOp.place]) fun _ => once_write E (by simp [StoreOp.place]) fun _ => trivial
        · trivial
      · trivial
      · trivial

theorem bundleProg_once (E : Env) (a : Address) (b : Bundle) : ReadsOnce E (fun _ => True) (bundleProg E a b) := by
  unfold bundleProg
  refine once_read E trivial fun t => ?_
  split
  · refine once_lift E fun ok => ?_
    split
    · refine once_read E ⟨trivial, by simp [StoreOp.part]⟩ fun stored => once_random E fun kp => ?_
      refine once_me E (by simp [StoreOp.part]) (by simp [StoreOp.part]) fun ⟨_, _⟩ => once_random E fun s => ?_
      exact once_write E (by simp [StoreOp.place]) fun _ => ⟨fun h => absurd h (by simp [worldParts, StoreOp.place]), fun _ => trivial⟩
    · trivial
  · trivial

theorem Op.prog_once (E : Env) (o : Op) : ReadsOnce E (fun _ => True) (o.prog E) := by
  cases o with
  | encrypt a pt => exact once_then E (encryptProg_once E a pt) fun _ => trivial
  | decrypt a m =>
    refine once_then E ?_ fun _ => trivial
    cases m with
    | preKey m => exact once_then E (decryptPreKeyProg_once E a m) fun _ => trivial
    | signal m => exact decryptSignalProg_once E a m
    | senderKey m => trivial
    | plaintext m => trivial
  | bundle a b => exact once_then E (bundleProg_once E a b) fun _ => trivial
  | addPreKey id k => exact ⟨fun h => absurd h (by simp [worldParts, StoreOp.place]), fun _ => trivial⟩
  | addSignedPreKey id k => exact ⟨fun h => absurd h (by simp [worldParts, StoreOp.place]), fun _ => trivial⟩

/-! ## Results and changes -/

theorem threads_once (E : Env) (cs : List Call) (i : Nat) : ReadsOnce E (fun _ => True) (threads E cs i).prog := by
  unfold threads
  rcases cs[i]? with _ | c
  · trivial
  · exact Op.prog_once E c.op

theorem World.MadeOf.of_parts {P : World → Prop} {v : World} (h : ∀ e : Part, ∃ u, P u ∧ e.get v = e.get u) : v.MadeOf P where
  sessions a := h (.session a)
  preKeys id := h (.preKey id)
  signedPreKeys id := h (.signedPreKey id)
  known := h .known
  identity := h .identity
  regId := h .regId

theorem World.Puts.of_places {P : World → Prop} {v v' : World} (h : ∀ j : Place, j.get v' = j.get v ∨ ∃ u, P u ∧ j.get v' = j.get u) :
    World.Puts P v v' where
  sessions a := h (.session a)
  preKeys id := h (.preKey id)
  signedPreKeys id := h (.signedPreKey id)
  known a := h (.known a)

theorem Place.get_same {u v : World} (h : u.SameStores v) (j : Place) : j.get u = j.get v := by
  obtain ⟨h1, h2, h3, h4, -, -⟩ := h
  cases j with
  | session a => exact congrFun h1 a
  | preKey id => exact congrFun h2 id
  | signedPreKey id => exact congrFun h3 id
  | known a => exact congrFun h4 a

theorem runAtOnce_alone {E : Env} (hE : E.aliased = false) (cs : List Call) (s : List Nat) (w : World) (i : Nat) (c : Call)
    (hc : cs[i]? = some c) (hi : i ∈ s) (o : Out) (ho : (runAtOnce E cs s w).1[i]? = some (some o)) :
    ∃ v, v.MadeOf (Meets E cs s w i) ∧ (c.run E v).1 = o ∧ World.Puts (Leaves E cs s w i) v (c.run E v).2 := by
  have hin : i < cs.length := (List.getElem?_eq_some_iff.1 hc).1
  have hout : (runAtOnce E cs s w).1[i]? = some (((interleave (StoreOp.act E) s (threads E cs) w).1 i).result.map (Out.of id)) := by
    simp [runAtOnce, hin]
  rw [hout, Option.some.injEq, Option.map_eq_some_iff] at ho
  obtain ⟨r, hr, rfl⟩ := ho
  obtain ⟨v, h1, h2, h3⟩ := comesTo_result (worldParts E) (threads E cs) w i (threads_once E cs i) s hi hr
  have ht : threads E cs i = ⟨c.op.prog E, c.rand, c.faults⟩ := by simp [threads, hc]
  have hf := Op.prog_finish hE c (w := v) (v := v) ⟨rfl, rfl, rfl, rfl, rfl, rfl⟩
  rw [ht] at h2 h3
  refine ⟨v, .of_parts fun e => ?_, ?_, .of_places fun j => ?_⟩
  · obtain ⟨s1, hs, he⟩ := h1 e
    exact ⟨_, ⟨s1, hs, rfl⟩, he⟩
  · rw [hf.1, ← h2]; rfl
  · rw [← Place.get_same hf.2 j]
    rcases h3 j with h | ⟨s1, hs, he⟩
    · exact .inl h
    · exact .inr ⟨_, ⟨s1, hs, rfl⟩, he⟩

theorem steps_result_of_pos {E : Env} (o : Op) (ho : o.address = none) (l : Bytes) (fs : List Fault) (v : World) {n : Nat} (hn : 0 < n) :
    (Thread.steps (StoreOp.act E) n ⟨o.prog E, l, fs⟩ v).1.result ≠ none := by
  rw [Thread.steps_eq_interleave n (fun _ => (⟨o.prog E, l, fs⟩ : Thread StoreOp Bytes Out)) 0 v]
  obtain ⟨n, rfl⟩ := Nat.exists_eq_succ_of_ne_zero (Nat.pos_iff_ne_zero.1 hn)
  rw [List.replicate_succ]
  simp only [interleave]
  rw [interleave_done]
  · cases o <;> first | (simp [Op.address] at ho; done) | simp [Op.prog, Thread.step, Thread.ask, Thread.result]
  · cases o <;> first | (simp [Op.address] at ho; done) | simp [Op.prog, Thread.step, Thread.ask, Thread.result]

theorem runAtOnce_change {E : Env} (hE : E.aliased = false) (cs : List Call) (s : List Nat) (w : World) (i : Nat) (c : Call)
    (hc : cs[i]? = some c) :
    ∃ v c', v.MadeOf (Meets E cs (s ++ [i]) w i) ∧ (c' = c ∨ c.CutOff c') ∧
      World.Puts (fun u => u = (c'.run E v).2) (runAtOnce E cs s w).2 (runAtOnce E cs (s ++ [i]) w).2 := by
  obtain ⟨v, n, hn, h1, h2⟩ := comesTo_change (worldParts E) (threads E cs) w i (threads_once E cs i) s
  have ht : threads E cs i = ⟨c.op.prog E, c.rand, c.faults⟩ := by simp [threads, hc]
  rw [ht] at h2
  obtain ⟨u, p1, p2, p3, p4⟩ := Thread.steps_cut (act := StoreOp.act E) ⟨c.op.prog E, c.rand, c.faults⟩ n v (by
    intro hr
    refine Op.prog_sureReads E c.op fun ho => ?_
    exact steps_result_of_pos c.op ho _ _ _ hn hr)
  rcases u with ⟨up, ul, uf⟩
  simp only at p1 p2
  subst p1 p2
  refine ⟨v, { c with faults := uf }, .of_parts fun e => ?_, ?_, .of_places fun j => ?_⟩
  · obtain ⟨s1, hs, he⟩ := h1 e
    exact ⟨_, ⟨s1, hs, rfl⟩, he⟩
  · rcases p3 with ⟨h, -⟩ | ⟨-, m, hm⟩
    · injection h with _ _ h
      exact .inl (by rw [h])
    · exact .inr ⟨rfl, rfl, m, hm⟩
  · have hf := Op.prog_finish hE { c with faults := uf } (w := v) (v := v) ⟨rfl, rfl, rfl, rfl, rfl, rfl⟩
    rcases h2 j with h | h
    · exact .inl h
    · refine .inr ⟨_, rfl, ?_⟩
      rw [← Place.get_same hf.2 j]
      refine h.trans ?_
      rw [p4]
      rfl

/-- A turn of nobody. -/
theorem runAtOnce_nobody {E : Env} (cs : List Call) (s : List Nat) (w : World) (i : Nat) (hc : cs[i]? = none) :
    (runAtOnce E cs (s ++ [i]) w).2 = (runAtOnce E cs s w).2 := by
  have ht : threads E cs i = ⟨.done .panic, [], []⟩ := by simp [threads, hc]
  simp only [runAtOnce]
  rw [interleave_snoc]
  simp only
  rw [interleave_done (StoreOp.act E) s _ _ _ (by rw [ht]; simp [Thread.result]), ht]
  rfl

theorem World.MadeOf.WF {P : World → Prop} {v : World} (h : v.MadeOf P) (hP : ∀ u, P u → u.WF) : v.WF := by
  intro a r hr
  obtain ⟨u, hu, he⟩ := h.sessions a
  exact hP u hu a r (by rw [← he]; exact hr)

/-- The stores stay well-formed. -/
theorem runAtOnce_WF {E : Env} (hE : E.aliased = false) (cs : List Call) (w : World) (hw : w.WF) :
    ∀ (n : Nat) (s : List Nat), s.length ≤ n → (runAtOnce E cs s w).2.WF := by
  intro n
  induction n with
  | zero =>
    intro s hs
    rw [List.length_eq_zero_iff.1 (Nat.le_zero.1 hs)]
    exact hw
  | succ n ih =>
    intro s hs
    rcases List.eq_nil_or_concat s with rfl | ⟨s', i, rfl⟩
    · exact hw
    · rw [List.concat_eq_append] at hs ⊢
      have hl : s'.length ≤ n := by simpa using hs
      rcases hc : cs[i]? with _ | c
      · rw [runAtOnce_nobody cs s' w i hc]; exact ih s' hl
      · obtain ⟨v, c', h1, -, h3⟩ := runAtOnce_change hE cs s' w i c hc
        have hv : v.WF := h1.WF fun u hu => by
          obtain ⟨s1, hs1, rfl⟩ := hu
          refine ih s1 ?_
          have := hs1.length_le
          simp at this
          omega
        intro a r hr
        rcases h3.sessions a with h | ⟨u, rfl, h⟩
        · exact ih s' hl a r (by rw [← h]; exact hr)
        · exact hv.call a r (by rw [← h]; exact hr)

theorem Meets.WF {E : Env} (hE : E.aliased = false) {cs : List Call} {s : List Nat} {w : World} (hw : w.WF) {i : Nat} {u : World}
    (h : Meets E cs s w i u) : u.WF := by
  obtain ⟨s1, -, rfl⟩ := h
  exact runAtOnce_WF hE cs w hw _ s1 (Nat.le_refl _)

/-! ## Groups -/

/-- The group store as one part: every call loads a record once, and before it stores one. -/
def groupParts : Parts (S := GWorld) GStoreOp.act where
  K := Unit
  T := fun _ => Address × DistId → Option GRecord
  get := fun _ w => w.records
  J := Address × DistId
  V := fun _ => Option GRecord
  at_ := fun k w => w.records k
  part := fun _ => ()
  place := fun op => match op with
    | .load _ => none
    | .store k _ => some k
  mix e v w := ⟨w, rfl, fun _ h => absurd rfl h⟩
  read_same op w h := by cases op <;> first | rfl | cases h
  read_answer op w w' h hg := by
    cases op with
    | load k => exact congrArg (· k) hg
    | store k r => cases h
  write_answer op w w' j h := by cases op <;> first | rfl | cases h
  write_parts op w j h e he := absurd rfl he
  write_place op w w' j h := by
    cases op with
    | load k => cases h
    | store k r => cases h; exact (upd_same ..).trans (upd_same ..).symm
  write_others op w j h j' hj := by
    cases op with
    | load k => cases h
    | store k r => cases h; exact upd_ne _ _ hj

abbrev GReadsOnce {α : Type} (F : Unit → Prop) (p : GProg α) : Prop := Prog.Once groupParts F p

section
variable {α β : Type} {F : Unit → Prop}

theorem gOnce_load {k : Address × DistId} {f : Option GRecord → GProg β} (h : F ()) (hf : ∀ a, GReadsOnce (fun _ => False) (f a)) :
    GReadsOnce F ((Prog.ask (.load k) : GProg _) >>= f) := ⟨fun _ => h, fun b => (hf b).mono _ fun _ h => h.elim⟩

theorem gOnce_store {k : Address × DistId} {r : GRecord} {f : Unit → GProg β} (hf : ∀ a, GReadsOnce (fun _ => False) (f a)) :
    GReadsOnce F ((Prog.ask (.store k r) : GProg _) >>= f) := ⟨fun h => by simp [groupParts] at h, fun b => (hf b).mono _ fun _ h => h.elim⟩

theorem gOnce_lift {r : Res α} {f : α → GProg β} (hf : ∀ a, GReadsOnce F (f a)) : GReadsOnce F (GProg.lift r >>= f) := by
  cases r with
  | ok a => exact hf a
  | err e => trivial
  | panic => trivial

theorem gOnce_random {x : M Bytes α} {f : α → GProg β} (hf : ∀ a, GReadsOnce F (f a)) : GReadsOnce F (GProg.random x >>= f) := hf
theorem gOnce_sysRandom {x : M Bytes α} {f : α → GProg β} (hf : ∀ a, GReadsOnce F (f a)) : GReadsOnce F (GProg.sysRandom x >>= f) := hf

theorem gOnce_then {p : GProg α} {f : α → GProg β} (hp : GReadsOnce F p) (hf : ∀ a, GReadsOnce (fun _ => False) (f a)) :
    GReadsOnce F (p >>= f) :=
  Prog.Once.bind_of groupParts (A := fun _ => True) hp (Prog.uses_true p) (fun _ h => h) fun a => (hf a).mono _ fun _ h => h.elim

end

theorem GOp.prog_once (C : Crypto) (o : GOp) : GReadsOnce (fun _ => True) (o.prog C) := by
  cases o with
  | encrypt a d pt =>
    refine gOnce_then ?_ fun _ => trivial
    refine gOnce_load trivial fun o => ?_
    cases o with
    | none => trivial
    | some record => exact gOnce_lift fun _ => gOnce_lift fun _ => gOnce_lift fun _ => gOnce_random fun _ => gOnce_store fun _ => trivial
  | decrypt a m =>
    refine gOnce_then ?_ fun _ => trivial
    refine gOnce_load trivial fun o => ?_
    cases o with
    | none => trivial
    | some record =>
      dsimp only
      split
      · trivial
      · split
        · trivial
        · refine gOnce_lift fun _ => gOnce_lift fun _ => ?_
          split
          · exact gOnce_lift fun _ => gOnce_lift fun _ => gOnce_store fun _ => trivial
          · trivial
  | process a m =>
    refine gOnce_then ?_ fun _ => trivial
    exact gOnce_load trivial fun o => gOnce_lift fun _ => ⟨fun h => by simp [groupParts] at h, fun _ => trivial⟩
  | distribute a d =>
    refine gOnce_then ?_ fun _ => trivial
    refine gOnce_load trivial fun o => ?_
    cases o with
    | some r => exact gOnce_lift (r := .ok r) fun _ => gOnce_lift fun _ => gOnce_lift fun _ => trivial
    | none =>
      refine gOnce_then ?_ fun _ => gOnce_lift fun _ => gOnce_lift fun _ => trivial
      exact gOnce_sysRandom fun _ => gOnce_random fun _ => gOnce_random fun _ => gOnce_lift fun _ => gOnce_store fun _ => trivial

theorem gThreads_once (C : Crypto) (cs : List GCall) (i : Nat) : GReadsOnce (fun _ => True) (gThreads C cs i).prog := by
  unfold gThreads
  rcases cs[i]? with _ | c
  · trivial
  · exact GOp.prog_once C c.op

theorem runGAtOnce_alone (C : Crypto) (cs : List GCall) (s : List Nat) (w : GWorld) (i : Nat) (c : GCall)
    (hc : cs[i]? = some c) (hi : i ∈ s) (o : GOut) (ho : (runGAtOnce C cs s w).1[i]? = some (some o)) :
    ∃ u, GMeets C cs s w i u ∧ (c.run ⟨C, false⟩ u).1 = o ∧
      ∀ k, (c.run ⟨C, false⟩ u).2.records k = u.records k ∨ ∃ u', GLeaves C cs s w i u' ∧ (c.run ⟨C, false⟩ u).2.records k = u'.records k := by
  have hin : i < cs.length := (List.getElem?_eq_some_iff.1 hc).1
  have hout : (runGAtOnce C cs s w).1[i]? = some (((interleave GStoreOp.act s (gThreads C cs) w).1 i).result.map (GOut.of id)) := by
    simp [runGAtOnce, hin]
  rw [hout, Option.some.injEq, Option.map_eq_some_iff] at ho
  obtain ⟨r, hr, rfl⟩ := ho
  obtain ⟨v, h1, h2, h3⟩ := comesTo_result groupParts (gThreads C cs) w i (gThreads_once C cs i) s hi hr
  have ht : gThreads C cs i = ⟨c.op.prog C, (c.rand, c.sysRand), c.faults⟩ := by simp [gThreads, hc]
  obtain ⟨s1, hs, he⟩ := h1 ()
  have he' : v.records = (runGAtOnce C cs s1 w).2.records := he
  have hf := GOp.prog_finish C c (w := v) he'
  rw [ht] at h2 h3
  refine ⟨(runGAtOnce C cs s1 w).2, ⟨s1, hs, rfl⟩, ?_, fun k => ?_⟩
  · rw [hf.1, ← h2]; rfl
  · rw [← hf.2, ← he']
    rcases h3 k with h | ⟨s2, hs2, he2⟩
    · exact .inl h
    · exact .inr ⟨_, ⟨s2, hs2, rfl⟩, he2⟩

theorem runGAtOnce_change (C : Crypto) (cs : List GCall) (s : List Nat) (w : GWorld) (i : Nat) (c : GCall) (hc : cs[i]? = some c) :
    ∃ u c', GMeets C cs (s ++ [i]) w i u ∧ (c' = c ∨ c.CutOff c') ∧
      ∀ k, (runGAtOnce C cs (s ++ [i]) w).2.records k = (runGAtOnce C cs s w).2.records k ∨
        (runGAtOnce C cs (s ++ [i]) w).2.records k = (c'.run ⟨C, false⟩ u).2.records k := by
  obtain ⟨v, n, -, h1, h2⟩ := comesTo_change groupParts (gThreads C cs) w i (gThreads_once C cs i) s
  have ht : gThreads C cs i = ⟨c.op.prog C, (c.rand, c.sysRand), c.faults⟩ := by simp [gThreads, hc]
  obtain ⟨s1, hs, he⟩ := h1 ()
  have he' : v.records = (runGAtOnce C cs s1 w).2.records := he
  rw [ht] at h2
  obtain ⟨u, p1, p2, p3, p4⟩ := Thread.steps_cut (act := GStoreOp.act) ⟨c.op.prog C, (c.rand, c.sysRand), c.faults⟩ n v
    fun _ => GOp.prog_sureReads C c.op
  rcases u with ⟨up, ul, uf⟩
  simp only at p1 p2
  subst p1 p2
  refine ⟨(runGAtOnce C cs s1 w).2, { c with faults := uf }, ⟨s1, hs, rfl⟩, ?_, fun k => ?_⟩
  · rcases p3 with ⟨h, -⟩ | ⟨-, m, hm⟩
    · injection h with _ _ h
      exact .inl (by rw [h])
    · exact .inr ⟨rfl, rfl, rfl, m, hm⟩
  · have hf := GOp.prog_finish C { c with faults := uf } (w := v) he'
    rcases h2 k with h | h
    · exact .inl h
    · refine .inr ?_
      rw [← hf.2]
      refine h.trans ?_
      rw [p4]
      rfl

theorem runGAtOnce_nobody {C : Crypto} (cs : List GCall) (s : List Nat) (w : GWorld) (i : Nat) (hc : cs[i]? = none) :
    (runGAtOnce C cs (s ++ [i]) w).2 = (runGAtOnce C cs s w).2 := by
  have ht : gThreads C cs i = ⟨.done .panic, ([], []), []⟩ := by simp [gThreads, hc]
  simp only [runGAtOnce]
  rw [interleave_snoc]
  simp only
  rw [interleave_done GStoreOp.act s _ _ _ (by rw [ht]; simp [Thread.result]), ht]
  rfl

theorem runGAtOnce_WF (C : Crypto) (cs : List GCall) (w : GWorld) (hw : w.WF) :
    ∀ (n : Nat) (s : List Nat), s.length ≤ n → (runGAtOnce C cs s w).2.WF := by
  intro n
  induction n with
  | zero =>
    intro s hs
    rw [List.length_eq_zero_iff.1 (Nat.le_zero.1 hs)]
    exact hw
  | succ n ih =>
    intro s hs
    rcases List.eq_nil_or_concat s with rfl | ⟨s', i, rfl⟩
    · exact hw
    · rw [List.concat_eq_append] at hs ⊢
      have hl : s'.length ≤ n := by simpa using hs
      rcases hc : cs[i]? with _ | c
      · rw [runGAtOnce_nobody cs s' w i hc]; exact ih s' hl
      · obtain ⟨v, c', ⟨s1, hs1, rfl⟩, -, h3⟩ := runGAtOnce_change C cs s' w i c hc
        have hv : (runGAtOnce C cs s1 w).2.WF := by
          refine ih s1 ?_
          have := hs1.length_le
          simp at this
          omega
        intro k g hg
        rcases h3 k with h | h
        · exact ih s' hl k g (by rw [← h]; exact hg)
        · exact hv.call _ k g (by rw [← h]; exact hg)

end Verif
