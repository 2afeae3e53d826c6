import Verif.Proofs.Sessions1

/-!
The invariant of a conversation with several sessions: each of them, taken for itself, satisfies the invariant of a conversation with
one session.
-/

namespace Verif

attribute [local irreducible] maxMessageKeys

/-- The side that plays Alice's or Bob's part in a session started by `x`. -/
def Side.as : Side → Side → Side
  | .alice, r => r
  | .bob, r => r.other

theorem Side.as_other (x r : Side) : x.as r.other = (x.as r).other := by cases x <;> cases r <;> rfl
theorem Side.as_as (x r : Side) : x.as (x.as r) = r := by cases x <;> cases r <;> rfl
theorem Side.as_inj {x r r' : Side} (h : x.as r = x.as r') : r = r' := by rw [← x.as_as r, h, x.as_as]

/-- The users in the parts they play in a session started by `x`. -/
def Duo.as (d : Duo) (x : Side) : Duo :=
  { C := d.C, aliased := fun r => d.aliased (x.as r), trusted := fun r => d.trusted (x.as r), address := fun r => d.address (x.as r) }

theorem Duo.as_env (d : Duo) (x r : Side) : (d.as x).env r = d.env (x.as r) := rfl

/-- One session. -/
structure Talk where
  x : Side
  b : Bundle
  base : PubKey
  o : Opening
  L : Nat → Rung
  lev : Side → Nat
  cnt : Side → Nat
  st : Side → Option SState

def Talk.name (T : Talk) : Bytes := T.base.bytes
def Talk.top (T : Talk) : Nat := max (T.lev .alice) (T.lev .bob)

def MSys.sentIn (S : MSys) (s : Side) (name : Bytes) : List (Ciphertext × Bytes) :=
  (S.sent s).filterMap fun p => if p.2.2 = name then some (p.1, p.2.1) else none

/-- The part of the system that belongs to one session. -/
def MSys.proj (S : MSys) (T : Talk) : DSys :=
  { world := fun r => { S.world (T.x.as r) with sessions := fun _ => (T.st r).map fun t => { current := some t } }
    sent := fun r => S.sentIn (T.x.as r) T.name
    got := fun r => S.gotIn (T.x.as r) T.name }

def Talk.Inv (d : Duo) (ident : Side → PubKey) (F : List Bytes) (N : Nat) (S : MSys) (T : Talk) : Prop :=
  Verif.Inv (d.as T.x) (fun r => ident (T.x.as r)) T.b T.base T.o F N T.L T.lev T.cnt T.st (S.proj T)

/-- The record of a side: its states belong to different sessions. -/
structure RecOk (Ts : List Talk) (rec : Record) (l : List SState) : Prop where
  wf : rec.WF
  cur : rec.current ≠ none
  prev : rec.previousStates = .ok l
  nodup : ((rec.current.toList ++ l).map (·.aliceBaseKey)).Nodup
  known : ∀ u ∈ rec.current.toList ++ l, ∃ T ∈ Ts, u.aliceBaseKey = T.name

/-- The records hold exactly the states of the session. -/
def Talk.Linked (d : Duo) (S : MSys) (T : Talk) : Prop :=
  ∀ r t, T.st r = some t ↔ ∃ rec, (S.world (T.x.as r)).sessions (d.address (T.x.as r).other) = some rec ∧ rec.HasState t ∧ t.aliceBaseKey = T.name

structure MInv (d : Duo) (ident : Side → PubKey) (G : List PubKey) (F : List Bytes) (N : Nat) (S : MSys) (Ts : List Talk) : Prop where
  list : S.started = Ts.map fun T => (T.x, T.b, T.name)
  names : (Ts.map Talk.name).Nodup
  each : ∀ T ∈ Ts, T.Inv d ident F N S
  link : ∀ T ∈ Ts, T.Linked d S
  recs : ∀ s rec, (S.world s).sessions (d.address s.other) = some rec → ∃ l, RecOk Ts rec l
  apart : ∀ T ∈ Ts, ∀ U ∈ Ts, T.name ≠ U.name → ∀ i, 1 ≤ i → i ≤ T.top → ∀ j, j ≤ U.top → (T.L i).kp.pub ≠ (U.L j).kp.pub
  known : ∀ s, (S.world s).known (d.address s.other) = none ∨ (S.world s).known (d.address s.other) = some (ident s.other)
  ids : ∀ s, (S.world s).identity.pub = ident s ∧ (S.world s).identity.Matched d.C
  once : ∀ T ∈ Ts, ∀ U ∈ Ts, T.name ≠ U.name → T.x = U.x → ∀ id, T.b.preKeyID = some id → U.b.preKeyID ≠ some id
  tags : ∀ s, ∀ p ∈ S.sent s, ∃ T ∈ Ts, p.2.2 = T.name
  gtags : ∀ s, ∀ p ∈ S.got s, ∃ T ∈ Ts, p.1 = T.name
  signed : ∀ g ∈ G, some g ∉ F.map (publicKeyOf d.C)
  made : ∀ T ∈ Ts, ∀ i, 1 ≤ i → i ≤ T.top → (T.L i).kp.pub ∉ G

/-! ## Moving one session's invariant to other stores -/

variable {d : Duo} {ident : Side → PubKey} {b : Bundle} {base : PubKey} {o : Opening} {G : List PubKey} {F F' : List Bytes} {N N' : Nat} {L : Nat → Rung}
  {lev cnt : Side → Nat} {st : Side → Option SState}

theorem BobCan.congr {C : Crypto} {w w' : World} (h : BobCan C ident b base L w) (h1 : w'.identity = w.identity)
    (h2 : w'.signedPreKeys b.signedPreKeyID = w.signedPreKeys b.signedPreKeyID) (h3 : ∀ id, b.preKeyID = some id → w'.preKeys id = w.preKeys id) : BobCan C ident b base L w' := by
  obtain ⟨signed, one, s0, b1, b2, b3, b4⟩ := h
  refine ⟨signed, one, s0, by unfold LoadsPair at b1 ⊢; rw [h2]; exact b1, ?_, by rw [h1]; exact b3, b4⟩
  cases hid : b.preKeyID with
  | none => simp only [hid] at b2 ⊢; exact b2
  | some id =>
    simp only [hid] at b2 ⊢
    unfold LoadsPair at b2 ⊢
    rw [h3 id hid]; exact b2

/-- What the randomness that is left has to satisfy. -/
def Less (C : Crypto) (F' F : List Bytes) : Prop := (∀ x ∈ F', x ∈ F) ∧ (F'.map (publicKeyOf C)).Nodup

theorem Less.sub {C : Crypto} (h : Less C F' F) {x : Option PubKey} (hx : x ∈ F'.map (publicKeyOf C)) : x ∈ F.map (publicKeyOf C) := by
  rw [List.mem_map] at hx ⊢
  obtain ⟨y, h1, h2⟩ := hx
  exact ⟨y, h.1 y h1, h2⟩

theorem Inv.move {S S' : DSys} (h : Inv d ident b base o F N L lev cnt st S) (hs : S'.sent = S.sent) (hg : S'.got = S.got)
    (hse : ∀ r, (S'.world r).sessions (d.address r.other) = (S.world r).sessions (d.address r.other))
    (hk : ∀ r, (S'.world r).known (d.address r.other) = none ∨ (S'.world r).known (d.address r.other) = some (ident r.other))
    (hb : st .bob = none → (S'.world .bob).identity = (S.world .bob).identity ∧ (S'.world .bob).signedPreKeys b.signedPreKeyID = (S.world .bob).signedPreKeys b.signedPreKeyID ∧
      ∀ id, b.preKeyID = some id → (S'.world .bob).preKeys id = (S.world .bob).preKeys id)
    (hF : Less d.C F' F) (hN : N ≤ N') : Inv d ident b base o F' N' L lev cnt st S' := by
  obtain ⟨f1, f2, f3⟩ := h.fresh
  have hsub : ∀ x, x ∈ F'.map (publicKeyOf d.C) → x ∈ F.map (publicKeyOf d.C) := by
    intro x hx
    rw [List.mem_map] at hx ⊢
    obtain ⟨y, h1, h2⟩ := hx
    exact ⟨y, hF.1 y h1, h2⟩
  refine ⟨h.lad, h.par, h.adj, ?_, h.ready, ?_, ?_, ?_, ?_, ?_, hk, fun s => Nat.le_trans (h.count s) hN,
    ⟨fun hx => f1 (hsub _ hx), hF.2, fun i hi hx => f3 i hi (hsub _ hx)⟩, ?_, ?_⟩
  · rw [hg]; exact h.alice
  · intro hn
    obtain ⟨n1, n2, n3, n4, n5, n6⟩ := h.notReady hn
    rw [hg, hs]
    obtain ⟨q1, q2, q3⟩ := hb hn
    exact ⟨n1, n2, n3, n4, n5, n6.congr q1 q2 q3⟩
  · intro s; rw [hse]; exact h.sess s
  · rw [hg]; exact h.view
  · rw [hg]; exact h.seen
  · rw [hs]; exact h.sent
  · rw [hs]; exact fun s p hp k n hk => Nat.lt_of_lt_of_le (h.small s p hp k n hk) hN
  · rw [hs]
    exact ⟨h.book.first, h.book.second, fun rd hrd => h.book.rest rd (hF.1 rd hrd), h.book.born, h.book.tally, h.book.before, h.book.numbered⟩

theorem Talk.Inv.move {S S' : MSys} {T : Talk} (h : T.Inv d ident F N S) (hs : ∀ s, S'.sentIn s T.name = S.sentIn s T.name)
    (hg : ∀ s, S'.gotIn s T.name = S.gotIn s T.name)
    (hk : ∀ s, (S'.world s).known (d.address s.other) = none ∨ (S'.world s).known (d.address s.other) = some (ident s.other))
    (hb : T.st .bob = none → (S'.world T.x.other).identity = (S.world T.x.other).identity ∧
      (S'.world T.x.other).signedPreKeys T.b.signedPreKeyID = (S.world T.x.other).signedPreKeys T.b.signedPreKeyID ∧
      ∀ id, T.b.preKeyID = some id → (S'.world T.x.other).preKeys id = (S.world T.x.other).preKeys id)
    (hF : Less d.C F' F) (hN : N ≤ N') : T.Inv d ident F' N' S' := by
  have hbob : T.x.as .bob = T.x.other := by cases T.x <;> rfl
  refine Verif.Inv.move (S := S.proj T) (S' := S'.proj T) h ?_ ?_ (fun _ => rfl) ?_ ?_ hF hN
  · funext r; exact hs _
  · funext r; exact hg _
  · intro r
    have := hk (T.x.as r)
    simp only [MSys.proj, Duo.as, Side.as_other]
    exact this
  · intro hn
    simp only [MSys.proj, hbob]
    exact hb hn

/-- Only what the invariants do not depend on has changed. -/
theorem MInv.idle {S S' : MSys} {Ts : List Talk} (h : MInv d ident G F N S Ts) (h1 : S'.started = S.started) (h2 : S'.sent = S.sent) (h3 : S'.got = S.got)
    (hk : ∀ s, (S'.world s).known (d.address s.other) = none ∨ (S'.world s).known (d.address s.other) = some (ident s.other))
    (hw : ∀ s, (S'.world s).sessions (d.address s.other) = (S.world s).sessions (d.address s.other) ∧ (S'.world s).identity = (S.world s).identity ∧
      (S'.world s).signedPreKeys = (S.world s).signedPreKeys ∧ (S'.world s).preKeys = (S.world s).preKeys)
    (hF : Less d.C F' F) (hN : N ≤ N') : MInv d ident G F' N' S' Ts := by
  refine ⟨by rw [h1]; exact h.list, h.names, ?_, ?_, ?_, h.apart, hk, ?_, h.once, by rw [h2]; exact h.tags, by rw [h3]; exact h.gtags,
    fun g hg hx => h.signed g hg (hF.sub hx), h.made⟩
  · intro T hT
    refine (h.each T hT).move (fun s => by simp only [MSys.sentIn, h2]) (fun s => by simp only [MSys.gotIn, h3]) hk ?_ hF hN
    exact fun _ => ⟨(hw _).2.1, by rw [(hw _).2.2.1], fun id _ => by rw [(hw _).2.2.2]⟩
  · intro T hT r t
    rw [h.link T hT r t, (hw _).1]
  · intro s rec hr
    rw [(hw s).1] at hr
    exact h.recs s rec hr
  · intro s
    rw [(hw s).2.1]
    exact h.ids s

/-- Stores may also change, except for the pre-keys of sessions that have not arrived yet. -/
theorem MInv.frame {S S' : MSys} {Ts : List Talk} (h : MInv d ident G F N S Ts) (h1 : S'.started = S.started) (h2 : S'.sent = S.sent) (h3 : S'.got = S.got)
    (hk : ∀ s, (S'.world s).known (d.address s.other) = none ∨ (S'.world s).known (d.address s.other) = some (ident s.other))
    (hw : ∀ s, (S'.world s).sessions (d.address s.other) = (S.world s).sessions (d.address s.other) ∧ (S'.world s).identity = (S.world s).identity)
    (hp : ∀ T ∈ Ts, T.st .bob = none → (S'.world T.x.other).signedPreKeys T.b.signedPreKeyID = (S.world T.x.other).signedPreKeys T.b.signedPreKeyID ∧
      ∀ id, T.b.preKeyID = some id → (S'.world T.x.other).preKeys id = (S.world T.x.other).preKeys id)
    (hF : Less d.C F' F) (hN : N ≤ N') : MInv d ident G F' N' S' Ts := by
  refine ⟨by rw [h1]; exact h.list, h.names, ?_, ?_, ?_, h.apart, hk, ?_, h.once, by rw [h2]; exact h.tags, by rw [h3]; exact h.gtags,
    fun g hg hx => h.signed g hg (hF.sub hx), h.made⟩
  · intro T hT
    refine (h.each T hT).move (fun s => by simp only [MSys.sentIn, h2]) (fun s => by simp only [MSys.gotIn, h3]) hk ?_ hF hN
    exact fun hn => ⟨(hw _).2, (hp T hT hn).1, (hp T hT hn).2⟩
  · intro T hT r t
    rw [h.link T hT r t, (hw _).1]
  · intro s rec hr
    rw [(hw s).1] at hr
    exact h.recs s rec hr
  · intro s
    rw [(hw s).2]
    exact h.ids s

/-- The list with one session replaced. -/
def replaceTalk (T' : Talk) (Ts : List Talk) : List Talk := Ts.map fun U => if U.name = T'.name then T' else U

theorem mem_replace {T' U : Talk} {Ts : List Talk} (h : U ∈ replaceTalk T' Ts) : U = T' ∨ (U ∈ Ts ∧ U.name ≠ T'.name) := by
  unfold replaceTalk at h
  rw [List.mem_map] at h
  obtain ⟨V, hV, rfl⟩ := h
  by_cases hn : V.name = T'.name
  · rw [if_pos hn]; exact .inl rfl
  · rw [if_neg hn]; exact .inr ⟨hV, hn⟩

theorem mem_replace_self {T T' : Talk} {Ts : List Talk} (hT : T ∈ Ts) (hn : T'.name = T.name) : T' ∈ replaceTalk T' Ts := by
  unfold replaceTalk
  rw [List.mem_map]
  exact ⟨T, hT, by rw [if_pos hn.symm]⟩

theorem mem_replace_other {T' U : Talk} {Ts : List Talk} (hU : U ∈ Ts) (hn : U.name ≠ T'.name) : U ∈ replaceTalk T' Ts := by
  unfold replaceTalk
  rw [List.mem_map]
  exact ⟨U, hU, by rw [if_neg hn]⟩

theorem MInv.unique {S : MSys} {Ts : List Talk} (h : MInv d ident G F N S Ts) {T U : Talk} (hT : T ∈ Ts) (hU : U ∈ Ts) (hn : T.name = U.name) : T = U :=
  List.inj_on_of_nodup_map h.names hT hU hn

/-- One session moves on; the others stay. -/
theorem MInv.update {S S' : MSys} {Ts : List Talk} (h : MInv d ident G F N S Ts) {T T' : Talk} (hT : T ∈ Ts) (hx : T'.x = T.x) (hbu : T'.b = T.b)
    (hba : T'.base = T.base) (r : Side) (h1 : S'.started = S.started) (hw : S'.world (T.x.as r.other) = S.world (T.x.as r.other))
    (hid : (S'.world (T.x.as r)).identity = (S.world (T.x.as r)).identity) (hsg : (S'.world (T.x.as r)).signedPreKeys = (S.world (T.x.as r)).signedPreKeys)
    (hpk : (S'.world (T.x.as r)).preKeys = (S.world (T.x.as r)).preKeys ∨
      (r = .bob ∧ (S'.world (T.x.as r)).preKeys = dropPreKey (S.world (T.x.as r)).preKeys T.b.preKeyID))
    (hk : (S'.world (T.x.as r)).known (d.address (T.x.as r).other) = none ∨ (S'.world (T.x.as r)).known (d.address (T.x.as r).other) = some (ident (T.x.as r).other))
    (hsent : ∀ B, B ≠ T.name → ∀ s, S'.sentIn s B = S.sentIn s B) (hgot : ∀ B, B ≠ T.name → ∀ s, S'.gotIn s B = S.gotIn s B)
    (htag : ∀ s, ∀ p ∈ S'.sent s, p ∈ S.sent s ∨ p.2.2 = T.name) (hgtag : ∀ s, ∀ p ∈ S'.got s, p ∈ S.got s ∨ p.1 = T.name)
    {rec' : Record} {l' : List SState} (hrec : (S'.world (T.x.as r)).sessions (d.address (T.x.as r).other) = some rec') (hok : RecOk Ts rec' l')
    (hst : T'.st r.other = T.st r.other)
    (hsame : ∀ u, u.aliceBaseKey ≠ T.name → (rec'.HasState u ↔ ∃ rec, (S.world (T.x.as r)).sessions (d.address (T.x.as r).other) = some rec ∧ rec.HasState u))
    (hown : ∀ u, T'.st r = some u ↔ rec'.HasState u ∧ u.aliceBaseKey = T.name)
    (hinv : T'.Inv d ident F' N' S') (hF : Less d.C F' F) (hN : N ≤ N')
    (hold : ∀ i, i ≤ T'.top → (i ≤ T.top ∧ (T'.L i).kp.pub = (T.L i).kp.pub) ∨ some (T'.L i).kp.pub ∈ F.map (publicKeyOf d.C)) :
    MInv d ident G F' N' S' (replaceTalk T' Ts) := by
  have hname : T'.name = T.name := by unfold Talk.name; rw [hba]
  have hnames : ∀ U ∈ Ts, ∃ V ∈ replaceTalk T' Ts, U.name = V.name := by
    intro U hU
    by_cases hn : U.name = T'.name
    · exact ⟨T', mem_replace_self hT hname, hn⟩
    · exact ⟨U, mem_replace_other hU hn, rfl⟩
  have hsides : ∀ s, s = T.x.as r ∨ s = T.x.as r.other := by
    intro s
    have := Side.eq_or r (T.x.as s)
    rcases this with h | h
    · left; rw [← h, Side.as_as]
    · right; rw [← h, Side.as_as]
  have hknown : ∀ s, (S'.world s).known (d.address s.other) = none ∨ (S'.world s).known (d.address s.other) = some (ident s.other) := by
    intro s
    rcases hsides s with rfl | rfl
    · exact hk
    · rw [hw]; exact h.known _
  have hfresh : ∀ U ∈ Ts, ∀ j, j ≤ U.top → some (U.L j).kp.pub ∉ F.map (publicKeyOf d.C) := fun U hU j hj => (h.each U hU).fresh.2.2 j hj
  refine ⟨?_, ?_, ?_, ?_, ?_, ?_, hknown, ?_, ?_, ?_, ?_, fun g hg hx => h.signed g hg (hF.sub hx), ?_⟩
  · rw [h1, h.list]
    unfold replaceTalk
    rw [List.map_map]
    apply List.map_congr_left
    intro U hU
    simp only [Function.comp_apply]
    split
    · rename_i hn
      have := h.unique hU hT (hn.trans hname)
      subst this
      rw [hx, hbu, hname]
    · rfl
  · have : (replaceTalk T' Ts).map Talk.name = Ts.map Talk.name := by
      unfold replaceTalk
      rw [List.map_map]
      apply List.map_congr_left
      intro U hU
      simp only [Function.comp_apply]
      split
      · rename_i hn; exact hn.symm
      · rfl
    rw [this]; exact h.names
  · intro U hU
    rcases mem_replace hU with rfl | ⟨hU, hn⟩
    · exact hinv
    · rw [hname] at hn
      refine (h.each U hU).move (hsent _ hn) (hgot _ hn) hknown (fun _ => ?_) hF hN
      rcases hsides U.x.other with hs | hs
      · rw [hs]
        refine ⟨hid, by rw [hsg], ?_⟩
        intro id hidu
        rcases hpk with hpk | ⟨rfl, hpk⟩
        · rw [hpk]
        · rw [hpk]
          have hxx : U.x = T.x := by
            have : T.x.as .bob = T.x.other := by cases T.x <;> rfl
            rw [this] at hs
            rw [← U.x.other_other, hs, Side.other_other]
          unfold dropPreKey
          cases hb : T.b.preKeyID with
          | none => rfl
          | some i =>
            simp only
            refine upd_ne _ _ ?_
            rintro rfl
            exact h.once U hU T hT hn hxx id hidu hb
      · rw [hs, hw]
        exact ⟨rfl, rfl, fun _ _ => rfl⟩
  · intro U hU
    rcases mem_replace hU with rfl | ⟨hU, hn⟩
    · intro r0 t
      rw [hx, hname]
      rcases Side.eq_or r r0 with rfl | rfl
      · rw [hown t]
        constructor
        · intro hh; exact ⟨rec', hrec, hh⟩
        · rintro ⟨rec, hr, hh⟩
          rw [hrec] at hr
          simp only [Option.some.injEq] at hr
          subst hr
          exact hh
      · rw [hst, hw]
        exact h.link T hT _ t
    · rw [hname] at hn
      intro r0 t
      rw [h.link U hU r0 t]
      rcases hsides (U.x.as r0) with hs | hs
      · rw [hs]
        constructor
        · rintro ⟨rec, hr, hh1, hh2⟩
          exact ⟨rec', hrec, (hsame t (by rw [hh2]; exact hn)).mpr ⟨rec, hr, hh1⟩, hh2⟩
        · rintro ⟨rec, hr, hh1, hh2⟩
          rw [hrec] at hr
          simp only [Option.some.injEq] at hr
          subst hr
          obtain ⟨rec, hr, hh⟩ := (hsame t (by rw [hh2]; exact hn)).mp hh1
          exact ⟨rec, hr, hh, hh2⟩
      · rw [hs, hw]
  · intro s rec hr
    rcases hsides s with rfl | rfl
    · rw [hrec] at hr
      simp only [Option.some.injEq] at hr
      subst hr
      refine ⟨l', hok.wf, hok.cur, hok.prev, hok.nodup, ?_⟩
      intro u hu
      obtain ⟨U, hU, hn⟩ := hok.known u hu
      obtain ⟨V, hV, hn'⟩ := hnames U hU
      exact ⟨V, hV, hn.trans hn'⟩
    · rw [hw] at hr
      obtain ⟨l, hl⟩ := h.recs _ rec hr
      refine ⟨l, hl.wf, hl.cur, hl.prev, hl.nodup, ?_⟩
      intro u hu
      obtain ⟨U, hU, hn⟩ := hl.known u hu
      obtain ⟨V, hV, hn'⟩ := hnames U hU
      exact ⟨V, hV, hn.trans hn'⟩
  · intro U hU V hV hn i hi1 hi j hj
    rcases mem_replace hU with rfl | ⟨hU', hn1⟩
    · rcases mem_replace hV with rfl | ⟨hV, hn2⟩
      · exact absurd rfl hn
      · rcases hold i hi with ⟨q1, q2⟩ | hq
        · rw [q2]; exact h.apart T hT V hV (by rw [← hname]; exact hn) i hi1 q1 j hj
        · intro he
          rw [he] at hq
          exact hfresh V hV j hj hq
    · rcases mem_replace hV with rfl | ⟨hV, hn2⟩
      · rcases hold j hj with ⟨q1, q2⟩ | hq
        · rw [q2]; exact h.apart U hU' T hT (by rw [← hname]; exact hn) i hi1 hi j q1
        · intro he
          rw [← he] at hq
          exact hfresh U hU' i hi hq
      · exact h.apart U hU' V hV hn i hi1 hi j hj
  · intro s
    rcases hsides s with rfl | rfl
    · rw [hid]; exact h.ids _
    · rw [hw]; exact h.ids _
  · intro U hU V hV hn hxx id hidu
    rcases mem_replace hU with rfl | ⟨hU', hn1⟩
    · rcases mem_replace hV with rfl | ⟨hV, hn2⟩
      · exact absurd rfl hn
      · rw [hbu] at hidu
        exact h.once T hT V hV (by rw [← hname]; exact hn) (by rw [← hx]; exact hxx) id hidu
    · rcases mem_replace hV with rfl | ⟨hV, hn2⟩
      · rw [hbu]
        exact h.once U hU' T hT (by rw [← hname]; exact hn) (by rw [← hx]; exact hxx) id hidu
      · exact h.once U hU' V hV hn hxx id hidu
  · intro s p hp
    rcases htag s p hp with hp | hp
    · obtain ⟨U, hU, hn⟩ := h.tags s p hp
      obtain ⟨V, hV, hn'⟩ := hnames U hU
      exact ⟨V, hV, hn.trans hn'⟩
    · obtain ⟨V, hV, hn'⟩ := hnames T hT
      exact ⟨V, hV, hp.trans hn'⟩
  · intro s p hp
    rcases hgtag s p hp with hp | hp
    · obtain ⟨U, hU, hn⟩ := h.gtags s p hp
      obtain ⟨V, hV, hn'⟩ := hnames U hU
      exact ⟨V, hV, hn.trans hn'⟩
    · obtain ⟨V, hV, hn'⟩ := hnames T hT
      exact ⟨V, hV, hp.trans hn'⟩
  · intro U hU i hi1 hi
    rcases mem_replace hU with rfl | ⟨hU', hn1⟩
    · rcases hold i hi with ⟨q1, q2⟩ | hq
      · rw [q2]; exact h.made T hT i hi1 q1
      · intro hg
        exact h.signed _ hg hq
    · exact h.made U hU' i hi1 hi

end Verif
