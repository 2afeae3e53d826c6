import Verif.Proofs.Setup
import Verif.Proofs.Records
import Verif.Proofs.Encoding

/-!
The invariant of a conversation between two users.
-/

namespace Verif

attribute [local irreducible] maxMessageKeys

/-- Alice stands on odd rungs, Bob on even ones. -/
def rungOf : Side → Nat
  | .alice => 1
  | .bob => 0

/-- The chain Alice starts with, on which Bob never sends. -/
def preChains (L : Nat → Rung) : Side → List PubKey
  | .alice => [(L 0).kp.pub]
  | .bob => []

/-- Bob can still set up the session. -/
def BobCan (C : Crypto) (ident : Side → PubKey) (b : Bundle) (base : PubKey) (L : Nat → Rung) (w : World) : Prop :=
  ∃ (signed : KeyPair) (one : Option KeyPair) (s0 : SState), LoadsPair w.signedPreKeys b.signedPreKeyID (some signed) ∧
    (match b.preKeyID with | none => one = none | some id => LoadsPair w.preKeys id one) ∧
    initializeBobSession C ⟨w.identity, some signed, one, some signed, ident .alice, base⟩ = .ok s0 ∧
    ∀ reg1 reg2, View C L 0 (ident .bob) (ident .alice) [] 0 { s0 with localRegistrationId := reg1, remoteRegistrationId := reg2, aliceBaseKey := base.bytes }

/-- The message was returned by this side's EncryptMessage. -/
def FromSide (C : Crypto) (ident : Side → PubKey) (b : Bundle) (base : PubKey) (reg : UInt32) (L : Nat → Rung) (s : Side) (top : Nat) (ready : Prop)
    (c : Ciphertext) (pt : Bytes) : Prop :=
  ∃ (m : Signal) (e : Nat), e ≤ top ∧ e % 2 = rungOf s ∧ e ≠ 0 ∧ OnRung C L e (ident s) (ident s.other) m pt ∧ c.reparse = .ok c ∧
    c.position = some (m.senderRatchetKey, m.counter) ∧
    ((c = .signal m ∧ ready) ∨ (s = .alice ∧ ∃ pm, c = .preKey pm ∧ pm.message = m ∧ pm.version = 3 ∧ pm.baseKey = base ∧
      pm.identityKey = ident .alice ∧ pm.preKeyID = b.preKeyID ∧ pm.signedPreKeyID = b.signedPreKeyID ∧
      pm = newPreKey 3 reg b.preKeyID b.signedPreKeyID base (ident .alice) m))

/-- How a conversation began: the first rung, the second ratchet key pair, Alice's registration id, and the randomness of all
deliveries. -/
structure Opening where
  first : Rung
  second : KeyPair
  reg : UInt32
  rands : List Bytes

/-- Where the rungs come from, and how the messages are numbered. -/
structure Book (C : Crypto) (o : Opening) (F : List Bytes) (L : Nat → Rung) (lev cnt : Side → Nat) (sent : Side → List (Ciphertext × Bytes)) : Prop where
  first : L 0 = o.first
  second : (L 1).kp = o.second ∧ (L 1).prev = 0
  rest : ∀ rd ∈ F, rd ∈ o.rands
  born : ∀ i, 2 ≤ i → i ≤ max (lev .alice) (lev .bob) → ∃ rd ∈ o.rands, (generateKeyPair C rd).1 = .ok (L i).kp
  tally : ∀ s, cnt s = sentUnder (sent s) (L (lev s)).kp.pub
  before : ∀ s e, e % 2 = rungOf s → e + 2 ≤ lev s → (L (e + 2)).prev = lastNumber (sentUnder (sent s) (L e).kp.pub)
  numbered : ∀ s i p, (sent s)[i]? = some p → ∃ k, p.1.position = some (k, UInt32.ofNat (sentUnder ((sent s).take i) k))

structure Inv (d : Duo) (ident : Side → PubKey) (b : Bundle) (base : PubKey) (o : Opening) (F : List Bytes) (N : Nat)
    (L : Nat → Rung) (lev cnt : Side → Nat) (st : Side → Option SState) (S : DSys) : Prop where
  lad : Ladder d.C L (max (lev .alice) (lev .bob))
  par : ∀ s, lev s % 2 = rungOf s
  adj : ∀ s, lev s ≤ lev s.other + 1
  alice : ∃ t, st .alice = some t ∧ (t.pendingPreKey = none → st .bob ≠ none ∧ S.got .alice ≠ []) ∧
    ∀ p, t.pendingPreKey = some p → p.baseKey = base.bytes ∧ p.signedPreKeyId.toUInt32 = b.signedPreKeyID ∧
      (if p.preKeyId ≠ 0 then some p.preKeyId else none) = b.preKeyID ∧ t.localRegistrationId = o.reg ∧ S.got .alice = []
  ready : ∀ t, st .bob = some t → t.pendingPreKey = none ∧ t.aliceBaseKey = base.bytes ∧ lev .bob ≠ 0
  notReady : st .bob = none → lev .alice = 1 ∧ lev .bob = 0 ∧ S.got .alice = [] ∧ S.got .bob = [] ∧ S.sent .bob = [] ∧
    BobCan d.C ident b base L (S.world .bob)
  sess : ∀ s, (S.world s).sessions (d.address s.other) = (st s).map fun t => { current := some t }
  view : ∀ s t, st s = some t → View d.C L (lev s) (ident s) (ident s.other) (S.got s) (cnt s) t
  seen : ∀ s, (peers L (lev s)).map (·.kp.pub) = preChains L s ++ chainsSeen (S.got s)
  sent : ∀ s p, p ∈ S.sent s → FromSide d.C ident b base o.reg L s (lev s) (st .bob ≠ none) p.1 p.2
  known : ∀ s, (S.world s).known (d.address s.other) = none ∨ (S.world s).known (d.address s.other) = some (ident s.other)
  count : ∀ s, cnt s ≤ N
  fresh : none ∉ F.map (publicKeyOf d.C) ∧ (F.map (publicKeyOf d.C)).Nodup ∧
    ∀ i, i ≤ max (lev .alice) (lev .bob) → some (L i).kp.pub ∉ F.map (publicKeyOf d.C)
  small : ∀ s p, p ∈ S.sent s → ∀ k n, p.1.position = some (k, n) → n.toNat < N
  book : Book d.C o F L lev cnt S.sent

variable {d : Duo} {ident : Side → PubKey} {b : Bundle} {base : PubKey} {o : Opening} {reg : UInt32} {F : List Bytes} {N : Nat} {L : Nat → Rung}
  {lev cnt : Side → Nat} {st : Side → Option SState} {S : DSys} {k0 : Bytes}

theorem Side.other_other : ∀ s : Side, s.other.other = s
  | .alice => rfl
  | .bob => rfl

theorem Side.other_ne : ∀ s : Side, s.other ≠ s
  | .alice => by decide
  | .bob => by decide

theorem Side.eq_or (s t : Side) : t = s ∨ t = s.other := by
  cases s <;> cases t <;> simp [Side.other]

/-! ## Views do not depend on rungs above -/

theorem View.congr {C : Crypto} {L' : Nat → Rung} {x n : Nat} {lk rk : PubKey} {got : List (PubKey × UInt32)} {s : SState}
    (h : View C L x lk rk got n s) (he : ∀ i, i ≤ x → L' i = L i) : View C L' x lk rk got n s := by
  refine ⟨h.wf, h.loc, h.rem, ?_, ?_, ?_, ?_, ?_⟩
  · rw [he x (Nat.le_refl _)]; exact h.root
  · rw [he x (Nat.le_refl _)]; exact h.prev
  · rw [he x (Nat.le_refl _)]; exact h.sender
  · rw [peers_congr x (fun i hi => he i (by omega))]; exact h.chains
  · intro c hc e hlt hk
    rw [he e (by omega)] at hk ⊢
    exact h.each c hc e hlt hk

theorem OnRung.congr {C : Crypto} {L' : Nat → Rung} {e : Nat} {a c : PubKey} {m : Signal} {pt : Bytes} (h : OnRung C L e a c m pt)
    (he : L' e = L e) : OnRung C L' e a c m pt := ⟨by rw [he]; exact h.key, by rw [he]; exact h.opens, by rw [he]; exact h.made⟩

theorem FromSide.congr {C : Crypto} {L' : Nat → Rung} {s : Side} {top top' : Nat} {r r' : Prop} {c : Ciphertext} {pt : Bytes}
    (h : FromSide C ident b base reg L s top r c pt) (ht : top ≤ top') (he : ∀ i, i ≤ top → L' i = L i) (hr : r → r') :
    FromSide C ident b base reg L' s top' r' c pt := by
  obtain ⟨m, e, h1, h2, h3, h4, h5, h6, h7⟩ := h
  refine ⟨m, e, by omega, h2, h3, h4.congr (he e h1), h5, h6, ?_⟩
  rcases h7 with ⟨h7, h8⟩ | h7
  · exact .inl ⟨h7, hr h8⟩
  · exact .inr h7

theorem chainsSeen_append (got : List (PubKey × UInt32)) (p : PubKey × UInt32) :
    chainsSeen (got ++ [p]) = if p.1 ∈ chainsSeen got then chainsSeen got else chainsSeen got ++ [p.1] := by
  unfold chainsSeen
  rw [List.foldl_append]
  rfl

theorem mem_chainsSeen (got : List (PubKey × UInt32)) : ∀ {p}, p ∈ got → p.1 ∈ chainsSeen got := by
  suffices ∀ l : List (PubKey × UInt32), ∀ p ∈ l.reverse, p.1 ∈ chainsSeen l.reverse by
    intro p hp
    have := this got.reverse p (by simpa using hp)
    simpa using this
  intro l
  induction l with
  | nil => simp
  | cons q l ih =>
    intro p hp
    rw [List.reverse_cons] at hp ⊢
    rw [chainsSeen_append]
    rw [List.mem_append, List.mem_singleton] at hp
    rcases hp with hp | rfl
    · have := ih p hp
      split
      · exact this
      · exact List.mem_append_left _ this
    · split
      · assumption
      · simp

theorem recentChains_eq (got : List (PubKey × UInt32)) : recentChains got = lastN 5 (chainsSeen got) := rfl

theorem lastN_append_left {α} {l p : List α} {a : α} {n : Nat} (h : a ∈ lastN n l) : a ∈ lastN n (p ++ l) := by
  unfold lastN at h ⊢
  rw [List.length_append]
  by_cases hn : n ≤ l.length
  · rw [List.drop_append, List.mem_append]
    refine .inr ?_
    have : p.length + l.length - n - p.length = l.length - n := by omega
    rw [this]; exact h
  · rw [List.drop_append, List.mem_append]
    refine .inr ?_
    have : p.length + l.length - n - p.length = 0 := by omega
    rw [this]
    exact List.mem_of_mem_drop h

/-! ## The book -/

theorem Book.weaken {C : Crypto} {sent : Side → List (Ciphertext × Bytes)} (h : Book C o (k0 :: F) L lev cnt sent) : Book C o F L lev cnt sent :=
  ⟨h.first, h.second, fun rd hr => h.rest rd (List.mem_cons_of_mem _ hr), h.born, h.tally, h.before, h.numbered⟩

theorem sentUnder_append (l : List (Ciphertext × Bytes)) (p : Ciphertext × Bytes) (k : PubKey) :
    sentUnder (l ++ [p]) k = sentUnder l k + if p.1.position.map (·.1) = some k then 1 else 0 := by
  simp only [sentUnder, List.countP_append, List.countP_cons, List.countP_nil, Nat.zero_add, decide_eq_true_eq]

/-- A new rung. -/
theorem Book.climb {C : Crypto} {sent : Side → List (Ciphertext × Bytes)} (h : Book C o (k0 :: F) L lev cnt sent) {s : Side} {r : Rung} {n : Nat} {rd' : Bytes}
    (hpar : lev s % 2 = rungOf s) (hlo : lev s.other = lev s + 1) (hg : generateKeyPair C k0 = (.ok r.kp, rd')) (hp : r.prev = lastNumber n)
    (hn : n = sentUnder (sent s) (L (lev s)).kp.pub) (hnew : sentUnder (sent s) r.kp.pub = 0) :
    Book C o F (upd L (lev s + 2) r) (upd lev s (lev s + 2)) (upd cnt s 0) sent := by
  have old : ∀ i, i ≤ lev s + 1 → upd L (lev s + 2) r i = L i := fun i hi => upd_ne _ _ (by omega)
  have hlev : ∀ u, u ≠ s → lev u = lev s + 1 := fun u hu => by rw [(Side.eq_or s u).resolve_left hu, hlo]
  have hmx' : max (upd lev s (lev s + 2) .alice) (upd lev s (lev s + 2) .bob) = lev s + 2 := by
    cases s
    · rw [upd_same, upd_ne _ _ (by decide), hlev .bob (by decide)]; omega
    · rw [upd_same, upd_ne _ _ (by decide), hlev .alice (by decide)]; omega
  refine ⟨by rw [old 0 (by omega)]; exact h.first, by rw [old 1 (by omega)]; exact h.second, fun rd hr => h.rest rd (List.mem_cons_of_mem _ hr), ?_, ?_, ?_, h.numbered⟩
  · intro i hi1 hi2
    rw [hmx'] at hi2
    by_cases hi : i = lev s + 2
    · subst hi
      rw [upd_same]
      exact ⟨k0, h.rest _ (by simp), by rw [hg]⟩
    · rw [old i (by omega)]
      refine h.born i hi1 ?_
      cases s
      · simp only [Side.other] at hlo; omega
      · simp only [Side.other] at hlo; omega
  · intro u
    by_cases hu : u = s
    · subst hu; rw [upd_same, upd_same, upd_same, hnew]
    · rw [upd_ne _ _ hu, upd_ne _ _ hu, old _ (by rw [hlev u hu]; omega)]; exact h.tally u
  · intro u e he1 he2
    by_cases hu : u = s
    · subst hu
      rw [upd_same] at he2
      rw [old e (by omega)]
      by_cases hee : e = lev u
      · subst hee; rw [upd_same, hp, hn]
      · rw [old (e + 2) (by omega)]; exact h.before u e he1 (by omega)
    · rw [upd_ne _ _ hu, hlev u hu] at he2
      rw [old e (by omega), old (e + 2) (by omega)]
      exact h.before u e he1 (by rw [hlev u hu]; omega)

/-- One more message. -/
theorem Book.post {C : Crypto} {sent : Side → List (Ciphertext × Bytes)} (h : Book C o F L lev cnt sent) {s : Side} {c : Ciphertext} {pt : Bytes} {j : UInt32}
    {t : Nat} (hl : Ladder C L t) (ht : lev s ≤ t) (hp : c.position = some ((L (lev s)).kp.pub, j)) (hj : j = UInt32.ofNat (cnt s)) :
    Book C o F L lev (upd cnt s (cnt s + 1)) (upd sent s (sent s ++ [(c, pt)])) := by
  refine ⟨h.first, h.second, h.rest, h.born, ?_, ?_, ?_⟩
  · intro u
    by_cases hu : u = s
    · subst hu
      rw [upd_same, upd_same, sentUnder_append, h.tally u, hp]
      simp
    · rw [upd_ne _ _ hu, upd_ne _ _ hu]; exact h.tally u
  · intro u e he1 he2
    by_cases hu : u = s
    · subst hu
      rw [upd_same, sentUnder_append, hp, if_neg, Nat.add_zero]
      · exact h.before u e he1 he2
      · simp only [Option.map_some, Option.some.injEq]
        intro hk
        have := hl.distinct (lev u) e ht (by omega) hk
        omega
    · rw [upd_ne _ _ hu]; exact h.before u e he1 he2
  · intro u i p hi
    by_cases hu : u = s
    · subst hu
      rw [upd_same] at hi ⊢
      by_cases hlt : i < (sent u).length
      · rw [List.getElem?_append_left hlt] at hi
        obtain ⟨k, hk⟩ := h.numbered u i p hi
        refine ⟨k, ?_⟩
        rw [List.take_append_of_le_length (by omega)]
        exact hk
      · rw [List.getElem?_append_right (by omega)] at hi
        have hz : i = (sent u).length := by
          have := (List.getElem?_eq_some_iff.mp hi).1
          simp only [List.length_cons, List.length_nil] at this
          omega
        subst hz
        rw [Nat.sub_self] at hi
        simp only [List.getElem?_cons_zero, Option.some.injEq] at hi
        subst hi
        refine ⟨(L (lev u)).kp.pub, ?_⟩
        rw [List.take_left, ← h.tally u, hp, hj]
    · rw [upd_ne _ _ hu] at hi ⊢
      exact h.numbered u i p hi

/-! ## Steps that change nothing -/

theorem Inv.weaken (h : Inv d ident b base o (k0 :: F) N L lev cnt st S) : Inv d ident b base o F N L lev cnt st S := by
  refine ⟨h.lad, h.par, h.adj, h.alice, h.ready, h.notReady, h.sess, h.view, h.seen, h.sent, h.known, h.count, ?_, h.small, h.book.weaken⟩
  obtain ⟨f1, f2, f3⟩ := h.fresh
  rw [List.map_cons, List.nodup_cons] at f2
  exact ⟨fun hm => f1 (by simp [hm]), f2.2, fun i hi hm => f3 i hi (by simp [hm])⟩

theorem Inv.later (h : Inv d ident b base o F N L lev cnt st S) : Inv d ident b base o F (N + 1) L lev cnt st S :=
  ⟨h.lad, h.par, h.adj, h.alice, h.ready, h.notReady, h.sess, h.view, h.seen, h.sent, h.known, fun s => Nat.le_succ_of_le (h.count s), h.fresh,
    fun s p hp k n hk => Nat.lt_succ_of_lt (h.small s p hp k n hk), h.book⟩

theorem Inv.idle (h : Inv d ident b base o F N L lev cnt st S) {s : Side} {w : World}
    (h1 : w.sessions (d.address s.other) = (S.world s).sessions (d.address s.other))
    (h2 : w.known (d.address s.other) = none ∨ w.known (d.address s.other) = some (ident s.other))
    (h3 : w.identity = (S.world s).identity ∧ w.preKeys = (S.world s).preKeys ∧ w.signedPreKeys = (S.world s).signedPreKeys) :
    Inv d ident b base o F N L lev cnt st { S with world := upd S.world s w } := by
  refine ⟨h.lad, h.par, h.adj, h.alice, h.ready, ?_, ?_, h.view, h.seen, h.sent, ?_, h.count, h.fresh, h.small, h.book⟩
  · intro hb
    obtain ⟨n1, n2, n3, n4, n5, n6⟩ := h.notReady hb
    refine ⟨n1, n2, n3, n4, n5, ?_⟩
    by_cases hs : Side.bob = s
    · subst hs
      obtain ⟨signed, one, s0, b1, b2, b3, b4⟩ := n6
      simp only [upd_same]
      exact ⟨signed, one, s0, by rw [h3.2.2]; exact b1, by rw [h3.2.1]; exact b2, by rw [h3.1]; exact b3, b4⟩
    · simp only [upd_ne S.world w hs]; exact n6
  · intro t
    by_cases hs : t = s
    · subst hs
      simp only [upd_same]
      rw [h1]; exact h.sess t
    · simp only [upd_ne S.world w hs]; exact h.sess t
  · intro t
    by_cases hs : t = s
    · subst hs
      simp only [upd_same]
      exact h2
    · simp only [upd_ne S.world w hs]; exact h.known t

/-! ## Which rung a message is on -/

/-- A message of the other side is on a rung below, or on the next one. -/
theorem Inv.rung (h : Inv d ident b base o F N L lev cnt st S) {s : Side} {e : Nat} (h1 : e ≤ lev s.other) (h2 : e % 2 = rungOf s.other) :
    e < lev s ∨ (e = lev s + 1 ∧ lev s.other = lev s + 1) := by
  have hp := h.par s
  have ha := h.adj s.other
  rw [Side.other_other] at ha
  cases s <;> simp only [rungOf, Side.other] at * <;> omega

theorem Inv.top (_ : Inv d ident b base o F N L lev cnt st S) (s : Side) :
    max (lev .alice) (lev .bob) = max (lev s) (lev s.other) := by
  cases s
  · rfl
  · exact Nat.max_comm _ _

/-- A chain not seen before is on the next rung. -/
theorem Inv.unseen (h : Inv d ident b base o F N L lev cnt st S) {s : Side} {e : Nat} (h1 : e ≤ lev s.other) (h2 : e % 2 = rungOf s.other)
    (h3 : e ≠ 0) (hn : (L e).kp.pub ∉ chainsSeen (S.got s)) : e = lev s + 1 ∧ lev s.other = lev s + 1 := by
  rcases h.rung h1 h2 with hlt | hr
  · exfalso
    have hpar := h.par s
    have hm : L e ∈ peers L (lev s) := mem_peers hlt (by cases s <;> simp only [rungOf, Side.other] at * <;> omega)
    have hm : (L e).kp.pub ∈ (peers L (lev s)).map (·.kp.pub) := List.mem_map_of_mem hm
    rw [h.seen s, List.mem_append] at hm
    rcases hm with hm | hm
    · cases s with
      | bob => simp [preChains] at hm
      | alice =>
        simp only [preChains, List.mem_singleton] at hm
        have hm := h.lad.distinct e 0 (by rw [h.top .alice]; omega) (by omega) hm
        omega
    · exact hn hm
  · exact hr

/-- A chain that has been seen is on a rung below. -/
theorem Inv.below (h : Inv d ident b base o F N L lev cnt st S) {s : Side} {e : Nat} (h1 : e ≤ lev s.other) 
    (hn : (L e).kp.pub ∈ chainsSeen (S.got s)) : e < lev s := by
  have hm : (L e).kp.pub ∈ (peers L (lev s)).map (·.kp.pub) := by rw [h.seen s]; exact List.mem_append_right _ hn
  rw [List.mem_map] at hm
  obtain ⟨r, hr, hk⟩ := hm
  obtain ⟨f, hf, rfl⟩ := peers_mem hr
  have htop := h.top s
  have : f = e := h.lad.distinct f e (by omega) (by omega) hk
  omega

theorem Inv.gotNot (h : Inv d ident b base o F N L lev cnt st S) {s : Side} {e : Nat} (h1 : e ≤ lev s.other) (he : lev s ≤ e) :
    ∀ p ∈ S.got s, p.1 ≠ (L e).kp.pub := by
  intro p hp hk
  have := h.below h1 (hk ▸ mem_chainsSeen _ hp)
  omega

/-! ## Accepting a message -/

theorem publicKeyOf_ok {C : Crypto} {rd rd' : Bytes} {kp : KeyPair} (h : generateKeyPair C rd = (.ok kp, rd')) : publicKeyOf C rd = some kp.pub := by
  simp [publicKeyOf, h]

theorem Inv.accept {rd : Bytes} (h : Inv d ident b base o (rd :: F) N L lev cnt st S) {s : Side} {t t' : SState} {n : Nat} (hn : n ≤ N ∧ n = sentUnder (S.sent s) (L (lev s)).kp.pub)
    (hv : View d.C L (lev s) (ident s) (ident s.other) (S.got s) n t) (hbase : s = .bob → t.aliceBaseKey = base.bytes)
    (hready : s = .alice → st .bob ≠ none)
    {m : Signal} {e : Nat} {pt p rd' : Bytes} (he : e ≤ lev s.other) (hpar : e % 2 = rungOf s.other) (hne : e ≠ 0)
    (hm : OnRung d.C L e (ident s.other) (ident s) m pt)
    (hok : m.senderRatchetKey ∈ chainsSeen (S.got s) → m.senderRatchetKey ∈ recentChains (S.got s))
    (hd : decryptMessageSession d.C t m rd = (.ok (p, t'), rd')) :
    p = pt ∧ ∀ w' : World, w'.sessions (d.address s.other) = some { current := some t' } →
      (w'.known (d.address s.other) = none ∨ w'.known (d.address s.other) = some (ident s.other)) →
      ∃ L' lev' cnt', (∀ i, i ≤ max (lev .alice) (lev .bob) → L' i = L i) ∧ (∀ u, lev u ≤ lev' u) ∧
        (lev' s ≠ lev s → (generateKeyPair d.C rd).1 = .ok (L' (lev' s)).kp) ∧ (∀ u, u ≠ s → lev' u = lev u) ∧
        Inv d ident b base o F N L' lev' cnt' (upd st s (some t'))
        { S with world := upd S.world s w', got := upd S.got s (S.got s ++ [(m.senderRatchetKey, m.counter)]) } := by
  have htop := h.top s
  have hsess : ∀ w' : World, w'.sessions (d.address s.other) = some { current := some t' } →
      ∀ u, (upd S.world s w' u).sessions (d.address u.other) = (upd st s (some t') u).map fun t => ({ current := some t } : Record) := by
    intro w' hw u
    by_cases hu : u = s
    · subst hu; rw [upd_same, upd_same]; exact hw
    · rw [upd_ne _ _ hu, upd_ne _ _ hu]; exact h.sess u
  have hknown : ∀ w' : World, (w'.known (d.address s.other) = none ∨ w'.known (d.address s.other) = some (ident s.other)) →
      ∀ u, (upd S.world s w' u).known (d.address u.other) = none ∨ (upd S.world s w' u).known (d.address u.other) = some (ident u.other) := by
    intro w' hw u
    by_cases hu : u = s
    · subst hu; rw [upd_same]; exact hw
    · rw [upd_ne _ _ hu]; exact h.known u
  have hbob : upd st s (some t') .bob ≠ none := by
    cases s with
    | bob => rw [upd_same]; simp
    | alice => rw [upd_ne _ _ (by decide)]; exact hready rfl
  have hbst : ∀ u, u ≠ s → upd st s (some t') u = st u := fun u hu => upd_ne _ _ hu
  have halice : t'.pendingPreKey = none → ∃ u, upd st s (some t') .alice = some u ∧ (u.pendingPreKey = none → upd st s (some t') .bob ≠ none ∧
        upd S.got s (S.got s ++ [(m.senderRatchetKey, m.counter)]) .alice ≠ []) ∧
      ∀ p, u.pendingPreKey = some p → p.baseKey = base.bytes ∧ p.signedPreKeyId.toUInt32 = b.signedPreKeyID ∧
        (if p.preKeyId ≠ 0 then some p.preKeyId else none) = b.preKeyID ∧ u.localRegistrationId = o.reg ∧
        upd S.got s (S.got s ++ [(m.senderRatchetKey, m.counter)]) .alice = [] := by
    intro hp
    cases s with
    | alice => exact ⟨t', upd_same _ _ _, fun _ => ⟨hbob, by rw [upd_same]; simp⟩, by simp [hp]⟩
    | bob =>
      obtain ⟨u, hu, hu1, hu2⟩ := h.alice
      rw [upd_ne S.got _ (show Side.alice ≠ .bob by decide)]
      exact ⟨u, by rw [hbst _ (by decide)]; exact hu, fun hn => ⟨hbob, (hu1 hn).2⟩, hu2⟩
  by_cases hseen : m.senderRatchetKey ∈ chainsSeen (S.got s)
  · -- a chain seen before
    have hlt := h.below (s := s) he (hm.key ▸ hseen)
    have hk : m.senderRatchetKey ∈ lastN 5 ((peers L (lev s)).map fun r => r.kp.pub) := by
      rw [h.seen s]
      exact lastN_append_left (hok hseen)
    obtain ⟨r1, r2, r3, r4⟩ := hv.receive_known h.lad (by omega) hlt hm hk hd
    refine ⟨r1, fun w' hw1 hw2 => ⟨L, lev, upd cnt s n, fun _ _ => rfl, fun _ => Nat.le_refl _, fun hc => absurd rfl hc, fun _ _ => rfl, ?_⟩⟩
    refine ⟨h.lad, h.par, h.adj, halice r3, ?_, fun hb => absurd hb hbob, hsess w' hw1, ?_, ?_, ?_, hknown w' hw2, ?_, h.weaken.fresh, h.small, ?_⟩
    · intro u hu
      cases s with
      | bob =>
        rw [upd_same] at hu
        simp only [Option.some.injEq] at hu
        subst hu
        refine ⟨r3, by rw [r4]; exact hbase rfl, by omega⟩
      | alice =>
        rw [hbst _ (by decide)] at hu
        exact h.ready u hu
    · intro u v hu
      by_cases hus : u = s
      · subst hus
        rw [upd_same] at hu
        simp only [Option.some.injEq] at hu
        subst hu
        simp only [upd_same]
        exact r2
      · simp only [upd_ne _ _ hus] at hu ⊢
        exact h.view u v hu
    · intro u
      by_cases hus : u = s
      · subst hus
        simp only [upd_same]
        rw [chainsSeen_append, if_pos hseen]
        exact h.seen u
      · simp only [upd_ne _ _ hus]
        exact h.seen u
    · intro u q hq
      exact (h.sent u q hq).congr (Nat.le_refl _) (fun _ _ => rfl) (fun _ => hbob)
    · intro u
      by_cases hus : u = s
      · subst hus; rw [upd_same]; exact hn.1
      · rw [upd_ne _ _ hus]; exact h.count u
    · refine ⟨h.book.first, h.book.second, h.weaken.book.rest, h.book.born, ?_, h.book.before, h.book.numbered⟩
      intro u
      by_cases hus : u = s
      · subst hus; rw [upd_same]; exact hn.2
      · rw [upd_ne _ _ hus]; exact h.book.tally u
  · -- a new chain
    obtain ⟨rfl, hlo⟩ := h.unseen he hpar hne (hm.key ▸ hseen)
    have hmx : max (lev .alice) (lev .bob) = lev s + 1 := by rw [htop]; omega
    obtain ⟨f1, f2, f3⟩ := h.fresh
    have hfresh : ∀ kp rd', generateKeyPair d.C rd = (.ok kp, rd') → ∀ i, i ≤ lev s + 1 → (L i).kp.pub ≠ kp.pub := by
      intro kp rd' hg i hi hk
      apply f3 i (by omega)
      rw [List.map_cons, publicKeyOf_ok hg, hk]
      simp
    obtain ⟨r1, r2, r3, r, hg, hpv, hl', hv'⟩ := hv.receive_new (hmx ▸ h.lad) (h.gotNot he (by omega)) hm hfresh hd
    have old : ∀ i, i ≤ lev s + 1 → upd L (lev s + 2) r i = L i := fun i hi => upd_ne _ _ (by omega)
    have hmx' : max (upd lev s (lev s + 2) .alice) (upd lev s (lev s + 2) .bob) = lev s + 2 := by
      cases s
      · rw [upd_same, upd_ne _ _ (by decide)]
        simp only [Side.other] at hlo
        omega
      · rw [upd_same, upd_ne _ _ (by decide)]
        simp only [Side.other] at hlo
        omega
    refine ⟨r1, fun w' hw1 hw2 => ⟨upd L (lev s + 2) r, upd lev s (lev s + 2), upd cnt s 0, fun i hi => old i (by omega), ?_, fun _ => by rw [upd_same, upd_same, hg], fun u hu => upd_ne _ _ hu, ?_⟩⟩
    · intro u
      by_cases hu : u = s
      · subst hu; rw [upd_same]; omega
      · rw [upd_ne _ _ hu]; omega
    refine ⟨by rw [hmx']; exact hl', ?_, ?_, halice r2, ?_, fun hb => absurd hb hbob, hsess w' hw1, ?_, ?_, ?_, hknown w' hw2, ?_, ?_, h.small, ?_⟩
    · intro u
      by_cases hus : u = s
      · subst hus; rw [upd_same]; have := h.par u; omega
      · rw [upd_ne _ _ hus]; exact h.par u
    · intro u
      rcases Side.eq_or s u with rfl | rfl
      · rw [upd_same, upd_ne _ _ (Side.other_ne _)]; omega
      · rw [Side.other_other, upd_same, upd_ne _ _ (Side.other_ne _)]; omega
    · intro u hu
      cases s with
      | bob =>
        rw [upd_same] at hu
        simp only [Option.some.injEq] at hu
        subst hu
        refine ⟨r2, by rw [r3]; exact hbase rfl, by rw [upd_same]; omega⟩
      | alice =>
        rw [hbst _ (by decide)] at hu
        rw [upd_ne _ _ (by decide)]
        exact h.ready u hu
    · intro u v hu
      by_cases hus : u = s
      · subst hus
        rw [upd_same] at hu
        simp only [Option.some.injEq] at hu
        subst hu
        simp only [upd_same]
        exact hv'
      · simp only [upd_ne _ _ hus] at hu ⊢
        have huo : u = s.other := (Side.eq_or s u).resolve_left hus
        exact (h.view u v hu).congr (fun i hi => old i (by rw [huo] at hi; omega))
    · intro u
      by_cases hus : u = s
      · subst hus
        simp only [upd_same]
        rw [chainsSeen_append, if_neg hseen, peers, peers_congr (lev u) (fun i hi => old i (by omega)), old _ (Nat.le_refl _),
          List.map_append, h.seen u, List.append_assoc]
        have : preChains (upd L (lev u + 2) r) u = preChains L u := by
          cases u
          · simp only [preChains]; rw [old 0 (by omega)]
          · rfl
        rw [this, hm.key]
        rfl
      · have huo : u = s.other := (Side.eq_or s u).resolve_left hus
        simp only [upd_ne _ _ hus]
        rw [peers_congr (lev u) (fun i hi => old i (by rw [huo] at hi; omega)), h.seen u]
        have : preChains (upd L (lev s + 2) r) u = preChains L u := by
          cases u
          · simp only [preChains]; rw [old 0 (by omega)]
          · rfl
        rw [this]
    · intro u q hq
      by_cases hus : u = s
      · subst hus
        rw [upd_same]
        exact (h.sent u q hq).congr (by omega) (fun i hi => old i (by omega)) (fun _ => hbob)
      · rw [upd_ne _ _ hus]
        have huo : u = s.other := (Side.eq_or s u).resolve_left hus
        exact (h.sent u q hq).congr (Nat.le_refl _) (fun i hi => old i (by rw [huo] at hi; omega)) (fun _ => hbob)
    · intro u
      by_cases hus : u = s
      · subst hus; rw [upd_same]; omega
      · rw [upd_ne _ _ hus]; exact h.count u
    · rw [hmx']
      rw [List.map_cons, List.nodup_cons] at f2
      refine ⟨fun hx => f1 (by simp [hx]), f2.2, ?_⟩
      intro i hi hx
      by_cases hii : i = lev s + 2
      · subst hii
        rw [upd_same] at hx
        rw [publicKeyOf_ok hg] at f2
        exact f2.1 hx
      · rw [old i (by omega)] at hx
        exact f3 i (by omega) (by rw [List.map_cons]; exact List.mem_cons_of_mem _ hx)
    · refine h.book.climb (h.par s) hlo hg hpv hn.2 ?_
      unfold sentUnder
      rw [List.countP_eq_zero]
      intro p hp
      obtain ⟨m', e', q1, _, _, q4, _, q6, _⟩ := h.sent s p hp
      rw [q6, q4.key]
      simp only [Option.map_some, Option.some.injEq, decide_eq_true_eq]
      exact hfresh _ _ hg e' (by omega)

/-! ## Sending -/

/-- A send keeps the invariant; a message of Alice's has the next position of Alice's chain. -/
theorem Inv.sends_next (htr : ∀ s (known : Address → Option PubKey) dir, known (d.address s.other) = none ∨ known (d.address s.other) = some (ident s.other) →
      d.trusted s known (d.address s.other) (ident s.other) dir = true)
    (h : Inv d ident b base o F N L lev cnt st S) (s : Side) {pt : Bytes} (hpt : pt.length < 2 ^ 62) (hN : N < 4294967296) :
    ∃ cnt' st', Inv d ident b base o F (N + 1) L lev cnt' st' (d.step S (.send s pt)) ∧ (d.step S (.send s pt)).got = S.got ∧
      (s = .alice → cnt' .alice = cnt .alice + 1 ∧ ∃ c, (d.step S (.send s pt)).sent .alice = S.sent .alice ++ [(c, pt)] ∧
        c.position = some ((L (lev .alice)).kp.pub, UInt32.ofNat (cnt .alice))) := by
  cases hst : st s with
  | none =>
    -- only Bob, before the first message
    have hlo : (S.world s).sessions (d.address s.other) = none := by rw [h.sess s, hst]; rfl
    have hrun : encryptMessage (d.env s) (d.address s.other) pt { S.world s with faults := [] } =
        (.err (.sessionNotFound (d.address s.other)), { S.world s with faults := [] }) := by
      unfold encryptMessage
      rw [M.bind_ok_run (x := loadSession _) (storeCall_nil _ _ rfl)]
      simp only [hlo]
      rfl
    simp only [Duo.step, hrun]
    refine ⟨cnt, st, (h.idle (s := s) (w := { S.world s with faults := [] }) rfl (h.known s) ⟨rfl, rfl, rfl⟩).later, trivial, ?_⟩
    rintro rfl
    obtain ⟨t, ht, _⟩ := h.alice
    rw [hst] at ht
    simp at ht
  | some t =>
    have hv := h.view s t hst
    obtain ⟨msg, out, t', e1, e2, e3, e4, e5, e6, e7, e8, e9, e10, e11⟩ := hv.send pt
    have hrun := encrypt_run (E := d.env s) (a := d.address s.other) (w := { S.world s with faults := [] }) (rec := { current := some t })
      rfl (by rw [h.sess s, hst]; rfl) rfl e1 (htr s _ _ (h.known s))
    have hcnt := h.count s
    have hidx : msg.counter.toNat = cnt s := by
      rw [e4, chainIter_toNat _ _ _ (by rw [(h.lad.chain (lev s) (by have := h.top s; omega)).2]; simp; omega),
        (h.lad.chain (lev s) (by have := h.top s; omega)).2]
      simp
    obtain ⟨rt, rl⟩ := e5 (by omega)
    have hfrom : FromSide d.C ident b base o.reg L s (lev s) (st .bob ≠ none) out pt := by
      refine ⟨msg, lev s, Nat.le_refl _, h.par s, ?_, ⟨e3, by rw [hidx]; exact e2, ?_⟩, ?_, ?_, ?_⟩
      · cases s with
        | alice => have := h.par .alice; simp only [rungOf] at this; omega
        | bob => exact (h.ready t hst).2.2
      · rw [e11 (h.lad.chain (lev s) (by have := h.top s; omega)).2 (by omega) hpt, ← hidx, UInt32.ofNat_toNat]
      · rcases e6 with ⟨_, rfl⟩ | ⟨p, bk, _, _, rfl⟩
        · simp [Ciphertext.reparse, rt]
        · simp only [Ciphertext.reparse, prekey_round_trip _ _ _ _ _ _ rt (by omega)]
          rfl
      · rcases e6 with ⟨_, rfl⟩ | ⟨p, bk, _, _, rfl⟩ <;> rfl
      · rcases e6 with ⟨hp, rfl⟩ | ⟨p, bk, hp, hbk, rfl⟩
        · refine .inl ⟨rfl, ?_⟩
          cases s with
          | alice =>
            obtain ⟨u, hu, hu2, _⟩ := h.alice
            rw [hst] at hu
            simp only [Option.some.injEq] at hu
            subst hu
            exact (hu2 hp).1
          | bob => rw [hst]; simp
        · cases s with
          | bob =>
            have := (h.ready t hst).1
            rw [hp] at this
            simp at this
          | alice =>
            obtain ⟨u, hu, _, hu2⟩ := h.alice
            rw [hst] at hu
            simp only [Option.some.injEq] at hu
            subst hu
            obtain ⟨p1, p2, p3, p4, _⟩ := hu2 p hp
            have hbk := PubKey.bytes_inj (hbk.symm.trans p1)
            exact .inr ⟨rfl, _, rfl, rfl, rfl, hbk, rfl, p3, p2, by rw [p4, p3, p2, hbk]⟩
    have hnext : s = .alice → upd cnt s (cnt s + 1) .alice = cnt .alice + 1 ∧ ∃ c, (d.step S (.send s pt)).sent .alice = S.sent .alice ++ [(c, pt)] ∧
        c.position = some ((L (lev .alice)).kp.pub, UInt32.ofNat (cnt .alice)) := by
      rintro rfl
      refine ⟨upd_same _ _ _, out, ?_, ?_⟩
      · simp only [Duo.step, hrun, upd_same]
      · have hpos : out.position = some (msg.senderRatchetKey, msg.counter) := by
          rcases e6 with ⟨_, rfl⟩ | ⟨p, bk, _, _, rfl⟩ <;> rfl
        rw [hpos, e3, ← hidx, UInt32.ofNat_toNat]
    refine ⟨upd cnt s (cnt s + 1), upd st s (some t'), ?_, by simp only [Duo.step, hrun], hnext⟩
    simp only [Duo.step, hrun]
    have hbst : upd st s (some t') .bob ≠ none ↔ st .bob ≠ none := by
      cases s with
      | bob => rw [upd_same, hst]; simp
      | alice => rw [upd_ne _ _ (by decide)]
    refine ⟨h.lad, h.par, h.adj, ?_, ?_, ?_, ?_, ?_, h.seen, ?_, ?_, ?_, h.fresh, ?_, ?_⟩
    · obtain ⟨u, hu, hu1, hu2⟩ := h.alice
      cases s with
      | alice =>
        rw [hst] at hu
        simp only [Option.some.injEq] at hu
        subst hu
        refine ⟨t', upd_same _ _ _, ?_, ?_⟩
        · rw [e8]; intro hp; exact ⟨hbst.mpr (hu1 hp).1, (hu1 hp).2⟩
        · rw [e8, e10]; exact hu2
      | bob => exact ⟨u, by rw [upd_ne _ _ (by decide)]; exact hu, fun hp => ⟨hbst.mpr (hu1 hp).1, (hu1 hp).2⟩, hu2⟩
    · intro u hu
      cases s with
      | bob =>
        rw [upd_same] at hu
        simp only [Option.some.injEq] at hu
        subst hu
        rw [e8, e9]
        exact h.ready t hst
      | alice =>
        rw [upd_ne _ _ (by decide)] at hu
        exact h.ready u hu
    · intro hb
      cases s with
      | bob => rw [upd_same] at hb; simp at hb
      | alice =>
        rw [upd_ne _ _ (by decide)] at hb
        obtain ⟨n1, n2, n3, n4, n5, n6⟩ := h.notReady hb
        refine ⟨n1, n2, n3, n4, ?_, ?_⟩
        · dsimp only; rw [upd_ne _ _ (by decide)]; exact n5
        · dsimp only; rw [upd_ne _ _ (by decide)]; exact n6
    · intro u
      dsimp only
      by_cases hu : u = s
      · subst hu; rw [upd_same, upd_same]; dsimp only; rw [upd_same]; rfl
      · rw [upd_ne _ _ hu, upd_ne _ _ hu]; exact h.sess u
    · intro u v hu
      by_cases hus : u = s
      · subst hus
        rw [upd_same] at hu ⊢
        simp only [Option.some.injEq] at hu
        subst hu
        exact e7
      · rw [upd_ne _ _ hus] at hu ⊢
        exact h.view u v hu
    · intro u q hq
      dsimp only at hq
      by_cases hus : u = s
      · subst hus
        rw [upd_same, List.mem_append, List.mem_singleton] at hq
        rcases hq with hq | rfl
        · exact (h.sent u q hq).congr (Nat.le_refl _) (fun _ _ => rfl) hbst.mpr
        · exact hfrom.congr (Nat.le_refl _) (fun _ _ => rfl) hbst.mpr
      · rw [upd_ne _ _ hus] at hq
        exact (h.sent u q hq).congr (Nat.le_refl _) (fun _ _ => rfl) hbst.mpr
    · intro u
      dsimp only
      by_cases hus : u = s
      · subst hus; rw [upd_same]; exact .inr (upd_same _ _ _)
      · rw [upd_ne _ _ hus]; exact h.known u
    · intro u
      by_cases hus : u = s
      · subst hus; rw [upd_same]; omega
      · rw [upd_ne _ _ hus]; have := h.count u; omega
    · intro u q hq k j hk
      dsimp only at hq
      by_cases hus : u = s
      · subst hus
        rw [upd_same, List.mem_append, List.mem_singleton] at hq
        rcases hq with hq | rfl
        · exact Nat.lt_succ_of_lt (h.small u q hq k j hk)
        · have hpos : out.position = some (msg.senderRatchetKey, msg.counter) := by
            rcases e6 with ⟨_, rfl⟩ | ⟨p, bk, _, _, rfl⟩ <;> rfl
          simp only [hpos, Option.some.injEq, Prod.mk.injEq] at hk
          rw [← hk.2, hidx]; omega
      · rw [upd_ne _ _ hus] at hq
        exact Nat.lt_succ_of_lt (h.small u q hq k j hk)
    · have hpos : out.position = some (msg.senderRatchetKey, msg.counter) := by
        rcases e6 with ⟨_, rfl⟩ | ⟨p, bk, _, _, rfl⟩ <;> rfl
      exact h.book.post h.lad (by have := h.top s; omega) (by rw [hpos, e3]) (by rw [← hidx, UInt32.ofNat_toNat])

theorem Inv.sends (htr : ∀ s (known : Address → Option PubKey) dir, known (d.address s.other) = none ∨ known (d.address s.other) = some (ident s.other) →
      d.trusted s known (d.address s.other) (ident s.other) dir = true)
    (h : Inv d ident b base o F N L lev cnt st S) (s : Side) {pt : Bytes} (hpt : pt.length < 2 ^ 62) (hN : N < 4294967296) :
    ∃ lev cnt st, Inv d ident b base o F (N + 1) L lev cnt st (d.step S (.send s pt)) := by
  obtain ⟨cnt', st', h', _⟩ := h.sends_next htr s hpt hN
  exact ⟨lev, cnt', st', h'⟩

/-! ## Delivering -/

theorem decryptRecord_one {C : Crypto} {t : SState} {m : Signal} {rd rd' p : Bytes} {r' : Record}
    (h : decryptRecord C { current := some t } m rd = (.ok (p, r'), rd')) :
    ∃ t', decryptMessageSession C t m rd = (.ok (p, t'), rd') ∧ r' = { current := some t' } := by
  rcases decryptRecord_ok h with ⟨s, s', h1, h2, h3⟩ | ⟨prev, idx, s, s', rd1, rd2, h1, h2, _⟩
  · simp only [Option.some.injEq] at h1
    subst h1
    exact ⟨s', h2, h3⟩
  · simp only [Record.previousStates, Record.parseAll, Res.ok.injEq] at h1
    subst h1
    simp at h2

theorem decryptRecord_one_run {C : Crypto} {t t' : SState} {m : Signal} {rd rd' p : Bytes}
    (h : decryptMessageSession C t m rd = (.ok (p, t'), rd')) : decryptRecord C { current := some t } m rd = (.ok (p, { current := some t' }), rd') := by
  unfold decryptRecord
  simp only
  rw [M.bind_run, M.attempt, h]
  rfl

theorem View.remoteKey {C : Crypto} {x n : Nat} {lk rk : PubKey} {got : List (PubKey × UInt32)} {s : SState} (h : View C L x lk rk got n s) :
    s.remoteIdentityKey = .ok (some rk) := by
  simp [SState.remoteIdentityKey, h.rem]

/-- What the delivery of a message of the other side amounts to. -/
theorem Inv.attempt (htr : ∀ s (known : Address → Option PubKey) dir, known (d.address s.other) = none ∨ known (d.address s.other) = some (ident s.other) →
      d.trusted s known (d.address s.other) (ident s.other) dir = true)
    (h : Inv d ident b base o F N L lev cnt st S) {s : Side} {c : Ciphertext} {pt : Bytes} (hmem : (c, pt) ∈ S.sent s.other) (rd : Bytes) :
    ∃ (m : Signal) (e : Nat) (t : SState) (n : Nat), (n ≤ N ∧ n = sentUnder (S.sent s) (L (lev s)).kp.pub) ∧ e ≤ lev s.other ∧ e % 2 = rungOf s.other ∧ e ≠ 0 ∧
      c.position = some (m.senderRatchetKey, m.counter) ∧
      OnRung d.C L e (ident s.other) (ident s) m pt ∧
      View d.C L (lev s) (ident s) (ident s.other) (S.got s) n t ∧ (s = .bob → t.aliceBaseKey = base.bytes) ∧
      (s = .alice → st .bob ≠ none) ∧
      ((∃ p t' rd', decryptMessageSession d.C t m rd = (.ok (p, t'), rd') ∧ (d.receive s c rd (S.world s)).1 = .ok (some p) ∧
          (d.receive s c rd (S.world s)).2.sessions (d.address s.other) = some { current := some t' } ∧
          (d.receive s c rd (S.world s)).2.known (d.address s.other) = some (ident s.other)) ∨
        ((∀ p t' rd', decryptMessageSession d.C t m rd ≠ (.ok (p, t'), rd')) ∧ (∀ p, (d.receive s c rd (S.world s)).1 ≠ .ok (some p)) ∧
          (d.receive s c rd (S.world s)).2.sessions (d.address s.other) = (S.world s).sessions (d.address s.other) ∧
          ((d.receive s c rd (S.world s)).2.known (d.address s.other) = none ∨ (d.receive s c rd (S.world s)).2.known (d.address s.other) = some (ident s.other)) ∧
          (d.receive s c rd (S.world s)).2.identity = (S.world s).identity ∧ (d.receive s c rd (S.world s)).2.preKeys = (S.world s).preKeys ∧
          (d.receive s c rd (S.world s)).2.signedPreKeys = (S.world s).signedPreKeys)) := by
  obtain ⟨m, e, e1, e2, e3, e4, e5, e6, e7⟩ := h.sent _ _ hmem
  rw [Side.other_other] at e4
  have hrecv : d.receive s c rd (S.world s) = decryptMessage (d.env s) (d.address s.other) c { S.world s with rand := rd, faults := [] } := by
    simp only at e5
    simp only [Duo.receive, e5]
  have hready : s = .alice → st .bob ≠ none := by
    rintro rfl hb
    obtain ⟨_, _, _, _, n5, _⟩ := h.notReady hb
    simp only [Side.other, n5] at hmem
    simp at hmem
  rcases e7 with ⟨hc, hbr⟩ | ⟨hsa, pm, hc, hpm⟩
  · -- a plain message
    simp only at hc
    subst hc
    have hsome : ∃ t, st s = some t := by
      cases s with
      | alice => obtain ⟨t, ht, _⟩ := h.alice; exact ⟨t, ht⟩
      | bob =>
        cases hb : st .bob with
        | none => exact absurd hb hbr
        | some t => exact ⟨t, rfl⟩
    obtain ⟨t, hst⟩ := hsome
    have hv := h.view s t hst
    have hw : (S.world s).sessions (d.address s.other) = some { current := some t } := by rw [h.sess s, hst]; rfl
    refine ⟨m, e, t, cnt s, ⟨h.count s, h.book.tally s⟩, e1, e2, e3, e6, e4, hv, ?_, hready, ?_⟩
    · rintro rfl; exact (h.ready t hst).2.1
    rw [hrecv]
    show _ ∨ _
    simp only [decryptMessage]
    by_cases hd : ∃ p t' rd', decryptMessageSession d.C t m rd = (.ok (p, t'), rd')
    · obtain ⟨p, t', rd', hd⟩ := hd
      have hw' := hv.wf.decrypt hd
      obtain ⟨_, s1, i, c0, c', ck, mk, rk', lk', _, _, _, _, _, hrk, _, _, hs'⟩ := decrypted_shape hv.wf hd
      have hk' : t'.remoteIdentityKey = .ok (some (ident s.other)) := by
        have := (decryptMessageSession_keeps hd).2.2.2
        simp [SState.remoteIdentityKey, this, hv.rem]
      have hrun := signal_run (E := d.env s) (a := d.address s.other) (m := m) (w := { S.world s with rand := rd, faults := [] })
        (rec := { current := some t }) (rec' := { current := some t' }) (pt := some p) (rd := rd') (st := t') rfl hw
        (.ok p _ _ (decryptRecord_one_run hd)) rfl hk' (htr s _ _ (h.known s))
      left
      refine ⟨p, t', rd', hd, ?_, ?_, ?_⟩ <;> rw [hrun]
      · exact upd_same _ _ _
      · exact upd_same _ _ _
    · have hno : ∀ p t' rd', decryptMessageSession d.C t m rd ≠ (.ok (p, t'), rd') := fun p t' rd' he => hd ⟨p, t', rd', he⟩
      right
      refine ⟨hno, ?_⟩
      have ho := signal_outcome (d.env s) (d.address s.other) m { S.world s with rand := rd, faults := [] }
      have hnr : ∀ (rec : Record) (pt : Option Bytes) (rec' : Record) (rd' : Bytes), (S.world s).sessions (d.address s.other) = some rec →
          Tried (d.env s) rec m rd pt rec' rd' → pt = none ∧ rec' = { current := some t } := by
        intro rec pt rec' rd' hr ht
        rw [hw] at hr
        simp only [Option.some.injEq] at hr
        subst hr
        cases ht with
        | ok p _ _ hx =>
          obtain ⟨t', h1, _⟩ := decryptRecord_one hx
          exact absurd h1 (hno _ _ _)
        | failed => exact ⟨rfl, rfl⟩
      generalize decryptSignal (d.env s) (d.address s.other) m { S.world s with rand := rd, faults := [] } = x at ho ⊢
      obtain ⟨r, w'⟩ := x
      simp only at ho ⊢
      cases ho with
      | early _ fs rd' hr => exact ⟨fun p hp => by rw [hp] at hr; simp at hr, rfl, h.known s, rfl, rfl, rfl⟩
      | stopped _ fs hr rec rec' pt' rd' h1 h2 sessions known hs hk =>
        obtain ⟨rfl, rfl⟩ := hnr _ _ _ _ h1 h2
        refine ⟨fun p hp => by rw [hp] at hr; simp at hr, ?_, ?_, rfl, rfl, rfl⟩
        · rcases hs with hs | ⟨_, hs, _⟩
          · simp only [hs, mid]
            split
            · rw [upd_same]; exact hw.symm
            · rfl
          · simp at hs
        · rcases hk with hk | ⟨st', k, hk1, hk2, _, hk3⟩
          · simp only [hk]; exact h.known s
          · simp only [Option.some.injEq] at hk1
            subst hk1
            rw [hv.remoteKey] at hk2
            simp only [Res.ok.injEq, Option.some.injEq] at hk2
            subst hk2
            simp only [hk3]
            exact .inr (upd_same _ _ _)
      | done fs rec rec' pt' rd' st' k h1 h2 h3 h4 ht =>
        obtain ⟨rfl, rfl⟩ := hnr _ _ _ _ h1 h2
        refine ⟨by simp, ?_, ?_, rfl, rfl, rfl⟩
        · simp only [upd_same]; exact hw.symm
        · simp only [Option.some.injEq] at h3
          subst h3
          rw [hv.remoteKey] at h4
          simp only [Res.ok.injEq, Option.some.injEq] at h4
          subst h4
          exact .inr (upd_same _ _ _)
  · -- a pre-key message
    have hsb : s = .bob := by cases s <;> simp_all [Side.other]
    subst hsb
    simp only at hc
    subst hc
    obtain ⟨rfl, p2, p3, p4, p5, p6, _⟩ := hpm
    have hrun0 : ∀ x, decryptMessage (d.env .bob) (d.address Side.bob.other) (.preKey pm) x = (decryptPreKey (d.env .bob) (d.address Side.bob.other) pm >>= fun p => (pure (some p) : M World (Option Bytes))) x := fun x => rfl
    -- the session that is found or set up
    obtain ⟨t, n, id, hn, hv, hb, hp, hone⟩ : ∃ (t : SState) (n : Nat) (id : Option UInt32), (n ≤ N ∧ n = sentUnder (S.sent .bob) (L (lev .bob)).kp.pub) ∧
        View d.C L (lev .bob) (ident .bob) (ident .alice) (S.got .bob) n t ∧ t.aliceBaseKey = base.bytes ∧
        Processed (d.env .bob) { S.world .bob with rand := rd, faults := [] } (((S.world .bob).sessions (d.address Side.bob.other)).getD {}) pm id { current := some t } ∧
        ∀ id' rec', Processed (d.env .bob) { S.world .bob with rand := rd, faults := [] } (((S.world .bob).sessions (d.address Side.bob.other)).getD {}) pm id' rec' →
          rec' = { current := some t } ∧ mid (d.env .bob) (d.address Side.bob.other) ((S.world .bob).sessions (d.address Side.bob.other)).isSome (S.world .bob).sessions rec' = (S.world .bob).sessions := by
      cases hst : st .bob with
      | some t =>
        have hw : (S.world .bob).sessions (d.address Side.bob.other) = some { current := some t } := by rw [h.sess .bob, hst]; rfl
        have hv := h.view .bob t hst
        have hb := (h.ready t hst).2.1
        have hfound : ({ current := some t } : Record).hasSessionState pm.version.toUInt32 pm.baseKey.bytes = .ok true := by
          have : t.version = 3 := by simp [SState.version, hv.wf.version]
          simp [Record.hasSessionState, p2, p3, hb, this]
        refine ⟨t, cnt .bob, none, ⟨h.count _, h.book.tally _⟩, hv, hb, ?_, ?_⟩
        · rw [hw]; exact .found hfound
        · intro id' rec' hp
          rw [hw] at hp
          cases hp with
          | found =>
            refine ⟨rfl, ?_⟩
            have := mid_self (d.env .bob) (d.address Side.bob.other) (S.world .bob).sessions
            rw [hw] at this ⊢
            exact this
          | fresh hf =>
            simp only [Option.getD_some, hfound] at hf
            simp at hf
      | none =>
        obtain ⟨n1, n2, n3, n4, n5, signed, one, s0, b1, b2, b3, b4⟩ := h.notReady hst
        have hw : (S.world .bob).sessions (d.address Side.bob.other) = none := by rw [h.sess .bob, hst]; rfl
        have hnot : ({} : Record).hasSessionState pm.version.toUInt32 pm.baseKey.bytes = .ok false := by
          simp [Record.hasSessionState, Record.previousStates, Record.parseAll]
        have hu : ∀ {m : UInt32 → Option PreKeyRec} {i : UInt32} {o o' : Option KeyPair}, LoadsPair m i o → LoadsPair m i o' → o = o' := by
          intro m i o o' h1 h2
          rcases h1 with ⟨h1, rfl⟩ | ⟨p, k, h1, h1', rfl⟩ <;> rcases h2 with ⟨h2, rfl⟩ | ⟨p', k', h2, h2', rfl⟩
          · rfl
          · rw [h1] at h2; simp at h2
          · rw [h1] at h2; simp at h2
          · rw [h1] at h2
            simp only [Option.some.injEq] at h2
            subst h2
            rw [h1'] at h2'
            simp only [Res.ok.injEq] at h2'
            rw [h2']
        have hs' : s0.localRegistrationId = s0.localRegistrationId := rfl
        refine ⟨{ s0 with localRegistrationId := (S.world .bob).regId, remoteRegistrationId := pm.registrationID, aliceBaseKey := base.bytes }, 0, pm.preKeyID,
          ⟨Nat.zero_le _, by rw [n5]; rfl⟩, ?_, rfl, ?_, ?_⟩
        · rw [n2, n4]; exact b4 _ _
        · rw [hw]
          have := Processed.fresh (E := d.env .bob) (w := { S.world .bob with rand := rd, faults := [] }) (rec := {}) (msg := pm) hnot (some signed) one s0
            (by rw [p6]; exact b1) (by rw [p5]; exact b2) (by rw [p3, p4]; exact b3) _ rfl
          rw [p3] at this
          exact this
        · intro id' rec' hp
          rw [hw] at hp ⊢
          refine ⟨?_, by simp [mid]⟩
          cases hp with
          | found hf =>
            simp only [Option.getD_none, hnot] at hf
            simp at hf
          | fresh hf signed' one' s0' c1 c2 c3 s'' hs'' =>
            rw [p6] at c1
            rw [p5] at c2
            rw [p3, p4] at c3
            have q1 := hu b1 c1
            subst q1
            have q2 : one = one' := by
              cases hpid : b.preKeyID with
              | none => simp only [hpid] at b2 c2; rw [b2, c2]
              | some i => simp only [hpid] at b2 c2; exact hu b2 c2
            subst q2
            have c3 : initializeBobSession d.C ⟨(S.world .bob).identity, some signed, one, some signed, ident .alice, base⟩ = .ok s0' := c3
            rw [b3] at c3
            simp only [Res.ok.injEq] at c3
            subst c3
            rw [hs'', p3]
            rfl
    refine ⟨pm.message, e, t, n, hn, e1, e2, e3, e6, e4, hv, fun _ => hb, by simp, ?_⟩
    rw [hrecv, hrun0]
    show _ ∨ _
    by_cases hd : ∃ p t' rd', decryptMessageSession d.C t pm.message rd = (.ok (p, t'), rd')
    · obtain ⟨p, t', rd', hd⟩ := hd
      have hrun := preKey_run (E := d.env .bob) (a := d.address Side.bob.other) (m := pm) (w := { S.world .bob with rand := rd, faults := [] })
        (rec := { current := some t }) (rec' := { current := some t' }) rfl (by rw [p4]; exact htr .bob _ _ (h.known .bob)) hp (decryptRecord_one_run hd)
      left
      refine ⟨p, t', rd', hd, ?_, ?_, ?_⟩ <;> rw [M.bind_ok_run hrun]
      · rfl
      · exact upd_same _ _ _
      · rw [p4]; exact upd_same _ _ _
    · have hno : ∀ p t' rd', decryptMessageSession d.C t pm.message rd ≠ (.ok (p, t'), rd') := fun p t' rd' he => hd ⟨p, t', rd', he⟩
      right
      refine ⟨hno, ?_⟩
      have ho := preKey_outcome (d.env .bob) (d.address Side.bob.other) pm { S.world .bob with rand := rd, faults := [] }
      rw [M.bind_run]
      generalize decryptPreKey (d.env .bob) (d.address Side.bob.other) pm { S.world .bob with rand := rd, faults := [] } = x at ho ⊢
      obtain ⟨r, w'⟩ := x
      simp only at ho ⊢
      cases ho with
      | early _ fs hr =>
        cases r with
        | ok => simp at hr
        | err => exact ⟨by simp, rfl, h.known .bob, rfl, rfl, rfl⟩
        | panic => exact ⟨by simp, rfl, h.known .bob, rfl, rfl, rfl⟩
      | processed _ fs hr id' rec rd' ht hp' known hk =>
        obtain ⟨_, hmid⟩ := hone _ _ hp'
        have hk' : known (d.address Side.bob.other) = none ∨ known (d.address Side.bob.other) = some (ident Side.bob.other) := by
          rcases hk with rfl | rfl
          · exact h.known .bob
          · rw [upd_same, p4]; exact .inr rfl
        have hmid' := congrFun hmid (d.address Side.bob.other)
        cases r with
        | ok => simp at hr
        | err => exact ⟨by simp, hmid', hk', rfl, rfl, rfl⟩
        | panic => exact ⟨by simp, hmid', hk', rfl, rfl, rfl⟩
      | decrypted _ fs hr id' rec rec' p rd' ht hp' hd' =>
        obtain ⟨rfl, _⟩ := hone _ _ hp'
        obtain ⟨t', h1, _⟩ := decryptRecord_one hd'
        exact absurd h1 (hno _ _ _)
      | done fs id' rec rec' p rd' ht hp' hd' =>
        obtain ⟨rfl, _⟩ := hone _ _ hp'
        obtain ⟨t', h1, _⟩ := decryptRecord_one hd'
        exact absurd h1 (hno _ _ _)

/-- A delivery keeps the invariant, and returns nothing but the plaintext. -/
theorem Inv.delivered (htr : ∀ s (known : Address → Option PubKey) dir, known (d.address s.other) = none ∨ known (d.address s.other) = some (ident s.other) →
      d.trusted s known (d.address s.other) (ident s.other) dir = true) {rd : Bytes}
    (h : Inv d ident b base o (rd :: F) N L lev cnt st S) (s : Side) (i : Nat) (hok : DEvent.Ok d S (.deliver s i rd)) :
    (∃ L' lev' cnt' st', (∀ i, i ≤ max (lev .alice) (lev .bob) → L' i = L i) ∧ (∀ u, lev u ≤ lev' u) ∧
      (lev' s ≠ lev s → (generateKeyPair d.C rd).1 = .ok (L' (lev' s)).kp) ∧ (∀ u, u ≠ s → lev' u = lev u) ∧
      Inv d ident b base o F N L' lev' cnt' st' (d.step S (.deliver s i rd))) ∧
    ∀ c pt, (S.sent s.other)[i]? = some (c, pt) → ∀ p, (d.receive s c rd (S.world s)).1 = .ok (some p) → p = pt := by
  cases hi : (S.sent s.other)[i]? with
  | none =>
    refine ⟨⟨L, lev, cnt, st, fun _ _ => rfl, fun _ => Nat.le_refl _, fun hc => absurd rfl hc, fun _ _ => rfl, ?_⟩, by simp⟩
    simp only [Duo.step, hi]
    exact h.weaken
  | some cp =>
    obtain ⟨c, pt⟩ := cp
    obtain ⟨m, e, t, n, h1, h2, h3, h4, h5, h6, h7, h8, h9, h10⟩ := h.attempt htr (List.mem_of_getElem? hi) rd
    rcases h10 with ⟨p, t', rd', hd, hr, hs, hk⟩ | ⟨hno, hr, hs, hk, hid⟩
    · have hok' : m.senderRatchetKey ∈ chainsSeen (S.got s) → m.senderRatchetKey ∈ recentChains (S.got s) := by
        intro hseen
        by_cases hrec : m.senderRatchetKey ∈ recentChains (S.got s)
        · exact hrec
        · exact absurd hr (hok c pt _ _ hi h5 hseen hrec p)
      obtain ⟨hp, hinv⟩ := h.accept h1 h7 h8 h9 h2 h3 h4 h6 hok' hd
      constructor
      · obtain ⟨L', lev', cnt', a1, a2, a3, a4, hI⟩ := hinv _ hs (.inr hk)
        refine ⟨L', lev', cnt', upd st s (some t'), a1, a2, a3, a4, ?_⟩
        simp only [Duo.step, hi, h5, hr]
        exact hI
      · intro c' pt' hcp p' hp'
        simp only [Option.some.injEq, Prod.mk.injEq] at hcp
        obtain ⟨rfl, rfl⟩ := hcp
        rw [hr] at hp'
        simp only [Res.ok.injEq, Option.some.injEq] at hp'
        rw [← hp']; exact hp
    · constructor
      · refine ⟨L, lev, cnt, st, fun _ _ => rfl, fun _ => Nat.le_refl _, fun hc => absurd rfl hc, fun _ _ => rfl, ?_⟩
        have := h.weaken.idle (s := s) (w := (d.receive s c rd (S.world s)).2) hs hk hid
        simp only [Duo.step, hi, h5]
        revert this hr
        generalize d.receive s c rd (S.world s) = x
        obtain ⟨r, w⟩ := x
        intro hr this
        simp only at hr this ⊢
        split
        · exact absurd rfl (hr _)
        · exact this
      · intro c' pt' hcp p' hp'
        simp only [Option.some.injEq, Prod.mk.injEq] at hcp
        obtain ⟨rfl, rfl⟩ := hcp
        exact absurd hp' (hr p')

/-- A message inside the windows is delivered. -/
theorem Inv.delivers (htr : ∀ s (known : Address → Option PubKey) dir, known (d.address s.other) = none ∨ known (d.address s.other) = some (ident s.other) →
      d.trusted s known (d.address s.other) (ident s.other) dir = true) {rd : Bytes}
    (h : Inv d ident b base o (rd :: F) N L lev cnt st S) {s : Side} {c : Ciphertext} {pt : Bytes} {k : PubKey} {j : UInt32}
    (hc : (c, pt) ∈ S.sent s.other) (hp : c.position = some (k, j)) (hw : InWindow (S.got s) k j) :
    (d.receive s c rd (S.world s)).1 = .ok (some pt) := by
  obtain ⟨m, e, t, n, h1, h2, h3, h4, h5, h6, h7, h8, h9, h10⟩ := h.attempt htr hc rd
  rw [hp] at h5
  simp only [Option.some.injEq, Prod.mk.injEq] at h5
  obtain ⟨rfl, rfl⟩ := h5
  have hopen : ∃ s' rd', decryptMessageSession d.C t m rd = (.ok (pt, s'), rd') := by
    have htop := h.top s
    by_cases hseen : m.senderRatchetKey ∈ chainsSeen (S.got s)
    · have hlt := h.below (s := s) h2 (h6.key ▸ hseen)
      have hrec : m.senderRatchetKey ∈ recentChains (S.got s) := by
        rcases hw.chain with hx | hx
        · exact hx
        · exact absurd hseen hx
      refine h7.opens_known h.lad (by omega) rd hlt h6 ?_ hw.unread hw.ahead hw.behind
      rw [h.seen s]
      exact lastN_append_left hrec
    · obtain ⟨rfl, hlo⟩ := h.unseen h2 h3 h4 (h6.key ▸ hseen)
      have hmx : max (lev .alice) (lev .bob) = lev s + 1 := by rw [htop]; omega
      have hrd : 32 ≤ rd.length := by
        obtain ⟨f1, _⟩ := h.fresh
        by_cases hl : 32 ≤ rd.length
        · exact hl
        · exfalso
          apply f1
          cases hg : publicKeyOf d.C rd with
          | none => simp [hg]
          | some k =>
            exfalso
            apply hl
            unfold publicKeyOf at hg
            cases hg' : generateKeyPair d.C rd with
            | mk r rd' =>
              cases r with
              | ok kp => exact (generateKeyPair_ok hg').1
              | err => simp [hg'] at hg
              | panic => simp [hg'] at hg
      have hz := newestUnder_none (h.gotNot (s := s) h2 (by omega))
      have ha := hw.ahead
      rw [h6.key, hz] at ha
      exact h7.opens_new (hmx ▸ h.lad) (h.gotNot h2 (by omega)) h6 hrd (by omega)
  obtain ⟨t1, rd1, hopen⟩ := hopen
  rcases h10 with ⟨p, t', rd', hd, hr, _⟩ | ⟨hno, _⟩
  · rw [hopen] at hd
    simp only [Prod.mk.injEq, Res.ok.injEq] at hd
    rw [hr, hd.1.1]
  · exact absurd hopen (hno _ _ _)

/-- A message that is more than 2000 behind messages accepted in order is not delivered. -/
theorem Inv.forgets (htr : ∀ s (known : Address → Option PubKey) dir, known (d.address s.other) = none ∨ known (d.address s.other) = some (ident s.other) →
      d.trusted s known (d.address s.other) (ident s.other) dir = true)
    (h : Inv d ident b base o F N L lev cnt st S) {s : Side} {c : Ciphertext} {pt : Bytes} {k : PubKey} {j : UInt32}
    (hc : (c, pt) ∈ S.sent s.other) (hp : c.position = some (k, j)) (hk : k ∈ recentChains (S.got s)) (ho : InOrder (S.got s) k)
    (hb : j.toNat + 2000 < newestUnder (S.got s) k) (rd p : Bytes) : (d.receive s c rd (S.world s)).1 ≠ .ok (some p) := by
  obtain ⟨m, e, t, n, h1, h2, h3, h4, h5, h6, h7, h8, h9, h10⟩ := h.attempt htr hc rd
  rw [hp] at h5
  simp only [Option.some.injEq, Prod.mk.injEq] at h5
  obtain ⟨rfl, rfl⟩ := h5
  rcases h10 with ⟨p, t', rd', hd, _⟩ | ⟨_, hr, _⟩
  · exfalso
    have htop := h.top s
    have hseen : m.senderRatchetKey ∈ chainsSeen (S.got s) := by
      rw [recentChains_eq] at hk
      exact lastN_mem hk
    have hlt := h.below (s := s) h2 (h6.key ▸ hseen)
    refine h7.forgotten h.lad (by omega) hlt h6.key ?_ ho hb hd
    rw [h.seen s]
    exact lastN_append_left hk
  · exact hr p

/-- Every schedule keeps the invariant. -/
theorem Inv.run (htr : ∀ s (known : Address → Option PubKey) dir, known (d.address s.other) = none ∨ known (d.address s.other) = some (ident s.other) →
      d.trusted s known (d.address s.other) (ident s.other) dir = true) (es es' : List DEvent) :
    ∀ {S : DSys} {N : Nat} {L : Nat → Rung} {lev cnt : Side → Nat} {st : Side → Option SState},
    Inv d ident b base o (deliveryRand (es ++ es')) N L lev cnt st S → d.Ok S es → N + es.length < 4294967296 →
    ∃ L lev cnt st, Inv d ident b base o (deliveryRand es') (N + es.length) L lev cnt st (d.run S es) := by
  induction es with
  | nil =>
    intro S N L lev cnt st h _ _
    exact ⟨L, lev, cnt, st, h⟩
  | cons ev es ih =>
    intro S N L lev cnt st h hok hN
    rw [List.length_cons] at hN
    rw [List.length_cons, show N + (es.length + 1) = N + 1 + es.length by omega]
    cases ev with
    | send s pt =>
      obtain ⟨lev', cnt', st', h'⟩ := h.sends htr s hok.1 (by omega)
      exact ih h' hok.2 (by omega)
    | deliver s i rd =>
      obtain ⟨⟨L', lev', cnt', st', _, _, _, _, h'⟩, _⟩ := Inv.delivered htr (F := deliveryRand (es ++ es')) h s i hok.1
      exact ih h'.later hok.2 (by omega)

/-! ## The beginning of a conversation -/

theorem publicKeyOf_some {C : Crypto} {rd : Bytes} (h : publicKeyOf C rd ≠ none) :
    ∃ kp, generateKeyPair C rd = (.ok kp, rd.drop 32) ∧ publicKeyOf C rd = some kp.pub ∧ 32 ≤ rd.length ∧ kp.Matched C := by
  by_cases hl : 32 ≤ rd.length
  · obtain ⟨kp, hg, _, hm⟩ := generateKeyPair_run C rd hl
    exact ⟨kp, hg, publicKeyOf_ok hg, hl, hm⟩
  · exfalso
    apply h
    simp [publicKeyOf, generateKeyPair_short C rd hl]

/-- The identity keys of the two users. -/
def identOf (alice bob : World) : Side → PubKey
  | .alice => alice.identity.pub
  | .bob => bob.identity.pub

theorem Duo.Strangers.trusts {alice bob : World} (h : d.Strangers alice bob b) :
    ∀ s (known : Address → Option PubKey) dir, known (d.address s.other) = none ∨ known (d.address s.other) = some (identOf alice bob s.other) →
      d.trusted s known (d.address s.other) (identOf alice bob s.other) dir = true
  | .alice, known, dir, hk => h.aliceTrusts.2 known dir hk
  | .bob, known, dir, hk => h.bobTrusts.2 known dir hk

/-- How a conversation begins. -/
structure Begins (C : Crypto) (alice bob : World) (b : Bundle) (rand : Bytes) (es : List DEvent) (base : PubKey) (o : Opening) : Prop where
  keys : ∃ bk : KeyPair, (generateKeyPair C rand).1 = .ok bk ∧ base = bk.pub ∧
    Doc.x3dh C alice.identity bk b.identityKey b.signedPreKeyPublic b.preKeyPublic = ⟨o.first.root.key, o.first.ck.key⟩
  signed : bob.signedPreKeys b.signedPreKeyID = some (PreKeyRec.new o.first.kp)
  second : (generateKeyPair C (rand.drop 32)).1 = .ok o.second
  reg : o.reg = alice.regId
  rands : o.rands = deliveryRand es

theorem Duo.begins {alice bob : World} {rand : Bytes} {es : List DEvent} (h : d.Strangers alice bob b) (hf : FreshKeys d.C b rand es) :
    (processPreKeyBundle (d.env .alice) (d.address .bob) b { alice with rand := rand, faults := [] }).1 = .ok () ∧
    ∃ base o L lev cnt st, Inv d (identOf alice bob) b base o (deliveryRand es) 0 L lev cnt st (d.start alice bob b rand) ∧
      Begins d.C alice bob b rand es base o := by
  obtain ⟨f1, f2⟩ := hf
  obtain ⟨kp, g1, g2, g3, g4⟩ := publicKeyOf_some (C := d.C) (rd := rand.drop 32) (fun hn => f1 (by rw [← hn]; simp))
  have hr : 32 ≤ rand.length := by rw [List.length_drop] at g3; omega
  obtain ⟨bk, k1, _, k3⟩ := generateKeyPair_run d.C rand hr
  obtain ⟨signed, s1, s2, s3⟩ := h.offers.signed
  obtain ⟨i1, i2⟩ := h.offers.identity
  -- the one-time pre-key
  obtain ⟨one, o1, o2, o3, o4⟩ : ∃ one : Option KeyPair, (∀ k, one = some k → k.Matched d.C) ∧ b.preKeyPublic = one.map (·.pub) ∧
      (match b.preKeyID with | none => one = none | some id => LoadsPair bob.preKeys id one) ∧
      (if b.preKeyID.getD 0 ≠ 0 then some (b.preKeyID.getD 0) else none) = b.preKeyID := by
    rcases h.offers.oneTime with ⟨q1, q2⟩ | ⟨id, k, q1, q2, q3, q4, q5⟩
    · exact ⟨none, by simp, by simp [q2], by simp [q1], by simp [q1]⟩
    · refine ⟨some k, by simp [q2], by simp [q4], ?_, by simp [q3, q1]⟩
      simp only [q3]
      exact .inr ⟨_, k, q5, by simp [PreKeyRec.new, PreKeyRec.keyPair, newKeyPair], rfl⟩
  obtain ⟨root, ck, l1, l2, l3, hx3, hbob, halice⟩ := x3dh_agree d.C (aId := alice.identity) (base := bk) (bId := bob.identity) (signed := signed)
    (ratchet := signed) (one := one) h.aliceKey k3 i2 s1 s1 o1
  obtain ⟨sr, sc, c1, c2⟩ := halice (rand.drop 32) _ kp g1
  have hfb : FromBundle (d.env .alice) { alice with rand := rand, faults := [] } b
      { (aliceInitial alice.identity bob.identity.pub signed.pub ck kp sr sc).setUnacknowledgedPreKeyMessage b.preKeyID b.signedPreKeyID bk.pub with localRegistrationId := alice.regId, remoteRegistrationId := b.registrationID, aliceBaseKey := bk.pub.bytes }
      ((rand.drop 32).drop 32) := by
    refine .mk bk (rand.drop 32) _ _ k1 ?_ _ rfl
    simp only [i1, s2, o2]
    exact c2
  have htr : d.trusted .alice alice.known (d.address .bob) bob.identity.pub .sending = true := h.trusts .alice alice.known .sending h.aliceTrusts.1
  have hrun := bundle_run (E := d.env .alice) (a := d.address .bob) (w := { alice with rand := rand, faults := [] }) rfl
    (by rw [i1]; exact htr) h.offers.signature hfb
  refine ⟨by rw [hrun], bk.pub, ⟨⟨signed, root, ck, 0⟩, kp, alice.regId, deliveryRand es⟩, firstRungs signed kp root ck sr sc, rungOf, fun _ => 0,
    fun | .alice => some { (aliceInitial alice.identity bob.identity.pub signed.pub ck kp sr sc).setUnacknowledgedPreKeyMessage b.preKeyID b.signedPreKeyID bk.pub with localRegistrationId := alice.regId, remoteRegistrationId := b.registrationID, aliceBaseKey := bk.pub.bytes }
        | .bob => none, ?_, ⟨bk, by rw [k1], rfl, by rw [i1, s2, o2]; exact hx3⟩, s3, by rw [g1], rfl, rfl⟩
  simp only [List.nodup_cons, List.mem_cons] at f2
  have hne : signed.pub ≠ kp.pub := by
    intro he
    apply f2.1
    left
    rw [s2, g2, he]
  have hBobCan : BobCan d.C (identOf alice bob) b bk.pub (firstRungs signed kp root ck sr sc) bob := by
    refine ⟨signed, one, _, ?_, o3, hbob, ?_⟩
    · exact .inr ⟨_, signed, s3, by simp [PreKeyRec.new, PreKeyRec.keyPair, newKeyPair], rfl⟩
    · intro r1 r2
      refine bob_view ?_ rfl rfl rfl rfl rfl rfl
      exact ⟨rfl, ⟨_, rfl⟩, ⟨_, rfl⟩, l1, ⟨_, rfl, ⟨_, rfl⟩, ⟨_, rfl⟩, ⟨ck, rfl, l2⟩, rfl⟩, by simp [bobInitial, SState.setSenderChain], by simp [bobInitial, SState.setSenderChain],
        by simp [bobInitial, SState.setSenderChain], by simp [bobInitial, SState.setSenderChain], ⟨_, rfl⟩⟩
  have hstart : d.start alice bob b rand = { world := fun | .alice => { alice with sessions := upd alice.sessions (d.address .bob) (some (((alice.sessions (d.address .bob)).getD {}).promoteState { (aliceInitial alice.identity bob.identity.pub signed.pub ck kp sr sc).setUnacknowledgedPreKeyMessage b.preKeyID b.signedPreKeyID bk.pub with localRegistrationId := alice.regId, remoteRegistrationId := b.registrationID, aliceBaseKey := bk.pub.bytes })), known := upd alice.known (d.address .bob) (some b.identityKey), rand := (rand.drop 32).drop 32, faults := [] } | .bob => bob } := by
    simp only [Duo.start, hrun]
    congr 1
  rw [hstart]
  refine ⟨firstRungs_ladder l1 l2 l3 s1 g4 c1 hne, ?_, ?_, ?_, by simp, ?_, ?_, ?_, ?_, ?_, ?_, by simp, ?_, by simp, ⟨rfl, ⟨rfl, rfl⟩, fun _ h => h, ?_, fun _ => rfl, ?_, by simp⟩⟩
  · intro s; cases s <;> rfl
  · intro s; cases s <;> simp [rungOf, Side.other]
  · refine ⟨_, rfl, by simp [SState.setUnacknowledgedPreKeyMessage], ?_⟩
    intro p hp
    simp only [SState.setUnacknowledgedPreKeyMessage, Option.some.injEq] at hp
    subst hp
    exact ⟨rfl, by simp, o4, rfl, rfl⟩
  · intro _
    exact ⟨rfl, rfl, rfl, rfl, rfl, hBobCan⟩
  · intro s
    cases s with
    | alice =>
      simp only [Side.other, upd_same, h.aliceNew]
      rfl
    | bob => simpa [Side.other] using h.bobNew
  · intro s t ht
    cases s with
    | bob => simp at ht
    | alice =>
      simp only [Option.some.injEq] at ht
      subst ht
      exact alice_view hfb.WF rfl rfl rfl rfl rfl rfl
  · intro s
    cases s <;> rfl
  · intro s p hp
    simp at hp
  · intro s
    cases s with
    | alice =>
      simp only [Side.other, upd_same, i1]
      exact .inr rfl
    | bob => exact h.bobTrusts.1
  · refine ⟨fun hx => f1 (by simp [hx]), f2.2.2, ?_⟩
    intro i hi hx
    have : i = 0 ∨ i = 1 := by simp only [rungOf] at hi; omega
    rcases this with rfl | rfl
    · apply f2.1
      right
      rw [s2]; exact hx
    · apply f2.2.1
      rw [g2]; exact hx
  · intro i hi1 hi2
    simp only [rungOf] at hi2
    omega
  · intro s e _ he
    cases s <;> simp only [rungOf] at he <;> omega

theorem Duo.start_ok {alice bob : World} {rand : Bytes} {es : List DEvent} (h : d.Strangers alice bob b) (hf : FreshKeys d.C b rand es) :
    (processPreKeyBundle (d.env .alice) (d.address .bob) b { alice with rand := rand, faults := [] }).1 = .ok () ∧
    ∃ base o L lev cnt st, Inv d (identOf alice bob) b base o (deliveryRand es) 0 L lev cnt st (d.start alice bob b rand) := by
  obtain ⟨hp, base, o, L, lev, cnt, st, hI, _⟩ := Duo.begins h hf
  exact ⟨hp, base, o, L, lev, cnt, st, hI⟩

/-- A side that has a session can send. -/
theorem Inv.canSend (htr : ∀ s (known : Address → Option PubKey) dir, known (d.address s.other) = none ∨ known (d.address s.other) = some (ident s.other) →
      d.trusted s known (d.address s.other) (ident s.other) dir = true)
    (h : Inv d ident b base o F N L lev cnt st S) (s : Side) (hs : s = .bob → S.got .bob ≠ []) (pt : Bytes) :
    ∃ c, (encryptMessage (d.env s) (d.address s.other) pt { S.world s with faults := [] }).1 = .ok c := by
  have hsome : ∃ t, st s = some t := by
    cases s with
    | alice => obtain ⟨t, ht, _⟩ := h.alice; exact ⟨t, ht⟩
    | bob =>
      cases hb : st .bob with
      | none => exact absurd (h.notReady hb).2.2.2.1 (hs rfl)
      | some t => exact ⟨t, rfl⟩
  obtain ⟨t, hst⟩ := hsome
  obtain ⟨msg, out, t', e1, _⟩ := (h.view s t hst).send pt
  have hrun := encrypt_run (E := d.env s) (a := d.address s.other) (w := { S.world s with faults := [] }) (rec := { current := some t })
    rfl (by rw [h.sess s, hst]; rfl) rfl e1 (htr s _ _ (h.known s))
  exact ⟨out, by rw [hrun]⟩

/-- While Bob has no session, Alice's messages are pre-key messages that name the keys of the bundle. -/
theorem Inv.names (h : Inv d ident b base o F N L lev cnt st S) (hb : (S.world .bob).sessions (d.address .alice) = none) {c : Ciphertext} {pt : Bytes}
    (hc : (c, pt) ∈ S.sent .alice) : ∃ pm, c = .preKey pm ∧ pm.preKeyID = b.preKeyID ∧ pm.signedPreKeyID = b.signedPreKeyID := by
  have hst : st .bob = none := by
    have := h.sess .bob
    simp only [Side.other, hb] at this
    cases hx : st .bob with
    | none => rfl
    | some t => rw [hx] at this; simp at this
  obtain ⟨m, e, _, _, _, _, _, _, h7⟩ := h.sent _ _ hc
  rcases h7 with ⟨_, h8⟩ | ⟨_, pm, h1, _, _, _, _, h2, h3, _⟩
  · exact absurd hst h8
  · exact ⟨pm, h1, h2, h3⟩

end Verif
