import Verif.Proofs.StateUseSim

namespace Verif

/-! The root key and the sending chain key that one ratchet step made are the halves of one array. -/

theorem createChainRef_halves {C : Crypto} {root : Slice} {ours : PrivKey} {theirs : PubKey} {h h' : Heap} {r : Slice} {ck : ChainKeyRef}
    (e : createChainRef C root ours theirs h = (.ok (r, ck), h')) : ∃ a, r = ⟨a, 0, 32, 64⟩ ∧ ck.key = ⟨a, 32, 32, 32⟩ := by
  unfold createChainRef at e
  cases ha : ours.agreement C theirs with
  | err _ => rw [ha] at e; cases e
  | panic => rw [ha] at e; cases e
  | ok secret =>
    rw [ha] at e
    have e' := congrArg Prod.fst e
    have e'' := Res.ok.inj e'
    have h1 := congrArg Prod.fst e''
    have h2 := congrArg Prod.snd e''
    dsimp only at h1 h2
    exact ⟨_, h1.symm, by rw [← h2]⟩

/-- The sending chain key follows the root key in its array. -/
def StateOf.Halves (s : StateOf Slice) : Prop :=
  ∃ a c k, s.rootKey = ⟨a, 0, 32, 64⟩ ∧ s.senderChain = some c ∧ c.chainKey = some k ∧ k.key = ⟨a, 32, 32, 32⟩

theorem onMem_ok {α} {x : M Heap α} {m m' : RMem} {a : α} (e : onMem x m = (.ok a, m')) : x m.heap = (.ok a, m'.heap) := by
  unfold onMem at e
  generalize x m.heap = z at e
  obtain ⟨r, h⟩ := z
  simp only [Prod.mk.injEq] at e
  obtain ⟨rfl, rfl⟩ := e
  rfl

theorem chainKeyForRef_halves {C : Crypto} {s : StateOf Slice} {k : PubKey} {m m' : RMem} {o : ChainKeyRef × StateOf Slice}
    (hf : StateOf.findChainOf m.heap k.bytes s.receiverChains 0 = none) (e : chainKeyForRef C s k m = (.ok o, m')) : o.2.Halves := by
  unfold chainKeyForRef at e
  obtain ⟨m0, _, e0, e⟩ := M.bind_eq_ok.1 e
  cases e0
  obtain ⟨r, _, e0, e⟩ := M.bind_eq_ok.1 e
  have hr : s.receiverChainKeyRef m.heap k = .ok none := by unfold StateOf.receiverChainKeyRef; rw [hf]
  rw [hr] at e0
  cases e0
  obtain ⟨root, _, _, e⟩ := M.bind_eq_ok.1 e
  obtain ⟨ours, _, _, e⟩ := M.bind_eq_ok.1 e
  obtain ⟨⟨root1, receiving⟩, _, _, e⟩ := M.bind_eq_ok.1 e
  obtain ⟨pair, _, _, e⟩ := M.bind_eq_ok.1 e
  obtain ⟨⟨root2, sending⟩, _, ec, e⟩ := M.bind_eq_ok.1 e
  obtain ⟨current, _, _, e⟩ := M.bind_eq_ok.1 e
  obtain ⟨_, _, _, e⟩ := M.bind_eq_ok.1 e
  obtain ⟨_, _, _, e⟩ := M.bind_eq_ok.1 e
  obtain ⟨_, _, _, e⟩ := M.bind_eq_ok.1 e
  obtain ⟨_, _, _, e⟩ := M.bind_eq_ok.1 e
  have e' := Res.ok.inj (congrArg Prod.fst e)
  subst e'
  obtain ⟨a, h1, h2⟩ := createChainRef_halves (onMem_ok ec)
  exact ⟨a, _, _, h1, rfl, rfl, h2⟩

theorem StateOf.Halves.setChain {s : StateOf Slice} (h : s.Halves) (j : Nat) (c : ChainOf Slice) : (s.setChain j c).Halves := h

theorem skipLoopRef_halves {C : Crypto} {k : PubKey} {counter : UInt32} {fuel : Nat} {ck : ChainKeyRef} {s : StateOf Slice} {h h' : Heap}
    {o : ChainKeyRef × StateOf Slice} (hs : s.Halves) (e : skipLoopRef C k counter fuel ck s h = (.ok o, h')) : o.2.Halves := by
  induction fuel generalizing ck s h with
  | zero =>
    have := Res.ok.inj (congrArg Prod.fst e)
    subst this
    exact hs
  | succ fuel ih =>
    unfold skipLoopRef at e
    by_cases c : ck.index < counter
    · rw [if_pos c] at e
      obtain ⟨keys, _, _, e⟩ := M.bind_eq_ok.1 e
      obtain ⟨h1, _, _, e⟩ := M.bind_eq_ok.1 e
      obtain ⟨s', _, es, e⟩ := M.bind_eq_ok.1 e
      obtain ⟨_, _, _, e⟩ := M.bind_eq_ok.1 e
      refine ih ?_ e
      have es' := congrArg Prod.fst es
      simp only [M.lift_run, StateOf.setMessageKeysRef] at es'
      cases hf : StateOf.findChainOf h1 k.bytes s.receiverChains 0 with
      | none => rw [hf] at es'; cases es'
      | some p =>
        rw [hf] at es'
        have := Res.ok.inj es'
        subst this
        exact hs.setChain _ _
    · rw [if_neg c] at e
      have := Res.ok.inj (congrArg Prod.fst e)
      subst this
      exact hs

theorem messageKeysForRef_halves {C : Crypto} {k : PubKey} {counter : UInt32} {ck : ChainKeyRef} {s : StateOf Slice} {h h' : Heap}
    {o : MessageKeysRef × StateOf Slice} (hs : s.Halves) (e : messageKeysForRef C s k ck counter h = (.ok o, h')) : o.2.Halves := by
  unfold messageKeysForRef at e
  obtain ⟨h0, _, e0, e⟩ := M.bind_eq_ok.1 e
  cases e0
  by_cases c : ck.index > counter
  · rw [if_pos c] at e
    obtain ⟨r, _, er, e⟩ := M.bind_eq_ok.1 e
    cases r with
    | none => cases e
    | some q =>
      have := Res.ok.inj (congrArg Prod.fst e)
      subst this
      show (s.messageKeySlices h k counter).2.Halves
      unfold StateOf.messageKeySlices
      split
      · exact hs
      · dsimp only
        split
        · exact hs
        · split
          · exact hs
          · split
            · exact hs
            · split <;> exact hs
  · rw [if_neg c] at e
    obtain ⟨_, _, _, e⟩ := M.bind_eq_ok.1 e
    obtain ⟨out, _, eo, e⟩ := M.bind_eq_ok.1 e
    obtain ⟨h2, _, _, e⟩ := M.bind_eq_ok.1 e
    obtain ⟨s2, _, es, e⟩ := M.bind_eq_ok.1 e
    obtain ⟨_, _, _, e⟩ := M.bind_eq_ok.1 e
    have := Res.ok.inj (congrArg Prod.fst e)
    subst this
    have ho := skipLoopRef_halves hs eo
    have es' := congrArg Prod.fst es
    simp only [M.lift_run, StateOf.setReceiverChainKeyRef] at es'
    cases hf : StateOf.findChainOf h2 k.bytes out.2.receiverChains 0 with
    | none => rw [hf] at es'; cases es'
    | some p =>
      rw [hf] at es'
      have := Res.ok.inj es'
      subst this
      exact ho.setChain _ _

theorem decryptStateRef_halves {C : Crypto} {s : StateOf Slice} {c : Signal} {m m' : RMem} {o : Bytes × StateOf Slice}
    (hf : (s.seen m.heap).receiverChain c.senderRatchetKey = none) (e : decryptStateRef C s c m = (.ok o, m')) : o.2.Halves := by
  unfold decryptStateRef at e
  obtain ⟨m0, _, e0, e⟩ := M.bind_eq_ok.1 e
  cases e0
  obtain ⟨s1, m1, e1, e⟩ := M.bind_eq_ok.1 e
  obtain ⟨hm, hseen⟩ := parses_state (s.seen m.heap) m.heap
  have e1' := onMem_ok e1
  simp only [Prod.mk.injEq, Res.ok.injEq] at e1'
  rw [e1'.1, e1'.2] at hm hseen
  have hnone : StateOf.findChainOf m1.heap c.senderRatchetKey.bytes s1.receiverChains 0 = none := by
    have := findChain_seen m1.heap c.senderRatchetKey.bytes s1.receiverChains 0
    rw [show SState.findChain c.senderRatchetKey.bytes (s1.receiverChains.map (ChainOf.seen m1.heap)) 0 = (s1.seen m1.heap).receiverChain c.senderRatchetKey from rfl,
      hseen, hf] at this
    cases hz : StateOf.findChainOf m1.heap c.senderRatchetKey.bytes s1.receiverChains 0 with
    | none => rfl
    | some o => rw [hz] at this; cases this
  cases hs : s1.senderChain with
  | none => rw [hs] at e; cases e
  | some chain =>
    rw [hs] at e
    obtain ⟨m2, _, e2, e⟩ := M.bind_eq_ok.1 e
    cases e2
    by_cases hv : c.version.toUInt32 ≠ (s1.seen m1.heap).version
    · rw [if_pos hv] at e
      cases e
    · rw [if_neg hv] at e
      obtain ⟨⟨ck, s2⟩, _, ec, e⟩ := M.bind_eq_ok.1 e
      obtain ⟨⟨mk, s3⟩, m3, ek, e⟩ := M.bind_eq_ok.1 e
      have h2 := chainKeyForRef_halves hnone ec
      have h3 := messageKeysForRef_halves h2 (onMem_ok ek)
      obtain ⟨m4, _, _, e⟩ := M.bind_eq_ok.1 e
      have e' := congrArg Prod.fst e
      simp only [M.lift_run] at e'
      obtain ⟨r, _, e'⟩ := Res.bind_eq_ok.1 e'
      cases r with
      | none => cases e'
      | some theirs =>
        obtain ⟨l, _, e'⟩ := Res.bind_eq_ok.1 e'
        obtain ⟨b, _, e'⟩ := Res.bind_eq_ok.1 e'
        cases b with
        | false => cases e'
        | true =>
          obtain ⟨p, _, e'⟩ := Res.bind_eq_ok.1 e'
          have := Res.ok.inj e'
          subst this
          exact h3

/-- `append` to the root key, in a state where the sending chain key follows it. -/
theorem StateOf.Halves.append {s : StateOf Slice} (hs : s.Halves) {h : Heap} (hv : h.Valid s.rootKey) {b : Bytes} (hb : b.length ≤ 32) {w : ChainKey}
    (hw : (s.seen h).senderChainKey = .ok w) :
    (s.seen (goAppend h s.rootKey b).2).senderChainKey = .ok ⟨overwrite w.key 0 b, w.index⟩ := by
  obtain ⟨a, c, k, h1, h2, h3, h4⟩ := hs
  have hr : ∀ g : Heap, (s.seen g).senderChainKey = newChainKey (g.read ⟨a, 32, 32, 32⟩) k.index := by
    intro g
    simp only [SState.senderChainKey, StateOf.seen, h2, Option.map_some, ChainOf.seen, h3, ChainKeyOf.seen, h4]
  rw [h1] at hv ⊢
  obtain ⟨v1, v2, v3⟩ := hv
  dsimp only at v1 v2 v3
  have hx : h.Valid ⟨a, 32, 32, 32⟩ := ⟨v1, Nat.le_refl _, by dsimp only; omega⟩
  have e : (goAppend h ⟨a, 0, 32, 64⟩ b).2 = putAt h ⟨a, 32, 32, 32⟩ 0 b := by
    unfold goAppend putAt
    rw [if_pos (by dsimp only; omega)]
    simp only [Nat.zero_add, Nat.add_zero]
  rw [hr] at hw ⊢
  unfold newChainKey at hw ⊢
  rw [len_of_valid hx, if_neg (by simp)] at hw
  have := Res.ok.inj hw
  subst this
  rw [e, read_putAt_self hx (by dsimp only; omega)]
  rw [if_neg]
  simp only [ne_eq, Decidable.not_not]
  rw [overwrite_length _ _ _ (by rw [len_of_valid hx]; dsimp only; omega), len_of_valid hx]

end Verif
