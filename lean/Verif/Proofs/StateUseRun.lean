import Verif.Proofs.StateUseStep
import Verif.Spec.StateUse

namespace Verif

/-! ## Calls that use memory and random bytes -/

/-- A call over memory and random bytes does what a function of values and random bytes does. -/
def DoesR {α β} (m : RMem) (x : M RMem α) (y : M Bytes β) (R : Heap → α → β → Prop) : Prop :=
  Grows m.heap (x m).2.heap ∧ (x m).2.rand = (y m.rand).2 ∧ match (x m).1, (y m.rand).1 with
    | .ok a, .ok b => R (x m).2.heap a b
    | .err e, .err e' => e = e'
    | .panic, .panic => True
    | _, _ => False

theorem doesR_pure {α β} {m : RMem} {a : α} {b : β} {R : Heap → α → β → Prop} (hr : R m.heap a b) : DoesR m (pure a) (pure b) R := ⟨.refl _, rfl, hr⟩

theorem doesR_throw {α β} {m : RMem} {e : Err} {R : Heap → α → β → Prop} : DoesR m (M.throw e) (M.throw e) R := ⟨.refl _, rfl, rfl⟩

theorem DoesR.bind {α β γ δ} {m : RMem} {x : M RMem α} {y : M Bytes β} {R : Heap → α → β → Prop} {f : α → M RMem γ} {g : β → M Bytes δ}
    {R' : Heap → γ → δ → Prop} (h1 : DoesR m x y R) (h2 : ∀ m' a b, Grows m.heap m'.heap → R m'.heap a b → DoesR m' (f a) (g b) R') :
    DoesR m (x >>= f) (y >>= g) R' := by
  obtain ⟨g1, e1, m1⟩ := h1
  unfold DoesR
  rw [M.bind_run, M.bind_run]
  generalize x m = xm at g1 e1 m1
  generalize y m.rand = ym at e1 m1
  obtain ⟨o, m'⟩ := xm
  obtain ⟨p, r'⟩ := ym
  simp only at e1
  subst e1
  cases o <;> cases p <;> simp only at m1
  · obtain ⟨g2, e2, m2⟩ := h2 _ _ _ g1 m1
    exact ⟨g1.trans g2, e2, m2⟩
  · exact ⟨g1, rfl, m1⟩
  · exact ⟨g1, rfl, m1⟩

theorem doesR_get {γ δ} {m : RMem} {f : RMem → M RMem γ} {y : M Bytes δ} {R : Heap → γ → δ → Prop} (h2 : DoesR m (f m) y R) :
    DoesR m (M.get >>= f) y R := h2

theorem doesR_mem {α β} {m : RMem} {x : M Heap α} {r : Res β} {R : Heap → α → β → Prop} (hd : Does m.heap x r R) : DoesR m (onMem x) (M.lift r) R := by
  obtain ⟨g, hm⟩ := hd
  exact ⟨g, rfl, hm⟩

theorem doesR_rand {α} {m : RMem} (y : M Bytes α) : DoesR m (onRand y) y (fun h a b => h = m.heap ∧ a = b) := by
  unfold DoesR onRand
  generalize y m.rand = ym
  obtain ⟨o, r⟩ := ym
  refine ⟨.refl _, rfl, ?_⟩
  cases o <;> first | trivial | exact ⟨rfl, rfl⟩ | rfl

theorem doesR_alloc {γ δ} {m : RMem} (b : Bytes) {f : Slice → M RMem γ} {y : M Bytes δ} {R : Heap → γ → δ → Prop}
    (hf : ∀ m' x, At m'.heap x b → Made m.heap m'.heap [x] → DoesR m' (f x) y R) : DoesR m (onMem (allocBytes b) >>= f) y R := by
  obtain ⟨g, e, hm⟩ := hf ⟨m.heap ++ [b], m.rand⟩ ⟨m.heap.length, 0, b.length, b.length⟩ (At.last _ _) (parses_bytes b m.heap).1
  exact ⟨(Grows.append m.heap [b]).trans g, e, hm⟩

/-- The results of two computations without effects are related. -/
def ResRel {α β} (R : α → β → Prop) : Res α → Res β → Prop
  | .ok a, .ok b => R a b
  | .err e, .err e' => e = e'
  | .panic, .panic => True
  | _, _ => False

theorem doesR_lift {α β} {m : RMem} {r : Res α} {r' : Res β} {R : α → β → Prop} (hr : ResRel R r r') :
    DoesR m (M.lift r) (M.lift r') (fun h a b => h = m.heap ∧ R a b) := by
  refine ⟨.refl _, rfl, ?_⟩
  cases r <;> cases r' <;> simp only [ResRel] at hr <;> first | exact hr | exact ⟨rfl, hr⟩ | trivial

theorem ResRel.self {α} (r : Res α) : ResRel (fun a b => a = b) r r := by
  cases r <;> first | trivial | rfl

/-! ## The step of the ratchet -/

theorem UHolds.rootKey {n : Nat} {h : Heap} {s : StateOf Slice} {v : SState} (hs : UHolds n h s v) :
    ResRel (fun x r => At h x r.key) s.rootKeySlice v.getRootKey := by
  have hv := hs.valid s.rootKey (by simp [StateOf.places])
  rw [← hs.seen]
  unfold StateOf.rootKeySlice keySlice SState.getRootKey newRootKey
  simp only [StateOf.seen, len_of_valid hv]
  split
  · rfl
  · exact ⟨hv, rfl⟩

theorem UHolds.receiverChainKey {n : Nat} {h : Heap} {s : StateOf Slice} {v : SState} (hs : UHolds n h s v) (k : PubKey) :
    ResRel (fun a b => match a, b with
      | some ck, some w => KeyIs h ck w ∧ Current h s k ck
      | none, none => StateOf.findChainOf h k.bytes s.receiverChains 0 = none
      | _, _ => False) (s.receiverChainKeyRef h k) (v.receiverChainKey k) := by
  have hv := hs.find k
  unfold StateOf.receiverChainKeyRef SState.receiverChainKey
  cases hf : StateOf.findChainOf h k.bytes s.receiverChains 0 with
  | none =>
    rw [hf, Option.map_none] at hv
    rw [hv]
    rfl
  | some o =>
    obtain ⟨j, c⟩ := o
    rw [hf, Option.map_some] at hv
    rw [hv]
    have hat : s.receiverChains[j]? = some c := by simpa using (findChainOf_at hf).2
    simp only [ChainOf.seen]
    cases hc : c.chainKey with
    | none => rfl
    | some ck =>
      have hval := hs.valid ck.key (StateOf.receiver_place (List.mem_of_getElem? hat) hc)
      simp only [Option.map_some, Option.getD_some, ChainKeyOf.seen, chainKeyFromSlice, newChainKey, len_of_valid hval]
      split
      · rfl
      · exact ⟨⟨⟨hval, rfl⟩, rfl⟩, j, c, hf, hc⟩

theorem findChainOf_append {h : Heap} {key : Bytes} {cs : List (ChainOf Slice)} {c : ChainOf Slice} (i : Nat) (hf : StateOf.findChainOf h key cs i = none)
    (hc : h.read c.senderRatchetKey = key) : StateOf.findChainOf h key (cs ++ [c]) i = some (i + cs.length, c) := by
  induction cs generalizing i with
  | nil => simp [StateOf.findChainOf, hc]
  | cons d cs ih =>
    unfold StateOf.findChainOf at hf
    by_cases e : h.read d.senderRatchetKey = key
    · rw [if_pos e] at hf
      cases hf
    · rw [if_neg e] at hf
      simp only [List.cons_append, StateOf.findChainOf, if_neg e]
      rw [ih (i + 1) hf]
      simp only [List.length_cons]
      congr 2
      omega

theorem findChainOf_none {h : Heap} {key : Bytes} {cs : List (ChainOf Slice)} (i : Nat) :
    StateOf.findChainOf h key cs i = none ↔ ∀ c ∈ cs, h.read c.senderRatchetKey ≠ key := by
  induction cs generalizing i with
  | nil => simp [StateOf.findChainOf]
  | cons d cs ih =>
    unfold StateOf.findChainOf
    by_cases e : h.read d.senderRatchetKey = key
    · simp [e]
    · rw [if_neg e, ih]
      simp [e]

theorem Current.added {h : Heap} {s : StateOf Slice} {k : PubKey} {x y : Slice} {ck : ChainKeyRef}
    (hf : StateOf.findChainOf h k.bytes s.receiverChains 0 = none) (hx : h.read x = k.bytes) : Current h (s.addReceiverChainRef x y ck) k ck := by
  have hnone := (findChainOf_none 0).1 hf
  unfold Current StateOf.addReceiverChainRef
  dsimp only
  split
  · cases hcs : s.receiverChains with
    | nil => rename_i hl; simp [hcs, maxReceiverChains] at hl
    | cons d cs =>
      have h2 : StateOf.findChainOf h k.bytes cs 0 = none := (findChainOf_none 0).2 fun c hc => hnone c (by simp [hcs, hc])
      exact ⟨_, _, findChainOf_append 0 h2 (c := ⟨x, y, some ⟨ck.index, ck.key⟩, []⟩) hx, rfl⟩
  · exact ⟨_, _, findChainOf_append 0 hf (c := ⟨x, y, some ⟨ck.index, ck.key⟩, []⟩) hx, rfl⟩

theorem doesR_chainKeyFor (C : Crypto) (k : PubKey) (n : Nat) {m : RMem} {s : StateOf Slice} {v : SState} (hn : n ≤ m.heap.length)
    (hs : UHolds n m.heap s v) : DoesR m (chainKeyForRef C s k) (chainKeyFor C v k) (fun h' a b => UReady n h' a.2 b.2 k a.1 b.1) := by
  unfold chainKeyForRef chainKeyFor
  refine doesR_get ?_
  refine (doesR_lift (hs.receiverChainKey k)).bind fun m1 a b _ hab => ?_
  obtain ⟨e1, hab⟩ := hab
  cases a with
  | some ck =>
    cases b with
    | none => exact hab.elim
    | some w =>
      refine doesR_pure (UReady.of_current ?_ ?_ ?_)
      · rw [e1]; exact hs
      · rw [e1]; exact hab.1
      · rw [e1]; exact hab.2
  | none =>
    cases b with
    | some w => exact hab.elim
    | none =>
      replace hab : StateOf.findChainOf m.heap k.bytes s.receiverChains 0 = none := hab
      refine (doesR_lift hs.rootKey).bind fun m2 root r _ h2 => ?_
      rw [hs.seen]
      refine (doesR_lift (ResRel.self _)).bind fun m3 ours ours' _ h3 => ?_
      obtain ⟨e3, rfl⟩ := h3
      have e3' : m3.heap = m.heap := e3.trans (h2.1.trans e1)
      have hroot : At m3.heap root r.key := by rw [e3']; exact h2.2
      refine (doesR_mem (does_createChain C hroot ours k)).bind fun m4 p q g4 h4 => ?_
      obtain ⟨root1, receiving⟩ := p
      obtain ⟨rv1, wr⟩ := q
      refine (doesR_rand _).bind fun m5 pair pair' _ h5 => ?_
      obtain ⟨e5, rfl⟩ := h5
      have hroot1 : At m5.heap root1 rv1.key := by rw [e5]; exact h4.1
      refine (doesR_mem (does_createChain C hroot1 pair.priv k)).bind fun m6 p q g6 h6 => ?_
      obtain ⟨root2, sending⟩ := p
      obtain ⟨rv2, ws⟩ := q
      refine (doesR_lift (ResRel.self _)).bind fun m7 current current' _ h7 => ?_
      obtain ⟨e7, rfl⟩ := h7
      refine doesR_alloc k.bytes fun m8 ratchet h8 M8 => ?_
      refine doesR_alloc [] fun m9 priv0 h9 M9 => ?_
      refine doesR_alloc pair.pub.bytes fun m10 pub h10 M10 => ?_
      refine doesR_alloc pair.priv.bytes fun m11 priv h11 M11 => ?_
      have M4 : Made m.heap m4.heap [root1, receiving.key] := e3' ▸ h4.2.2
      have M6 : Made m4.heap m6.heap [root2, sending.key] := e5 ▸ h6.2.2
      rw [e7] at M8
      have G10 := M11.grows
      have G9 := M10.grows.trans G10
      have G8 := M9.grows.trans G9
      have G6 := M8.grows.trans G8
      have G4 := M6.grows.trans G6
      have MM := M4.append (M6.append (M8.append (M9.append (M10.append M11))))
      have hg := (hs.grows MM.grows)
      have hrec : KeyIs m11.heap receiving wr := h4.2.1.grows G4
      have hsend : KeyIs m11.heap sending ws := h6.2.1.grows G6
      have hr2 : At m11.heap root2 rv2.key := h6.1.grows G6
      have hrat := h8.grows G8
      have hp0 := h9.grows G9
      have hpub := h10.grows G10
      refine doesR_pure ?_
      refine UReady.of_current (hs.made MM hn (subperm_of_count fun a => ?_) ?_) hrec (Current.added ((hs.find_grows MM.grows _).trans hab) hrat.2)
      · have c2 : ∀ x y : Slice, [x, y].count a = [x].count a + [y].count a := fun x y => List.count_append (l₁ := [x]) (l₂ := [y])
        have c3 : ∀ x y z : Slice, (ChainOf.places ⟨x, y, some ⟨0, z⟩, []⟩).count a = [x].count a + [y].count a + [z].count a := by
          intro x y z
          rw [ChainOf.count_places]
          simp [ChainKeyOf.places]
        have hrc : ((if (s.receiverChains ++ [(⟨ratchet, priv0, some ⟨receiving.index, receiving.key⟩, []⟩ : ChainOf Slice)]).length > maxReceiverChains
              then (s.receiverChains ++ [(⟨ratchet, priv0, some ⟨receiving.index, receiving.key⟩, []⟩ : ChainOf Slice)]).drop 1
              else s.receiverChains ++ [(⟨ratchet, priv0, some ⟨receiving.index, receiving.key⟩, []⟩ : ChainOf Slice)]).flatMap ChainOf.places).count a ≤
            (s.receiverChains.flatMap ChainOf.places).count a + ([ratchet].count a + [priv0].count a + [receiving.key].count a) := by
          have h1 : ((s.receiverChains ++ [(⟨ratchet, priv0, some ⟨receiving.index, receiving.key⟩, []⟩ : ChainOf Slice)]).flatMap ChainOf.places).count a =
              (s.receiverChains.flatMap ChainOf.places).count a + ([ratchet].count a + [priv0].count a + [receiving.key].count a) := by
            rw [List.flatMap_append, List.count_append, ← c3]
            simp [ChainOf.places, ChainKeyOf.places]
          have h2 := count_drop ChainOf.places (s.receiverChains ++ [(⟨ratchet, priv0, some ⟨receiving.index, receiving.key⟩, []⟩ : ChainOf Slice)]) 1 a
          split <;> omega
        have hsc : (((some ⟨pub, priv, some ⟨sending.index, sending.key⟩, []⟩ : Option (ChainOf Slice)).toList.flatMap ChainOf.places)).count a =
            [pub].count a + [priv].count a + [sending.key].count a := by
          rw [← c3]
          simp [ChainOf.places, ChainKeyOf.places]
        rw [List.count_append, StateOf.count_places, StateOf.count_places]
        simp only [List.count_append, c2]
        simp only [StateOf.setSenderChainRef, StateOf.addReceiverChainRef]
        omega
      · rw [← hg.seen]
        have ec : ((⟨ratchet, priv0, some ⟨receiving.index, receiving.key⟩, []⟩ : ChainOf Slice).seen m11.heap) =
            { senderRatchetKey := k.bytes, chainKey := some { index := wr.index, key := wr.key } } := by
          simp only [ChainOf.seen, hrat.2, hp0.2, Option.map_some, ChainKeyOf.seen, hrec.1.2, hrec.2, List.map_nil]
        have es : ((⟨pub, priv, some ⟨sending.index, sending.key⟩, []⟩ : ChainOf Slice).seen m11.heap) =
            { senderRatchetKey := pair.pub.bytes, senderRatchetKeyPrivate := pair.priv.bytes, chainKey := some { index := ws.index, key := ws.key } } := by
          simp only [ChainOf.seen, hpub.2, h11.2, Option.map_some, ChainKeyOf.seen, hsend.1.2, hsend.2, List.map_nil]
        simp only [StateOf.seen, StateOf.setSenderChainRef, StateOf.addReceiverChainRef, SState.setSenderChain, SState.addReceiverChain, Option.map_some, es, hr2.2,
          List.length_append, List.length_map, List.length_cons, List.length_nil]
        by_cases hl : s.receiverChains.length + (0 + 1) > maxReceiverChains
        · simp only [if_pos hl, List.map_drop, List.map_append, List.map_cons, List.map_nil, ec]
        · simp only [if_neg hl, List.map_append, List.map_cons, List.map_nil, ec]

theorem UHolds.clear {n : Nat} {h : Heap} {s : StateOf Slice} {v : SState} (hs : UHolds n h s v) (hn : n ≤ h.length) :
    UHolds n h { s with pendingPreKey := none } v.clearUnacknowledgedPreKeyMessage := by
  refine hs.made (news := []) (.nil h) hn (subperm_of_count fun a => ?_) ?_
  · rw [List.append_nil, StateOf.count_places, StateOf.count_places]
    simp
  · rw [← hs.seen]
    rfl

theorem M.lift_bind {σ α β} (r : Res α) (g : α → Res β) : (M.lift (r >>= g) : M σ β) = M.lift r >>= fun a => M.lift (g a) := by
  cases r <;> rfl

theorem doesR_lift' {α β} {m : RMem} {r : Res α} {r' : Res β} {R : Heap → α → β → Prop} (hr : ResRel (R m.heap) r r') :
    DoesR m (M.lift r) (M.lift r') R := by
  refine ⟨.refl _, rfl, ?_⟩
  cases r <;> cases r' <;> simp only [ResRel] at hr <;> first | exact hr | trivial

/-- Receiving over memory is receiving over values, and the new state lies in new arrays. -/
theorem doesR_decrypt (C : Crypto) (c : Signal) {m : RMem} {s : StateOf Slice} :
    DoesR m (decryptStateRef C s c) (decryptMessageSession C (s.seen m.heap) c) (fun h' a b => a.1 = b.1 ∧ UHolds m.heap.length h' a.2 b.2) := by
  obtain ⟨hm, hseen⟩ := parses_state (s.seen m.heap) m.heap
  unfold decryptStateRef
  refine doesR_get ?_
  generalize s.seen m.heap = v at hm hseen ⊢
  have start : ∀ {γ δ : Type} {R : Heap → γ → δ → Prop} {f : StateOf Slice → M RMem γ} {y : M Bytes δ},
      DoesR ⟨(newStateBytes v m.heap).2, m.rand⟩ (f (newStateBytes v m.heap).1) y R →
      DoesR m (onMem (fun h => (.ok (newStateBytes v h).1, (newStateBytes v h).2)) >>= f) y R := by
    intro γ δ R f y hf
    obtain ⟨g, e, hr⟩ := hf
    exact ⟨hm.grows.trans g, e, hr⟩
  refine start ?_
  generalize newStateBytes v m.heap = z at hm hseen
  obtain ⟨s1, h1⟩ := z
  dsimp only at hm hseen ⊢
  have hs : UHolds m.heap.length h1 s1 v := ⟨hseen, fun p hp => (hm.fresh p hp).2, fun p hp => (hm.fresh p hp).1, hm.apart⟩
  have hn : m.heap.length ≤ h1.length := hm.grows.1
  have hc : v.senderChain = s1.senderChain.map (ChainOf.seen h1) := by rw [← hseen]; rfl
  unfold decryptMessageSession
  cases hsc : s1.senderChain with
  | none =>
    rw [hsc, Option.map_none] at hc
    rw [hc]
    exact doesR_throw
  | some chain =>
    rw [hsc, Option.map_some] at hc
    rw [hc]
    refine doesR_get ?_
    dsimp only
    rw [hseen]
    by_cases hver : c.version.toUInt32 ≠ v.version
    · rw [if_pos hver, if_pos hver]
      exact doesR_throw
    · rw [if_neg hver, if_neg hver]
      refine (doesR_chainKeyFor C c.senderRatchetKey m.heap.length (m := ⟨h1, m.rand⟩) hn hs).bind fun m2 a b g2 r2 => ?_
      obtain ⟨ck, s2⟩ := a
      obtain ⟨w, v2⟩ := b
      have hn2 := Nat.le_trans hn g2.1
      dsimp only
      rw [M.lift_bind]
      refine (doesR_mem (does_messageKeysFor C c.senderRatchetKey c.counter m.heap.length hn2 r2)).bind fun m3 a b g3 r3 => ?_
      obtain ⟨mk, s3⟩ := a
      obtain ⟨u, v3⟩ := b
      have hn3 := Nat.le_trans hn2 g3.1
      obtain ⟨hk, hs3⟩ := r3
      replace hk : KeysAre m3.heap mk u := hk
      replace hs3 : UHolds m.heap.length m3.heap s3 v3 := hs3
      refine doesR_get ?_
      dsimp only
      rw [hs3.seen, hk.1.2, hk.2.1.2, hk.2.2.1.2]
      refine doesR_lift' ?_
      cases v3.remoteIdentityKey with
      | err e => rfl
      | panic => trivial
      | ok o =>
        cases o with
        | none => rfl
        | some theirs =>
          simp only [Res.bind_ok]
          cases v3.localIdentityKey with
          | err e => rfl
          | panic => trivial
          | ok l =>
            simp only [Res.bind_ok]
            cases c.verifyMAC C u.macKey theirs l with
            | err e => rfl
            | panic => trivial
            | ok b =>
              cases b with
              | false => rfl
              | true =>
                simp only [Res.bind_ok, if_true]
                cases cbcDecrypt C u.cipherKey u.iv c.ciphertext with
                | err e => rfl
                | panic => trivial
                | ok p => exact ⟨rfl, hs3.clear hn3⟩

theorem encryptState_next (C : Crypto) {v v' : SState} {plaintext : Bytes} {c : Ciphertext} {theirs : PubKey}
    (he : encryptState C v plaintext = .ok (c, v', theirs)) : ∃ w, v.senderChainKey = .ok w ∧ v' = v.setSenderChainKey (w.next C) := by
  unfold encryptState at he
  obtain ⟨w, hw, he⟩ := Res.bind_eq_ok.1 he
  refine ⟨w, hw, ?_⟩
  obtain ⟨_, _, he⟩ := Res.bind_eq_ok.1 he
  obtain ⟨_, _, he⟩ := Res.bind_eq_ok.1 he
  obtain ⟨o, _, he⟩ := Res.bind_eq_ok.1 he
  cases o with
  | none => cases he
  | some k =>
    obtain ⟨_, _, he⟩ := Res.bind_eq_ok.1 he
    obtain ⟨_, _, he⟩ := Res.bind_eq_ok.1 he
    obtain ⟨_, _, he⟩ := Res.bind_eq_ok.1 he
    have := Res.ok.inj he
    simp only [Prod.mk.injEq] at this
    exact this.2.1.symm

/-- Sending over memory is sending over values: one new array, the next chain key. -/
theorem does_use_encrypt (C : Crypto) (plaintext : Bytes) {n : Nat} {h : Heap} {s : StateOf Slice} {v : SState} (hs : UHolds n h s v) (hn : n ≤ h.length) :
    Does h (encryptStateRef C s plaintext) (encryptState C v plaintext) (fun h' a b => a.1 = b.1 ∧ UHolds n h' a.2 b.2.1 ∧
      ∃ chain k x, s.senderChain = some chain ∧ chain.chainKey = some k ∧ k.key.len = 32 ∧ Made h h' [x.key] ∧ a.2 = s.setSenderChainKeyRef chain x) := by
  unfold Does encryptStateRef
  rw [hs.seen]
  cases he : encryptState C v plaintext with
  | err e => exact ⟨.refl h, rfl⟩
  | panic => exact ⟨.refl h, trivial⟩
  | ok o =>
    obtain ⟨c, v', theirs⟩ := o
    obtain ⟨w, hw, rfl⟩ := encryptState_next C he
    have hc : v.senderChain = s.senderChain.map (ChainOf.seen h) := by rw [← hs.seen]; rfl
    unfold SState.senderChainKey at hw
    rw [hc] at hw
    cases hsc : s.senderChain with
    | none => rw [hsc] at hw; cases hw
    | some chain =>
      rw [hsc] at hw hc
      simp only [Option.map_some, ChainOf.seen] at hw
      cases hk : chain.chainKey with
      | none => rw [hk] at hw; cases hw
      | some k =>
        rw [hk] at hw
        simp only [Option.map_some, ChainKeyOf.seen, newChainKey] at hw
        have vk := hs.valid k.key (StateOf.sender_place hsc hk)
        rw [len_of_valid vk] at hw
        by_cases hl : k.key.len = 32
        · rw [if_neg (by omega)] at hw
          obtain rfl := Res.ok.inj hw
          obtain ⟨g, hx⟩ := does_use_next C (c := ⟨k.key, k.index⟩) (v := ⟨h.read k.key, k.index⟩) ⟨⟨vk, rfl⟩, rfl⟩
          simp only [hk]
          rw [M.bind_run]
          generalize ChainKeyRef.next C ⟨k.key, k.index⟩ h = z at g hx
          obtain ⟨x, h'⟩ := z
          cases x with
          | err e => exact hx.elim
          | panic => exact hx.elim
          | ok x =>
            obtain ⟨hx, hm⟩ := hx
            replace hm : Made h h' [x.key] := hm
            replace hx : KeyIs h' x (ChainKey.next C ⟨h.read k.key, k.index⟩) := hx
            refine ⟨g, rfl, hs.made hm hn (subperm_of_count fun a => ?_) ?_, chain, k, x, rfl, hk, hl, hm, rfl⟩
            · show (s.setSenderChainKeyRef chain x).places.count a ≤ _
              rw [List.count_append, StateOf.count_places, StateOf.count_places]
              simp only [StateOf.setSenderChainKeyRef, hsc, Option.toList_some, List.flatMap_cons, List.flatMap_nil, List.append_nil]
              rw [ChainOf.count_places, ChainOf.count_places]
              simp only [Option.toList_some, List.flatMap_cons, List.flatMap_nil, List.append_nil, ChainKeyOf.places]
              omega
            · have hg := (hs.grows g).seen
              have hcg : (chain.seen h') = chain.seen h := by
                have := congrArg SState.senderChain (hg.trans hs.seen.symm)
                simpa [StateOf.seen, hsc] using this
              show (s.setSenderChainKeyRef chain x).seen h' = v.setSenderChainKey _
              rw [SState.setSenderChainKey, hc, Option.map_some, ← hcg, ← hg]
              simp only [StateOf.seen, StateOf.setSenderChainKeyRef, Option.map_some, ChainOf.seen, ChainKeyOf.seen]
              rw [hx.1.2, hx.2]
        · rw [if_pos hl] at hw
          cases hw

end Verif
