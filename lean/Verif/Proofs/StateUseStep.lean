import Verif.Proofs.StateUse

namespace Verif

/-! ## Chains of a state in memory -/

theorem UHolds.find {n : Nat} {h : Heap} {s : StateOf Slice} {v : SState} (hs : UHolds n h s v) (k : PubKey) :
    v.receiverChain k = (StateOf.findChainOf h k.bytes s.receiverChains 0).map fun o => (o.1, o.2.seen h) := by
  rw [← hs.seen]
  simp only [SState.receiverChain, StateOf.seen, findChain_seen]

theorem UHolds.find_grows {n : Nat} {h h' : Heap} {s : StateOf Slice} {v : SState} (hs : UHolds n h s v) (g : Grows h h') (key : Bytes) :
    StateOf.findChainOf h' key s.receiverChains 0 = StateOf.findChainOf h key s.receiverChains 0 := by
  refine findChainOf_congr key s.receiverChains 0 (List.map_congr_left fun c hc => (g.read (hs.valid _ ?_)).symm)
  unfold StateOf.places
  have : c.senderRatchetKey ∈ s.receiverChains.flatMap ChainOf.places := List.mem_flatMap.2 ⟨c, hc, by simp [ChainOf.places]⟩
  simp only [List.mem_append]
  simp [this]

theorem findChainOf_set {h : Heap} {key : Bytes} {cs : List (ChainOf Slice)} {i j : Nat} {c c' : ChainOf Slice}
    (hf : StateOf.findChainOf h key cs i = some (j, c)) (hc : c'.senderRatchetKey = c.senderRatchetKey) :
    StateOf.findChainOf h key (cs.set (j - i) c') i = some (j, c') := by
  induction cs generalizing i with
  | nil => simp [StateOf.findChainOf] at hf
  | cons d cs ih =>
    have hij := (findChainOf_at hf).1
    unfold StateOf.findChainOf at hf
    by_cases e : h.read d.senderRatchetKey = key
    · rw [if_pos e] at hf
      simp only [Option.some.injEq, Prod.mk.injEq] at hf
      obtain ⟨rfl, rfl⟩ := hf
      simp only [Nat.sub_self, List.set_cons_zero, StateOf.findChainOf, hc, if_pos e]
    · rw [if_neg e] at hf
      have h1 := (findChainOf_at hf).1
      have h2 := ih hf
      rw [show j - i = (j - (i + 1)) + 1 from by omega, List.set_cons_succ]
      simp only [StateOf.findChainOf, if_neg e, h2]

theorem UHolds.setChain {n : Nat} {h h' : Heap} {s : StateOf Slice} {v : SState} (hs : UHolds n h s v) {news : List Slice} (hm : Made h h' news)
    (hn : n ≤ h.length) {j : Nat} {c c' : ChainOf Slice} (hc : s.receiverChains[j]? = some c)
    (hp : ∀ a, c'.places.count a ≤ c.places.count a + news.count a) : UHolds n h' (s.setChain j c') ((s.setChain j c').seen h') := by
  refine hs.made hm hn (subperm_of_count fun a => ?_) rfl
  have h1 := count_set_chain s.receiverChains j c c' hc a
  have h2 := hp a
  rw [List.count_append, StateOf.count_places, StateOf.count_places]
  simp only [StateOf.setChain]
  omega

/-- The chain of a sender has this chain key. -/
def Current (h : Heap) (s : StateOf Slice) (k : PubKey) (ck : ChainKeyRef) : Prop :=
  ∃ j c, StateOf.findChainOf h k.bytes s.receiverChains 0 = some (j, c) ∧ c.chainKey = some ⟨ck.index, ck.key⟩

/-- The state stays a good one if this key becomes the chain key of the sender. -/
structure UReady (n : Nat) (h : Heap) (s : StateOf Slice) (v : SState) (k : PubKey) (ck : ChainKeyRef) (w : ChainKey) : Prop where
  holds : UHolds n h s v
  key : KeyIs h ck w
  next : ∃ j c, StateOf.findChainOf h k.bytes s.receiverChains 0 = some (j, c) ∧
    UHolds n h (s.setChain j { c with chainKey := some ⟨ck.index, ck.key⟩ }) ((s.setChain j { c with chainKey := some ⟨ck.index, ck.key⟩ }).seen h)

theorem UReady.of_current {n : Nat} {h : Heap} {s : StateOf Slice} {v : SState} {k : PubKey} {ck : ChainKeyRef} {w : ChainKey} (hs : UHolds n h s v)
    (hk : KeyIs h ck w) (hc : Current h s k ck) : UReady n h s v k ck w := by
  obtain ⟨j, c, hf, hck⟩ := hc
  refine ⟨hs, hk, j, c, hf, ?_⟩
  have hat : s.receiverChains[j]? = some c := by simpa using (findChainOf_at hf).2
  have e1 : ({ c with chainKey := some ⟨ck.index, ck.key⟩ } : ChainOf Slice) = c := by rw [← hck]
  have e2 : s.setChain j c = s := by
    obtain ⟨hl, hg⟩ := List.getElem?_eq_some_iff.1 hat
    have : s.receiverChains.set j c = s.receiverChains := by rw [← hg]; exact List.set_getElem_self hl
    simp only [StateOf.setChain, this]
  rw [e1, e2, hs.seen]
  exact hs

theorem UReady.withKey {n : Nat} {h h' : Heap} {s : StateOf Slice} {v : SState} {k : PubKey} {ck ck' : ChainKeyRef} {w w' : ChainKey}
    (r : UReady n h s v k ck w) (hn : n ≤ h.length) (hm : Made h h' [ck'.key]) (hk : KeyIs h' ck' w') : UReady n h' s v k ck' w' := by
  obtain ⟨j, c, hf, -⟩ := r.next
  have hat : s.receiverChains[j]? = some c := by simpa using (findChainOf_at hf).2
  refine ⟨r.holds.grows hm.grows, hk, j, c, (r.holds.find_grows hm.grows _).trans hf, r.holds.setChain hm hn hat fun a => ?_⟩
  rw [ChainOf.count_places, ChainOf.count_places]
  simp only [Option.toList_some, List.flatMap_cons, List.flatMap_nil, List.append_nil, ChainKeyOf.places]
  omega

theorem UReady.withKeys {n : Nat} {h h' : Heap} {s : StateOf Slice} {v : SState} {k : PubKey} {ck : ChainKeyRef} {w : ChainKey} {mk : MessageKeysRef} {u : MessageKeys}
    (r : UReady n h s v k ck w) (hn : n ≤ h.length) (hm : Made h h' [mk.cipherKey, mk.macKey, mk.iv]) (hk : KeysAre h' mk u) :
    ∃ s' v', s.setMessageKeysRef h' k mk = .ok s' ∧ v.setMessageKeys k u = .ok v' ∧ UReady n h' s' v' k ck w := by
  obtain ⟨j, c, hf, hnx⟩ := r.next
  have hat : s.receiverChains[j]? = some c := by simpa using (findChainOf_at hf).2
  have hf' := (r.holds.find_grows hm.grows k.bytes).trans hf
  have hv := (r.holds.grows hm.grows).find k
  rw [hf', Option.map_some] at hv
  have hlt := (List.getElem?_eq_some_iff.1 hat).1
  generalize hks : (if (c.messageKeys ++ [(⟨mk.counter, mk.cipherKey, mk.macKey, mk.iv⟩ : MessageKeyOf Slice)]).length > maxMessageKeys
      then (c.messageKeys ++ [(⟨mk.counter, mk.cipherKey, mk.macKey, mk.iv⟩ : MessageKeyOf Slice)]).drop 1
      else c.messageKeys ++ [(⟨mk.counter, mk.cipherKey, mk.macKey, mk.iv⟩ : MessageKeyOf Slice)]) = ks
  have hcount : ∀ a, (ks.flatMap MessageKeyOf.places).count a ≤ (c.messageKeys.flatMap MessageKeyOf.places).count a + [mk.cipherKey, mk.macKey, mk.iv].count a := by
    intro a
    have h1 : ((c.messageKeys ++ [(⟨mk.counter, mk.cipherKey, mk.macKey, mk.iv⟩ : MessageKeyOf Slice)]).flatMap MessageKeyOf.places).count a =
        (c.messageKeys.flatMap MessageKeyOf.places).count a + [mk.cipherKey, mk.macKey, mk.iv].count a := by
      rw [List.flatMap_append, List.count_append]
      rfl
    have h2 := count_drop MessageKeyOf.places (c.messageKeys ++ [(⟨mk.counter, mk.cipherKey, mk.macKey, mk.iv⟩ : MessageKeyOf Slice)]) 1 a
    rw [← hks]
    split <;> omega
  have hH : UHolds n h' (s.setChain j { c with messageKeys := ks }) ((s.setChain j { c with messageKeys := ks }).seen h') := by
    refine r.holds.setChain hm hn hat fun a => ?_
    have := hcount a
    rw [ChainOf.count_places, ChainOf.count_places]
    dsimp only
    omega
  refine ⟨s.setChain j { c with messageKeys := ks }, _, ?_, ?_, ⟨hH, r.key.grows hm.grows, ?_⟩⟩
  · simp only [StateOf.setMessageKeysRef, hf']
    rw [hks]
  · simp only [SState.setMessageKeys, hv]
    congr 1
    rw [← (r.holds.grows hm.grows).seen]
    simp only [StateOf.seen, StateOf.setChain, List.map_set]
    congr 2
    simp only [ChainOf.seen]
    congr 1
    rw [← hks]
    simp only [List.length_append, List.length_map, List.length_cons, List.length_nil]
    have e : ((⟨mk.counter, mk.cipherKey, mk.macKey, mk.iv⟩ : MessageKeyOf Slice).seen h') = { index := u.counter, cipherKey := u.cipherKey, macKey := u.macKey, iv := u.iv } := by
      simp only [MessageKeyOf.seen]
      rw [hk.1.2, hk.2.1.2, hk.2.2.1.2, hk.2.2.2]
    split <;> simp only [List.map_drop, List.map_append, List.map_cons, List.map_nil, e]
  · refine ⟨j, { c with messageKeys := ks }, ?_, ?_⟩
    · have := findChainOf_set (c' := { c with messageKeys := ks }) hf' rfl
      rw [Nat.sub_zero] at this
      exact this
    · have hat2 : (s.setChain j { c with chainKey := some ⟨ck.index, ck.key⟩ }).receiverChains[j]? = some { c with chainKey := some ⟨ck.index, ck.key⟩ } := by
        simp [StateOf.setChain, hlt]
      have := hnx.setChain hm hn hat2 (c' := { c with messageKeys := ks, chainKey := some ⟨ck.index, ck.key⟩ }) fun a => by
        have := hcount a
        rw [ChainOf.count_places, ChainOf.count_places]
        dsimp only
        omega
      have e : (s.setChain j { c with chainKey := some ⟨ck.index, ck.key⟩ }).setChain j { c with messageKeys := ks, chainKey := some ⟨ck.index, ck.key⟩ } =
          (s.setChain j { c with messageKeys := ks }).setChain j { c with messageKeys := ks, chainKey := some ⟨ck.index, ck.key⟩ } := by
        simp [StateOf.setChain]
      rw [e] at this
      exact this

theorem UReady.set {n : Nat} {h : Heap} {s : StateOf Slice} {v : SState} {k : PubKey} {ck : ChainKeyRef} {w : ChainKey} (r : UReady n h s v k ck w) :
    ∃ s' v', s.setReceiverChainKeyRef h k ck = .ok s' ∧ v.setReceiverChainKey k w = .ok v' ∧ UHolds n h s' v' := by
  obtain ⟨j, c, hf, hnx⟩ := r.next
  have hv := r.holds.find k
  rw [hf, Option.map_some] at hv
  refine ⟨_, _, by simp only [StateOf.setReceiverChainKeyRef, hf], ?_, hnx⟩
  simp only [SState.setReceiverChainKey, hv]
  congr 1
  rw [← r.holds.seen]
  simp only [StateOf.seen, StateOf.setChain, List.map_set, ChainOf.seen, Option.map_some, ChainKeyOf.seen]
  rw [r.key.1.2, r.key.2]

/-! ## The loop -/

theorem does_use_skip (C : Crypto) (k : PubKey) (counter : UInt32) (n fuel : Nat) {h : Heap} {s : StateOf Slice} {v : SState} {ck : ChainKeyRef} {w : ChainKey}
    (hn : n ≤ h.length) (r : UReady n h s v k ck w) :
    Does h (skipLoopRef C k counter fuel ck s) (skipLoop C k counter fuel w v) (fun h' a b => UReady n h' a.2 b.2 k a.1 b.1) := by
  induction fuel generalizing h s v ck w with
  | zero => exact Does.pure r
  | succ fuel ih =>
    simp only [skipLoopRef, skipLoop, r.key.2]
    by_cases e : w.index < counter
    · rw [if_pos e, if_pos e]
      have h1 : (v.setMessageKeys k (w.messageKeys C) >>= fun s' => skipLoop C k counter fuel (w.next C) s') =
          (Res.ok (w.messageKeys C) >>= fun u => v.setMessageKeys k u >>= fun s' => Res.ok (w.next C) >>= fun w' => skipLoop C k counter fuel w' s') := rfl
      rw [h1]
      refine (does_messageKeys C r.key).bind fun h1 mk u g1 hu => Does.get ?_
      obtain ⟨s', v', e1, e2, r'⟩ := r.withKeys hn hu.2 hu.1
      rw [e1, e2]
      have hn1 := Nat.le_trans hn g1.1
      show Does h1 (ck.next C >>= fun next => skipLoopRef C k counter fuel next s') _ _
      simp only [Res.bind_ok]
      have h2 : skipLoop C k counter fuel (w.next C) v' = (Res.ok (w.next C) >>= fun w' => skipLoop C k counter fuel w' v') := rfl
      rw [h2]
      exact (does_use_next C r'.key).bind fun h2 ck' w' g2 hw => ih (Nat.le_trans hn1 g2.1) (r'.withKey hn1 hw.2 hw.1)
    · rw [if_neg e, if_neg e]
      exact Does.pure r

/-! ## Stored message keys -/

theorem UHolds.take {n : Nat} {h : Heap} {s : StateOf Slice} {v : SState} (hs : UHolds n h s v) (k : PubKey) (i : UInt32) :
    match s.messageKeySlices h k i, v.takeMessageKeys k i with
    | (.ok (some q), s'), .ok (some w, v') => KeysAre h ⟨q.1, q.2.1, q.2.2, i⟩ w ∧ UHolds n h s' v'
    | (.ok none, _), .ok (none, _) => True
    | (.err e, _), .err e' => e = e'
    | _, _ => False := by
  have hv := hs.find k
  unfold StateOf.messageKeySlices SState.takeMessageKeys
  cases hf : StateOf.findChainOf h k.bytes s.receiverChains 0 with
  | none =>
    rw [hf, Option.map_none] at hv
    rw [hv]
    trivial
  | some o =>
    obtain ⟨j, c⟩ := o
    rw [hf, Option.map_some] at hv
    rw [hv]
    have hat : s.receiverChains[j]? = some c := by simpa using (findChainOf_at hf).2
    have hl : ((c.seen h).messageKeys.filter fun k => k.index = i).getLast? =
        ((c.messageKeys.filter fun k => k.index = i).getLast?).map (MessageKeyOf.seen h) := by
      simp only [ChainOf.seen, List.filter_map, List.getLast?_map]
      rfl
    simp only [hl]
    cases hk : (c.messageKeys.filter fun k => k.index = i).getLast? with
    | none => trivial
    | some q =>
      have hq := List.mem_of_getLast? hk
      have hperm := s.places_without i hat
      have hval : ∀ x ∈ q.places, h.Valid x := fun x hx =>
        hs.valid x (hperm.mem_iff.2 (List.mem_append_right _ (List.mem_flatMap.2 ⟨q, hq, hx⟩)))
      have v1 := hval q.cipherKey (by simp [MessageKeyOf.places])
      have v2 := hval q.macKey (by simp [MessageKeyOf.places])
      have v3 := hval q.iv (by simp [MessageKeyOf.places])
      simp only [Option.map_some, MessageKeyOf.seen, newMessageKeys, len_of_valid v1, len_of_valid v2, len_of_valid v3]
      by_cases e1 : q.cipherKey.len = 32
      · by_cases e2 : q.macKey.len = 32
        · by_cases e3 : q.iv.len = 16
          · simp only [e1, e2, e3, ne_eq, not_true, if_false]
            refine ⟨⟨⟨v1, rfl⟩, ⟨v2, rfl⟩, ⟨v3, rfl⟩, rfl⟩, ?_⟩
            have hH : UHolds n h (s.without j c i) ((s.without j c i).seen h) :=
              hs.made (news := []) (.nil h) (Nat.le_of_lt (Nat.lt_of_le_of_lt (hs.fresh s.rootKey (by simp [StateOf.places])) (hs.valid s.rootKey (by simp [StateOf.places])).1))
                (subperm_of_count fun a => by
                  have := hperm.count_eq a
                  rw [List.count_append] at this
                  simp only [List.append_nil]
                  omega) rfl
            refine ⟨?_, hH.valid, hH.fresh, hH.apart⟩
            rw [← hs.seen]
            simp only [StateOf.seen, List.map_set, ChainOf.seen, List.filter_map]
            rfl
          · simp only [e1, e2, e3, ne_eq, not_true, if_false, not_false_iff, if_true]
            rfl
        · simp only [e1, e2, ne_eq, not_true, if_false, not_false_iff, if_true]
          rfl
      · simp only [e1, ne_eq, not_false_iff, if_true]
        rfl

theorem messageKeysFor_eq (C : Crypto) (v : SState) (k : PubKey) (w : ChainKey) (counter : UInt32) : messageKeysFor C v k w counter =
    if w.index > counter then (do
      let found ← v.takeMessageKeys k counter
      match found.1 with
      | some u => return (u, found.2)
      | none => .err .duplicateMessage)
    else (do
      let _ ← (if counter - w.index > maxJumps then do
          let withSelf ← v.sessionWithSelf
          if withSelf then .ok () else .err .tooFarInFuture
        else .ok () : Res Unit)
      let out ← skipLoop C k counter (counter.toNat - w.index.toNat) w v
      let v ← out.2.setReceiverChainKey k out.1
      return (out.1.messageKeys C, v)) := by
  unfold messageKeysFor
  split
  · rfl
  · by_cases hj : counter - w.index > maxJumps
    · simp only [if_pos hj]
      cases v.sessionWithSelf with
      | ok b => cases b <;> rfl
      | err e => rfl
      | panic => rfl
    · simp only [if_neg hj]
      rfl

theorem does_messageKeysFor (C : Crypto) (k : PubKey) (counter : UInt32) (n : Nat) {h : Heap} {s : StateOf Slice} {v : SState} {ck : ChainKeyRef} {w : ChainKey}
    (hn : n ≤ h.length) (r : UReady n h s v k ck w) :
    Does h (messageKeysForRef C s k ck counter) (messageKeysFor C v k w counter) (fun h' a b => KeysAre h' a.1 b.1 ∧ UHolds n h' a.2 b.2) := by
  rw [messageKeysFor_eq]
  unfold messageKeysForRef
  refine Does.get ?_
  rw [r.key.2]
  by_cases e : w.index > counter
  · rw [if_pos e, if_pos e]
    have ht := r.holds.take k counter
    generalize s.messageKeySlices h k counter = x at ht
    generalize v.takeMessageKeys k counter = y at ht
    obtain ⟨x, s'⟩ := x
    cases x with
    | ok o =>
      cases o with
      | none =>
        cases y with
        | ok y =>
          obtain ⟨y, v'⟩ := y
          cases y with
          | none => exact Does.throw
          | some _ => exact ht.elim
        | _ => exact ht.elim
      | some q =>
        cases y with
        | ok y =>
          obtain ⟨y, v'⟩ := y
          cases y with
          | none => exact ht.elim
          | some _ => exact Does.pure ht
        | _ => exact ht.elim
    | err e =>
      cases y with
      | err e' =>
        subst ht
        exact Does.throw
      | _ => exact ht.elim
    | panic => cases y <;> exact ht.elim
  · rw [if_neg e, if_neg e, r.holds.seen]
    have hl : ∀ x : Res Unit, Does h (M.lift x) x (fun h' _ _ => h' = h) := by
      intro x
      cases x <;> exact ⟨.refl h, by first | trivial | rfl⟩
    refine (hl _).bind fun h' _ _ _ eh => ?_
    subst eh
    refine (does_use_skip C k counter n _ hn r).bind fun h1 a b g1 r1 => Does.get ?_
    obtain ⟨s', v', e1, e2, hH⟩ := r1.set
    rw [e1, e2]
    show Does h1 (a.1.messageKeys C >>= fun keys => pure (keys, s')) (Res.ok (b.1.messageKeys C) >>= fun u => Res.ok (u, v')) _
    exact (does_messageKeys C r1.key).bind fun h2 mk u g2 hu => Does.pure ⟨hu.1, hH.grows g2⟩

end Verif
