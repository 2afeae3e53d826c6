import Verif.Proofs.StateBytesRun

namespace Verif

theorem keySlice_ok {x y : Slice} (h : keySlice x = .ok y) : y = x ∧ x.len = 32 := by
  unfold keySlice at h
  by_cases hx : x.len = 32
  · simp [hx] at h
    exact ⟨h.symm, hx⟩
  · simp [hx] at h

theorem rootKey_value {h : Heap} {x : Slice} (hx : h.Valid x) :
    (newRootKey (h.read x) >>= fun r => Res.ok (some r.key)) = (keySlice x >>= fun y => Res.ok (some (h.read y))) := by
  unfold newRootKey keySlice
  rw [len_of_valid hx]
  by_cases e : x.len = 32 <;> simp [e]

theorem chainKey_value {h : Heap} {x : Slice} (i : UInt32) (hx : h.Valid x) :
    (newChainKey (h.read x) i >>= fun r => Res.ok (some r.key)) = (keySlice x >>= fun y => Res.ok (some (h.read y))) := by
  unfold newChainKey keySlice
  rw [len_of_valid hx]
  by_cases e : x.len = 32 <;> simp [e]

theorem StateOf.sender_place {s : StateOf Slice} {c : ChainOf Slice} {ck : ChainKeyOf Slice} (hs : s.senderChain = some c) (hc : c.chainKey = some ck) :
    ck.key ∈ s.places := by simp [StateOf.places, hs, ChainOf.places, hc, ChainKeyOf.places]

theorem StateOf.receiver_place {s : StateOf Slice} {c : ChainOf Slice} {ck : ChainKeyOf Slice} (hs : c ∈ s.receiverChains) (hc : c.chainKey = some ck) :
    ck.key ∈ s.places := by
  have : ck.key ∈ s.receiverChains.flatMap ChainOf.places := List.mem_flatMap.2 ⟨c, hs, by simp [ChainOf.places, hc, ChainKeyOf.places]⟩
  unfold StateOf.places
  simp only [List.mem_append]
  exact .inr (.inr (.inr (.inr (.inl this))))

/-- An accessor that returns stored bytes answers what it answers over values. -/
theorem shared_value (f : SharedField) (h : Heap) (s : StateOf Slice) (hv : ∀ p ∈ s.places, h.Valid p) :
    f.value (s.seen h) = (f.slice h s >>= fun o => Res.ok (o.map h.read)) := by
  cases f with
  | aliceBaseKey => rfl
  | rootKey =>
    have := rootKey_value (h := h) (hv s.rootKey (by simp [StateOf.places]))
    show (newRootKey (h.read s.rootKey) >>= fun r => Res.ok (some r.key)) = _
    rw [this]
    simp only [SharedField.slice, StateOf.rootKeySlice]
    cases keySlice s.rootKey <;> rfl
  | senderChainKey =>
    simp only [SharedField.value, SharedField.slice, StateOf.senderChainKeySlice, SState.senderChainKey, StateOf.seen]
    cases hs : s.senderChain with
    | none => rfl
    | some c =>
      simp only [Option.map_some, ChainOf.seen]
      cases hc : c.chainKey with
      | none => rfl
      | some ck =>
        have := chainKey_value (h := h) ck.index (hv ck.key (StateOf.sender_place hs hc))
        simp only [Option.map_some, ChainKeyOf.seen]
        rw [show (do return some (← newChainKey (h.read ck.key) ck.index).key : Res (Option Bytes)) = _ from this]
        cases keySlice ck.key <;> rfl
  | receiverChainKey k =>
    simp only [SharedField.value, SharedField.slice, StateOf.receiverChainKeySlice, SState.receiverChainKey, SState.receiverChain, StateOf.seen,
      findChain_seen]
    cases hf : StateOf.findChainOf h k.bytes s.receiverChains 0 with
    | none => rfl
    | some o =>
      obtain ⟨j, c⟩ := o
      have hm := List.mem_of_getElem? (findChainOf_at hf).2
      simp only [Option.map_some, ChainOf.seen]
      cases hc : c.chainKey with
      | none => rfl
      | some ck =>
        have := chainKey_value (h := h) ck.index (hv ck.key (StateOf.receiver_place hm hc))
        simp only [Option.map_some, ChainKeyOf.seen, Option.getD_some]
        revert this
        cases newChainKey (h.read ck.key) ck.index <;> cases keySlice ck.key <;> intro this <;> first | rfl | exact this

/-- Writing to what an accessor returned changes what it returns, and nothing else. -/
theorem shared_put (f : SharedField) (h : Heap) (s : StateOf Slice) (hv : ∀ p ∈ s.places, h.Valid p) (hp : s.places.Pairwise NoOverlap) {x : Slice}
    (hx : f.slice h s = .ok (some x)) {offset : Nat} {bytes : Bytes} (fit : offset + bytes.length ≤ x.len) :
    x ∈ s.places ∧ s.seen (putAt h x offset bytes) = f.put (s.seen h) (overwrite (h.read x) offset bytes) := by
  have hp' := hp
  unfold StateOf.places at hp'
  simp only [List.pairwise_append, List.mem_append] at hp'
  obtain ⟨-, ⟨-, ⟨-, ⟨pS, ⟨pR, ⟨-, -, dPA⟩, dR⟩, dS⟩, dRoot⟩, dRem⟩, dLoc⟩ := hp'
  cases f with
  | aliceBaseKey =>
    simp only [SharedField.slice, StateOf.aliceBaseKeySlice, Res.bind_ok, Res.pure_eq, Res.ok.injEq, Option.some.injEq] at hx
    subst hx
    have vx := hv s.aliceBaseKey (by simp [StateOf.places])
    refine ⟨by simp [StateOf.places], ?_⟩
    have r : ∀ p, NoOverlap p s.aliceBaseKey → (putAt h s.aliceBaseKey offset bytes).read p = h.read p := fun p hp => read_putAt_apart vx fit hp.symm
    simp only [StateOf.seen, SharedField.put]
    rw [read_putAt_self vx fit, r _ (dLoc _ (by simp) _ (by simp)), r _ (dRem _ (by simp) _ (by simp)), r _ (dRoot _ (by simp) _ (by simp)),
      option_seen_congr ChainOf.seen_congr s.senderChain _ h fun p hp => r p (dS p hp _ (by simp)),
      map_seen_congr ChainOf.seen_congr s.receiverChains _ h fun p hp => r p (dR p hp _ (by simp)),
      option_seen_congr PendingOf.seen_congr s.pendingPreKey _ h fun p hp => r p (dPA p hp _ (by simp))]
  | rootKey =>
    obtain ⟨y, hy, e⟩ := Res.bind_eq_ok.1 hx
    obtain ⟨rfl, hl⟩ := keySlice_ok hy
    simp only [Res.pure_eq, Res.ok.injEq, Option.some.injEq] at e
    subst e
    have vx := hv s.rootKey (by simp [StateOf.places])
    refine ⟨by simp [StateOf.places], ?_⟩
    have r : ∀ p, NoOverlap s.rootKey p → (putAt h s.rootKey offset bytes).read p = h.read p := fun p hp => read_putAt_apart vx fit hp
    simp only [StateOf.seen, SharedField.put]
    rw [read_putAt_self vx fit, r _ (dLoc _ (by simp) _ (by simp)).symm, r _ (dRem _ (by simp) _ (by simp)).symm, r _ (dRoot _ (by simp) _ (by simp)),
      option_seen_congr ChainOf.seen_congr s.senderChain _ h fun p hp => r p (dRoot _ (by simp) p (by simp only [hp, true_or])),
      map_seen_congr ChainOf.seen_congr s.receiverChains _ h fun p hp => r p (dRoot _ (by simp) p (by simp only [hp, true_or, or_true])),
      option_seen_congr PendingOf.seen_congr s.pendingPreKey _ h fun p hp => r p (dRoot _ (by simp) p (by simp only [hp, true_or, or_true]))]
  | senderChainKey =>
    obtain ⟨y, hy, e⟩ := Res.bind_eq_ok.1 hx
    simp only [Res.pure_eq, Res.ok.injEq, Option.some.injEq] at e
    subst e
    unfold StateOf.senderChainKeySlice at hy
    cases hs : s.senderChain with
    | none => simp [hs] at hy
    | some c =>
      cases hc : c.chainKey with
      | none => simp [hs, hc] at hy
      | some ck =>
        simp only [hs, hc] at hy
        obtain ⟨rfl, hl⟩ := keySlice_ok hy
        have hm := StateOf.sender_place hs hc
        have vx := hv _ hm
        refine ⟨hm, ?_⟩
        have hm' : ck.key ∈ s.senderChain.toList.flatMap ChainOf.places := by simp [hs, ChainOf.places, hc, ChainKeyOf.places]
        have r : ∀ p, NoOverlap ck.key p → (putAt h ck.key offset bytes).read p = h.read p := fun p hp => read_putAt_apart vx fit hp
        have hk : (s.seen h).senderChainKey = .ok ⟨h.read ck.key, ck.index⟩ := by
          simp [SState.senderChainKey, StateOf.seen, hs, ChainOf.seen, hc, ChainKeyOf.seen, newChainKey, len_of_valid vx, hl]
        simp only [SharedField.put, hk, SState.setSenderChainKey]
        simp only [StateOf.seen, hs, Option.map_some]
        rw [c.seen_put ck hc vx fit (by simpa [hs] using pS), r _ (dLoc _ (by simp) _ (by simp only [hm', true_or, or_true])).symm,
          r _ (dRem _ (by simp) _ (by simp only [hm', true_or, or_true])).symm, r _ (dRoot _ (by simp) _ (by simp only [hm', true_or])).symm,
          r _ (dS _ hm' s.aliceBaseKey (by simp)),
          map_seen_congr ChainOf.seen_congr s.receiverChains _ h fun p hp => r p (dS _ hm' p (by simp only [hp, true_or])),
          option_seen_congr PendingOf.seen_congr s.pendingPreKey _ h fun p hp => r p (dS _ hm' p (by simp only [hp, true_or, or_true]))]
  | receiverChainKey k =>
    simp only [SharedField.slice, StateOf.receiverChainKeySlice] at hx
    cases hf : StateOf.findChainOf h k.bytes s.receiverChains 0 with
    | none => simp [hf] at hx
    | some o =>
      obtain ⟨j, c⟩ := o
      have hat := (findChainOf_at hf).2
      have hmc := List.mem_of_getElem? hat
      cases hc : c.chainKey with
      | none => simp [hf, hc] at hx
      | some ck =>
        simp only [hf, hc] at hx
        obtain ⟨y, hy, e⟩ := Res.bind_eq_ok.1 hx
        simp only [Res.pure_eq, Res.ok.injEq, Option.some.injEq] at e
        subst e
        obtain ⟨rfl, hl⟩ := keySlice_ok hy
        have hm := StateOf.receiver_place hmc hc
        have vx := hv _ hm
        refine ⟨hm, ?_⟩
        have hm' : ck.key ∈ s.receiverChains.flatMap ChainOf.places := List.mem_flatMap.2 ⟨c, hmc, by simp [ChainOf.places, hc, ChainKeyOf.places]⟩
        have r : ∀ p, NoOverlap ck.key p → (putAt h ck.key offset bytes).read p = h.read p := fun p hp => read_putAt_apart vx fit hp
        have hfv : (s.seen h).receiverChain k = some (j, c.seen h) := by
          simp only [SState.receiverChain, StateOf.seen, findChain_seen, hf, Option.map_some]
        have hk : (s.seen h).receiverChainKey k = .ok (some ⟨h.read ck.key, ck.index⟩) := by
          simp [SState.receiverChainKey, hfv, ChainOf.seen, hc, ChainKeyOf.seen, newChainKey, len_of_valid vx, hl]
        simp only [SharedField.put, hk, SState.setReceiverChainKey, hfv]
        simp only [StateOf.seen]
        rw [chains_seen_put s.receiverChains j c ck (by simpa using hat) hc vx fit pR, r _ (dLoc _ (by simp) _ (by simp only [hm', true_or, or_true])).symm,
          r _ (dRem _ (by simp) _ (by simp only [hm', true_or, or_true])).symm, r _ (dRoot _ (by simp) _ (by simp only [hm', true_or, or_true])).symm,
          r _ (dR _ hm' s.aliceBaseKey (by simp)),
          option_seen_congr ChainOf.seen_congr s.senderChain _ h fun p hp => r p (dS p hp _ (by simp only [hm', true_or])).symm,
          option_seen_congr PendingOf.seen_congr s.pendingPreKey _ h fun p hp => r p (dR _ hm' p (by simp only [hp, true_or]))]

/-- Writing to what an accessor returned leaves the ratchet keys by which chains are found. -/
theorem put_ratchetKeys (f : SharedField) (s : SState) (b : Bytes) :
    (f.put s b).receiverChains.map (·.senderRatchetKey) = s.receiverChains.map (·.senderRatchetKey) := by
  cases f with
  | aliceBaseKey => rfl
  | rootKey => rfl
  | senderChainKey =>
    simp only [SharedField.put, SState.setSenderChainKey]
    cases s.senderChainKey with
    | ok k => cases s.senderChain <;> rfl
    | err _ => rfl
    | panic => rfl
  | receiverChainKey k =>
    simp only [SharedField.put, SState.setReceiverChainKey]
    cases s.receiverChainKey k with
    | err _ => rfl
    | panic => rfl
    | ok o =>
      cases o with
      | none => rfl
      | some ck =>
        cases hr : s.receiverChain k with
        | none => rfl
        | some o =>
          obtain ⟨j, c⟩ := o
          simp only [List.map_set]
          have : ∀ (cs : List PBChain) (i : Nat), SState.findChain k.bytes cs i = some (j, c) → i ≤ j ∧ cs[j - i]? = some c := by
            intro cs
            induction cs with
            | nil => intro i h; simp [SState.findChain] at h
            | cons d cs ih =>
              intro i h
              unfold SState.findChain at h
              by_cases e : d.senderRatchetKey = k.bytes
              · rw [if_pos e] at h
                simp only [Option.some.injEq, Prod.mk.injEq] at h
                obtain ⟨rfl, rfl⟩ := h
                simp
              · rw [if_neg e] at h
                have := ih _ h
                refine ⟨by omega, ?_⟩
                rw [show j - i = (j - (i + 1)) + 1 from by omega]
                simpa using this.2
          have hj := (this _ _ hr).2
          simp only [Nat.sub_zero] at hj
          apply List.ext_getElem?
          intro n
          rw [List.getElem?_set]
          by_cases e : j = n
          · subst e
            have hlt : j < s.receiverChains.length := by
              rcases Nat.lt_or_ge j s.receiverChains.length with h | h
              · exact h
              · rw [List.getElem?_eq_none h] at hj; simp at hj
            rw [List.getElem?_eq_getElem hlt, Option.some.injEq] at hj
            simp [hlt, hj]
          · simp [e]

/-- The slice an accessor returns depends on memory only by the ratchet keys. -/
theorem slice_congr (f : SharedField) {h h' : Heap} (s : StateOf Slice)
    (e : s.receiverChains.map (fun c => h.read c.senderRatchetKey) = s.receiverChains.map fun c => h'.read c.senderRatchetKey) :
    f.slice h' s = f.slice h s := by
  cases f with
  | receiverChainKey k => simp only [SharedField.slice, StateOf.receiverChainKeySlice, findChainOf_congr k.bytes s.receiverChains 0 e]
  | _ => rfl

theorem seen_ratchetKeys (h : Heap) (s : StateOf Slice) :
    (s.seen h).receiverChains.map (·.senderRatchetKey) = s.receiverChains.map fun c => h.read c.senderRatchetKey := by
  simp [StateOf.seen, ChainOf.seen]

end Verif
