import Verif.Proofs.StateBytesStep

namespace Verif

/-! ## Accessors that copy -/

/-- Nothing, or a new slice with these bytes. -/
def NewOption (n : Nat) (h : Heap) : Option Slice → Option Bytes → Prop
  | some x, some b => New n h x b
  | none, none => True
  | _, _ => False

theorem does_publicBytesOf {h : Heap} {s : Slice} {b : Bytes} (hs : At h s b) :
    Does h (publicBytesOf s) (newPublicKey b >>= fun k => .ok k.bytes) (New h.length) :=
  (does_pub hs).bind fun _ _ _ g hp => (does_pubBytes hp.2).mono fun _ _ _ _ hn => hn.mono g.1 (.refl _)

theorem does_some {h : Heap} {x : M Heap Slice} {r : Res Bytes} (hd : Does h x r (New h.length)) :
    Does h (x >>= fun k => pure (some k)) (r >>= fun b => .ok (some b)) (NewOption h.length) :=
  hd.bind fun _ _ _ _ hn => Does.pure hn

theorem copied_does (C : Crypto) (f : CopiedField) (h : Heap) (s : StateOf Slice) (hv : ∀ p ∈ s.places, h.Valid p) :
    Does h (f.slice C s) (f.value (s.seen h)) (NewOption h.length) := by
  cases f with
  | localIdentityKey =>
    have := does_some (does_publicBytesOf (h := h) ⟨hv s.localIdentityPublic (by simp [StateOf.places]), rfl⟩)
    have e : CopiedField.value (s.seen h) .localIdentityKey =
        ((newPublicKey (h.read s.localIdentityPublic) >>= fun k => .ok k.bytes) >>= fun b => .ok (some b)) := by
      show (newPublicKey (h.read s.localIdentityPublic) >>= fun k => Res.ok (some k.bytes)) = _
      cases newPublicKey (h.read s.localIdentityPublic) <;> rfl
    rw [e]
    exact this
  | remoteIdentityKey =>
    have vr := hv s.remoteIdentityPublic (by simp [StateOf.places])
    have := does_some (does_publicBytesOf (h := h) ⟨vr, rfl⟩)
    simp only [CopiedField.slice, StateOf.remoteIdentityKeyBytes, CopiedField.value, SState.remoteIdentityKey]
    have hl : (s.seen h).remoteIdentityPublic.length = s.remoteIdentityPublic.len := len_of_valid vr
    rw [hl]
    by_cases e : s.remoteIdentityPublic.len = 0
    · rw [if_pos e, if_pos e]
      exact Does.pure trivial
    · rw [if_neg e, if_neg e]
      have e2 : (do return (← (do let k ← newIdentityKey (s.seen h).remoteIdentityPublic; return some k : Res (Option PubKey))).map (·.bytes) : Res (Option Bytes)) =
          ((newPublicKey (h.read s.remoteIdentityPublic) >>= fun k => .ok k.bytes) >>= fun b => .ok (some b)) := by
        show ((newPublicKey (h.read s.remoteIdentityPublic) >>= fun k => Res.ok (some k)) >>= fun o => Res.ok (o.map (·.bytes))) = _
        cases newPublicKey (h.read s.remoteIdentityPublic) <;> rfl
      rw [e2]
      exact this
  | senderRatchetKey =>
    simp only [CopiedField.slice, StateOf.senderRatchetKeyBytes, CopiedField.value, SState.senderRatchetKey, StateOf.seen]
    cases hs : s.senderChain with
    | none => exact Does.throw
    | some c =>
      have := does_some (does_publicBytesOf (h := h) ⟨hv c.senderRatchetKey (by simp [StateOf.places, hs, ChainOf.places]), rfl⟩)
      simp only [Option.map_some, ChainOf.seen]
      have e : (do return some (← newPublicKey (h.read c.senderRatchetKey)).bytes : Res (Option Bytes)) =
          ((newPublicKey (h.read c.senderRatchetKey) >>= fun k => .ok k.bytes) >>= fun b => .ok (some b)) := by
        cases newPublicKey (h.read c.senderRatchetKey) <;> rfl
      rw [e]
      exact this
  | senderRatchetPrivateKey =>
    simp only [CopiedField.slice, StateOf.senderRatchetPrivateKeyBytes, CopiedField.value, SState.senderRatchetPrivateKey, StateOf.seen]
    cases hs : s.senderChain with
    | none => exact Does.throw
    | some c =>
      have h0 : At h c.senderRatchetKeyPrivate (h.read c.senderRatchetKeyPrivate) :=
        ⟨hv c.senderRatchetKeyPrivate (by simp [StateOf.places, hs, ChainOf.places]), rfl⟩
      have : Does h (privFromSlice C c.senderRatchetKeyPrivate >>= fun k => k.bytes)
          (newPrivateKey (h.read c.senderRatchetKeyPrivate) >>= fun k => .ok k.bytes) (New h.length) :=
        (does_priv C h0).bind fun _ _ _ g hp => (does_privBytes hp.1.2).mono fun _ _ _ _ hn => hn.mono g.1 (.refl _)
      have := does_some this
      simp only [Option.map_some, ChainOf.seen]
      have e : (do return some (← newPrivateKey (h.read c.senderRatchetKeyPrivate)).bytes : Res (Option Bytes)) =
          ((newPrivateKey (h.read c.senderRatchetKeyPrivate) >>= fun k => .ok k.bytes) >>= fun b => .ok (some b)) := by
        cases newPrivateKey (h.read c.senderRatchetKeyPrivate) <;> rfl
      rw [e]
      exact this
  | pendingBaseKey =>
    simp only [CopiedField.slice, StateOf.pendingBaseKeyBytes, CopiedField.value, SState.unacknowledgedPreKeyMessages, StateOf.seen]
    cases hs : s.pendingPreKey with
    | none => exact Does.pure trivial
    | some c =>
      have := does_some (does_publicBytesOf (h := h) ⟨hv c.baseKey (by simp [StateOf.places, hs, PendingOf.places]), rfl⟩)
      simp only [Option.map_some, PendingOf.seen]
      revert this
      have e : ∀ r : Res PubKey, ((r >>= fun k => Res.ok k.bytes) >>= fun b => .ok (some b)) =
          (do return (← (do
            let key ← r
            return some { preKeyID := if c.preKeyId ≠ 0 then some c.preKeyId else none, signedPreKeyID := c.signedPreKeyId.toUInt32, baseKey := key } : Res (Option PendingItems))).map (·.baseKey.bytes) : Res (Option Bytes)) := by
        intro r
        cases r <;> rfl
      rw [e]
      exact id
  | bytes =>
    have hd : Does h s.stateBytes (.ok (s.seen h).marshal) (New h.length) := by
      have := does_alloc h (s.seen h).marshal
      unfold Does at this ⊢
      unfold StateOf.stateBytes
      exact this
    have := does_some hd
    rw [Res.bind_ok] at this
    simp only [CopiedField.slice, CopiedField.value]
    exact this

/-! ## The relation between memory and values -/

structure StateMem.Inv (m : StateMem) (v : StateVals) : Prop where
  seen : m.state.seen m.heap = v.state
  valid : ∀ p ∈ m.state.places, m.heap.Valid p
  validOwn : ∀ x ∈ m.own, m.heap.Valid x
  apart : m.state.places.Pairwise NoOverlap
  apartOwn : ∀ x ∈ m.own, ∀ p ∈ m.state.places, NoOverlap x p
  shared : List.Forall₂ (fun x f => SharedField.slice m.heap m.state f = .ok (some x)) m.shared v.shared

theorem StateMem.Inv.start (s : SState) (h : Heap) (own : List Slice) (ho : ∀ x ∈ own, h.Valid x) :
    (StateMem.start s h own).Inv { state := s } := by
  obtain ⟨h1, h2⟩ := parses_state s h
  refine ⟨h2, fun p hp => (h1.fresh p hp).2, fun x hx => h1.grows.valid (ho x hx), h1.apart, fun x hx p hp => .inl ?_, .nil⟩
  have a := (ho x hx).1
  have b := (h1.fresh p hp).1
  omega

theorem StateMem.Inv.grows {m : StateMem} {v : StateVals} (i : m.Inv v) {h : Heap} (g : Grows m.heap h) (own : List Slice)
    (ho : ∀ x ∈ own, m.heap.length ≤ x.arr ∧ h.Valid x) : StateMem.Inv { m with heap := h, own := m.own ++ own } v := by
  have r : ∀ p ∈ m.state.places, h.read p = m.heap.read p := fun p hp => g.read (i.valid p hp)
  have es : m.state.seen h = m.state.seen m.heap := m.state.seen_congr h m.heap r
  refine ⟨es.trans i.seen, fun p hp => g.valid (i.valid p hp), fun x hx => ?_, i.apart, fun x hx p hp => ?_, ?_⟩
  · rcases List.mem_append.1 hx with hx | hx
    · exact g.valid (i.validOwn x hx)
    · exact (ho x hx).2
  · rcases List.mem_append.1 hx with hx | hx
    · exact i.apartOwn x hx p hp
    · have a := (ho x hx).1
      have b := (i.valid p hp).1
      exact .inl (by omega)
  · refine i.shared.imp fun x f hf => ?_
    rw [← hf]
    exact slice_congr f m.state (by rw [← seen_ratchetKeys, ← seen_ratchetKeys, es])

/-- The session without the message keys for one position. -/
def StateOf.without (s : StateOf Slice) (j : Nat) (c : ChainOf Slice) (n : UInt32) : StateOf Slice :=
  { s with receiverChains := s.receiverChains.set j { c with messageKeys := c.messageKeys.filter fun k => k.index ≠ n } }

theorem StateOf.places_without (s : StateOf Slice) {j : Nat} {c : ChainOf Slice} (n : UInt32) (hc : s.receiverChains[j]? = some c) :
    s.places.Perm ((s.without j c n).places ++ (c.messageKeys.filter fun k => k.index = n).flatMap MessageKeyOf.places) := by
  have hp := Verif.places_without s.receiverChains j c (fun k => decide (k.index = n)) hc
  have e : (c.messageKeys.filter fun k => !decide (k.index = n)) = c.messageKeys.filter fun k => k.index ≠ n := by
    congr 1
    funext k
    simp
  rw [e] at hp
  unfold StateOf.places StateOf.without
  simp only [List.append_assoc]
  refine List.Perm.append_left _ (List.Perm.append_left _ (List.Perm.append_left _ (List.Perm.append_left _ ?_)))
  refine (hp.append_right _).trans ?_
  rw [List.append_assoc]
  refine List.Perm.append_left _ ?_
  refine List.perm_append_comm.trans ?_
  rw [List.append_assoc]

theorem StateMem.Inv.without {m : StateMem} {v : StateVals} (i : m.Inv v) {k : PubKey} {j : Nat} {c : ChainOf Slice} (n : UInt32)
    (hf : StateOf.findChainOf m.heap k.bytes m.state.receiverChains 0 = some (j, c)) (own : List Slice)
    (ho : ∀ x ∈ own, x ∈ (c.messageKeys.filter fun k => k.index = n).flatMap MessageKeyOf.places) :
    StateMem.Inv { m with state := m.state.without j c n, own := m.own ++ own } { v with state := v.state.withoutMessageKeys k n } := by
  have hat : m.state.receiverChains[j]? = some c := by simpa using (findChainOf_at hf).2
  have hp := m.state.places_without n hat
  have hsub : ∀ p ∈ (m.state.without j c n).places, p ∈ m.state.places := fun p h => hp.mem_iff.2 (List.mem_append_left _ h)
  have hown : ∀ p ∈ own, p ∈ m.state.places := fun p h => hp.mem_iff.2 (List.mem_append_right _ (ho p h))
  have hap := (hp.pairwise_iff fun h => NoOverlap.symm h).1 i.apart
  rw [List.pairwise_append] at hap
  have hfv : v.state.receiverChain k = some (j, c.seen m.heap) := by
    rw [← i.seen]
    simp only [SState.receiverChain, StateOf.seen, findChain_seen, hf, Option.map_some]
  refine ⟨?_, fun p hp => i.valid p (hsub p hp), fun x hx => ?_, hap.1, fun x hx p hp => ?_, ?_⟩
  · show (m.state.without j c n).seen m.heap = v.state.withoutMessageKeys k n
    unfold SState.withoutMessageKeys
    rw [hfv, ← i.seen]
    simp only [StateOf.seen, StateOf.without, List.map_set, ChainOf.seen, List.filter_map]
    rfl
  · rcases List.mem_append.1 hx with hx | hx
    · exact i.validOwn x hx
    · exact i.valid x (hown x hx)
  · rcases List.mem_append.1 hx with hx | hx
    · exact i.apartOwn x hx p (hsub p hp)
    · exact (hap.2.2 p hp x (ho x hx)).symm
  · refine i.shared.imp fun x f hf => ?_
    rw [← hf]
    cases f with
    | receiverChainKey q =>
      simp only [SharedField.slice, receiverSlice_eq]
      rw [show chainKeyOf m.heap q.bytes (m.state.without j c n).receiverChains 0 = chainKeyOf m.heap q.bytes m.state.receiverChains 0 from
        chainKeyOf_set m.heap q.bytes m.state.receiverChains j 0 c _ hat]
    | _ => rfl

theorem StateMem.Inv.write {m : StateMem} {v : StateVals} (i : m.Inv v) {x : Slice} (hx : x ∈ m.own) (offset : Nat) (bytes : Bytes) :
    (m.writeTo x offset bytes).Inv v := by
  unfold StateMem.writeTo
  by_cases fit : offset + bytes.length ≤ x.len
  · rw [if_pos fit]
    have vx := i.validOwn x hx
    have es : m.state.seen (putAt m.heap x offset bytes) = m.state.seen m.heap :=
      m.state.seen_congr _ _ fun p hp => read_putAt_apart vx fit (i.apartOwn x hx p hp)
    refine ⟨es.trans i.seen, fun p hp => valid_putAt vx fit (i.valid p hp), fun p hp => valid_putAt vx fit (i.validOwn p hp), i.apart, i.apartOwn, ?_⟩
    refine i.shared.imp fun y f hf => ?_
    rw [← hf]
    exact slice_congr f m.state (by
      show _ = List.map (fun c : ChainOf Slice => (putAt m.heap x offset bytes).read c.senderRatchetKey) _
      rw [← seen_ratchetKeys, ← seen_ratchetKeys, es])
  · rw [if_neg fit]
    exact i

theorem StateMem.Inv.writeShared {m : StateMem} {v : StateVals} (i : m.Inv v) {x : Slice} {f : SharedField}
    (hx : f.slice m.heap m.state = .ok (some x)) (offset : Nat) (bytes : Bytes) :
    (m.writeTo x offset bytes).Inv (match f.value v.state with
      | .ok (some b) => if offset + bytes.length ≤ b.length then { v with state := f.put v.state (overwrite b offset bytes) } else v
      | _ => v) := by
  have hval := shared_value f m.heap m.state i.valid
  rw [i.seen, hx, Res.bind_ok, Option.map_some] at hval
  rw [hval]
  simp only
  by_cases hl : x ∈ m.state.places
  · have vx := i.valid x hl
    rw [len_of_valid vx]
    unfold StateMem.writeTo
    by_cases fit : offset + bytes.length ≤ x.len
    · rw [if_pos fit, if_pos fit]
      obtain ⟨-, es⟩ := shared_put f m.heap m.state i.valid i.apart hx fit
      rw [i.seen] at es
      refine ⟨es, fun p hp => valid_putAt vx fit (i.valid p hp), fun p hp => valid_putAt vx fit (i.validOwn p hp), i.apart, i.apartOwn, ?_⟩
      refine i.shared.imp fun y g hg => ?_
      rw [← hg]
      exact slice_congr g m.state (by
        show _ = List.map (fun c : ChainOf Slice => (putAt m.heap x offset bytes).read c.senderRatchetKey) _
        rw [← seen_ratchetKeys, ← seen_ratchetKeys, es, put_ratchetKeys, i.seen])
    · rw [if_neg fit, if_neg fit]
      exact i
  · exact absurd (shared_put f m.heap m.state i.valid i.apart hx (offset := 0) (bytes := []) (by simp)).1 hl

/-! ## Programs -/

theorem StateMem.Inv.step (C : Crypto) {m : StateMem} {v : StateVals} (i : m.Inv v) (op : StateOp) :
    (m.step C op).1 = (v.step op).1 ∧ (m.step C op).2.Inv (v.step op).2 := by
  cases op with
  | shared f =>
    have hval := shared_value f m.heap m.state i.valid
    rw [i.seen] at hval
    simp only [StateMem.step, StateVals.step]
    rw [hval]
    cases hf : f.slice m.heap m.state with
    | err e => exact ⟨rfl, i⟩
    | panic => exact ⟨rfl, i⟩
    | ok o =>
      cases o with
      | none => exact ⟨rfl, i⟩
      | some x => exact ⟨rfl, ⟨i.seen, i.valid, i.validOwn, i.apart, i.apartOwn, forall₂_snoc i.shared hf⟩⟩
  | copied f =>
    obtain ⟨g, hd⟩ := copied_does C f m.heap m.state i.valid
    rw [i.seen] at hd
    simp only [StateMem.step, StateVals.step]
    generalize f.slice C m.state m.heap = r at g hd ⊢
    obtain ⟨r, h⟩ := r
    generalize f.value v.state = w at hd ⊢
    have i0 := i.grows g [] (by simp)
    simp only [List.append_nil] at i0
    cases r with
    | err e =>
      cases w with
      | err e' => exact ⟨by rw [show e = e' from hd]; rfl, i0⟩
      | _ => exact hd.elim
    | panic =>
      cases w with
      | panic => exact ⟨rfl, i0⟩
      | _ => exact hd.elim
    | ok o =>
      cases w with
      | ok b =>
        cases o with
        | none =>
          cases b with
          | none => exact ⟨rfl, i0⟩
          | some b => exact hd.elim
        | some x =>
          cases b with
          | none => exact hd.elim
          | some b =>
            have hn : New m.heap.length h x b := hd
            refine ⟨?_, i.grows g [x] ?_⟩
            · show Res.ok [h.read x] = Res.ok [b]
              rw [hn.2.2]
            · intro y hy
              simp only [List.mem_singleton] at hy
              subst hy
              exact ⟨hn.1, hn.2.1⟩
      | err _ => exact hd.elim
      | panic => exact hd.elim
  | messageKeys k n =>
    simp only [StateMem.step, StateVals.step, StateOf.messageKeySlices]
    cases hf : StateOf.findChainOf m.heap k.bytes m.state.receiverChains 0 with
    | none =>
      have hfv : v.state.receiverChain k = none := by
        rw [← i.seen]
        simp only [SState.receiverChain, StateOf.seen, findChain_seen, hf, Option.map_none]
      simp only [SState.takeMessageKeys, SState.withoutMessageKeys, hfv]
      exact ⟨rfl, i⟩
    | some o =>
      obtain ⟨j, c⟩ := o
      have hfv : v.state.receiverChain k = some (j, c.seen m.heap) := by
        rw [← i.seen]
        simp only [SState.receiverChain, StateOf.seen, findChain_seen, hf, Option.map_some]
      have hat : m.state.receiverChains[j]? = some c := by simpa using (findChainOf_at hf).2
      have hl : ((c.seen m.heap).messageKeys.filter fun k => k.index = n).getLast? =
          ((c.messageKeys.filter fun k => k.index = n).getLast?).map (MessageKeyOf.seen m.heap) := by
        simp only [ChainOf.seen, List.filter_map, List.getLast?_map]
        rfl
      have i0 := i.without n hf [] (by simp)
      simp only [List.append_nil] at i0
      simp only [SState.takeMessageKeys, hfv, hl]
      cases hk : (c.messageKeys.filter fun k => k.index = n).getLast? with
      | none => exact ⟨rfl, i0⟩
      | some q =>
        have hq := List.mem_of_getLast? hk
        have hmem : ∀ x ∈ q.places, x ∈ (c.messageKeys.filter fun k => k.index = n).flatMap MessageKeyOf.places :=
          fun x hx => List.mem_flatMap.2 ⟨q, hq, hx⟩
        have hval : ∀ x ∈ q.places, m.heap.Valid x := fun x hx =>
          i.valid x ((m.state.places_without n hat).mem_iff.2 (List.mem_append_right _ (hmem x hx)))
        have i1 := i.without n hf q.places hmem
        have l1 := len_of_valid (hval q.cipherKey (by simp [MessageKeyOf.places]))
        have l2 := len_of_valid (hval q.macKey (by simp [MessageKeyOf.places]))
        have l3 := len_of_valid (hval q.iv (by simp [MessageKeyOf.places]))
        simp only [Option.map_some, MessageKeyOf.seen, newMessageKeys, l1, l2, l3]
        by_cases e1 : q.cipherKey.len = 32
        · by_cases e2 : q.macKey.len = 32
          · by_cases e3 : q.iv.len = 16
            · simp only [e1, e2, e3, ne_eq, not_true, if_false]
              exact ⟨rfl, i1⟩
            · simp only [e1, e2, e3, ne_eq, not_true, if_false, not_false_iff, if_true]
              exact ⟨rfl, i0⟩
          · simp only [e1, e2, ne_eq, not_true, if_false, not_false_iff, if_true]
            exact ⟨rfl, i0⟩
        · simp only [e1, ne_eq, not_false_iff, if_true]
          exact ⟨rfl, i0⟩
  | write n offset bytes =>
    simp only [StateMem.step, StateVals.step]
    cases hx : m.own[n]? with
    | none => exact ⟨rfl, i⟩
    | some x => exact ⟨rfl, i.write (List.mem_of_getElem? hx) offset bytes⟩
  | writeShared n offset bytes =>
    simp only [StateMem.step, StateVals.step]
    rcases forall₂_at i.shared n with ⟨x, f, h1, h2, h3, -⟩ | ⟨h1, h2⟩
    · rw [h1, h2]
      exact ⟨rfl, i.writeShared h3 offset bytes⟩
    · rw [h1, h2]
      exact ⟨rfl, i⟩

theorem StateMem.Inv.run (C : Crypto) {m : StateMem} {v : StateVals} (i : m.Inv v) (ops : List StateOp) :
    (m.run C ops).1 = (v.run ops).1 ∧ (m.run C ops).2.Inv (v.run ops).2 := by
  induction ops generalizing m v with
  | nil => exact ⟨rfl, i⟩
  | cons op ops ih =>
    obtain ⟨h1, h2⟩ := i.step C op
    obtain ⟨h3, h4⟩ := ih h2
    exact ⟨by simp only [StateMem.run, StateVals.run, h1, h3], h4⟩

end Verif
