import Verif.Proofs.GroupPlaces

/-! Helper lemmas for C131: calls keep the arrays of the store apart. -/

namespace Verif

/-- The records are the same, and no array is gone. -/
structure Same (m m' : GMem) : Prop where
  records : m'.records = m.records
  grows : m.heap.length ≤ m'.heap.length

theorem Same.refl (m : GMem) : Same m m := ⟨rfl, Nat.le_refl _⟩
theorem Same.trans {a b c : GMem} (h : Same a b) (h' : Same b c) : Same a c := ⟨h'.records.trans h.records, Nat.le_trans h.grows h'.grows⟩

theorem Stores.same {m0 m m' : GMem} (h : Stores m0 m) (hs : Same m m') : Stores m0 m' := by
  refine ⟨⟨fun k r hr => ?_, fun k k' r r' hne hr hr' => ?_⟩, Nat.le_trans h.grows hs.grows, fun k r hr => ?_⟩
  · rw [hs.records] at hr
    have := h.places.distinct k r hr
    exact ⟨this.1, fun i hi => Nat.lt_of_lt_of_le (this.2 i hi) hs.grows⟩
  · rw [hs.records] at hr hr'
    exact h.places.apart k k' r r' hne hr hr'
  · rw [hs.records] at hr
    exact h.old k r hr

section
variable {α β : Type} {m m0 : GMem}

/-- A step that changes no record. -/
def Quiet (m : GMem) (x : M GMem α) (Q : GMem → α → Prop) : Prop := Same m (x m).2 ∧ ∀ a, (x m).1 = .ok a → Q (x m).2 a

/-- Steps of a call that began in `m0`. -/
def Keeping (m0 m : GMem) (x : M GMem α) (Q : GMem → α → Prop) : Prop := Stores m0 (x m).2 ∧ ∀ a, (x m).1 = .ok a → Q (x m).2 a

theorem Quiet.bind {x : M GMem α} {f : α → M GMem β} {Q : GMem → α → Prop} {R : GMem → β → Prop} (h1 : Quiet m x Q)
    (h2 : ∀ m' a, Same m m' → Q m' a → Quiet m' (f a) R) : Quiet m (x >>= f) R := by
  obtain ⟨s, q⟩ := h1
  unfold Quiet
  rw [M.bind_run]
  generalize x m = xm at s q
  obtain ⟨r, m'⟩ := xm
  cases r with
  | ok a =>
    obtain ⟨s2, q2⟩ := h2 m' a s (q a rfl)
    exact ⟨s.trans s2, q2⟩
  | err e => exact ⟨s, fun a h => by simp at h⟩
  | panic => exact ⟨s, fun a h => by simp at h⟩

theorem Keeping.bind {x : M GMem α} {f : α → M GMem β} {Q : GMem → α → Prop} {R : GMem → β → Prop} (h1 : Keeping m0 m x Q)
    (h2 : ∀ m' a, Stores m0 m' → Q m' a → Keeping m0 m' (f a) R) : Keeping m0 m (x >>= f) R := by
  obtain ⟨s, q⟩ := h1
  unfold Keeping
  rw [M.bind_run]
  generalize x m = xm at s q
  obtain ⟨r, m'⟩ := xm
  cases r with
  | ok a => exact h2 m' a s (q a rfl)
  | err e => exact ⟨s, fun a h => by simp at h⟩
  | panic => exact ⟨s, fun a h => by simp at h⟩

theorem Keeping.quiet {x : M GMem α} {Q : GMem → α → Prop} (s : Stores m0 m) (h : Quiet m x Q) :
    Keeping m0 m x fun m' a => Same m m' ∧ Q m' a := ⟨s.same h.1, fun a ha => ⟨h.1, h.2 a ha⟩⟩

theorem Keeping.mono {x : M GMem α} {Q R : GMem → α → Prop} (h : Keeping m0 m x Q) (hq : ∀ m' a, Q m' a → R m' a) : Keeping m0 m x R :=
  ⟨h.1, fun a ha => hq _ _ (h.2 a ha)⟩

theorem Quiet.pure (a : α) : Quiet m (pure a : M GMem α) fun m' b => m' = m ∧ b = a := ⟨.refl m, fun b h => by cases h; exact ⟨rfl, rfl⟩⟩
theorem Quiet.throw (e : Err) : Quiet m (M.throw e : M GMem α) fun _ _ => False := ⟨.refl m, fun b h => by cases h⟩
theorem Quiet.lift (r : Res α) : Quiet m (M.lift r : M GMem α) fun m' a => m' = m ∧ r = .ok a := ⟨.refl m, fun b h => ⟨rfl, h⟩⟩
theorem Quiet.get : Quiet m (M.get : M GMem GMem) fun m' a => m' = m ∧ a = m := ⟨.refl m, fun b h => by cases h; exact ⟨rfl, rfl⟩⟩
theorem Quiet.load (k : Address × DistId) : Quiet m (memLoad k) fun m' a => m' = m ∧ a = m.records k := ⟨.refl m, fun b h => by cases h; exact ⟨rfl, rfl⟩⟩
theorem Quiet.rand (x : M Bytes α) : Quiet m (memRand x) fun m' _ => Same m m' := ⟨⟨rfl, Nat.le_refl _⟩, fun _ _ => ⟨rfl, Nat.le_refl _⟩⟩
theorem Quiet.sysRand (x : M Bytes α) : Quiet m (memSysRand x) fun m' _ => Same m m' := ⟨⟨rfl, Nat.le_refl _⟩, fun _ _ => ⟨rfl, Nat.le_refl _⟩⟩

/-- Storing what is stored. -/
theorem Quiet.store (k : Address × DistId) (r : List GStateRef) (h : m.records k = some r) : Quiet m (memStore k r) fun m' _ => m' = m := by
  have e : upd m.records k (some r) = m.records := by
    funext j
    by_cases hj : j = k
    · subst hj
      rw [upd_same, h]
    · rw [upd_ne _ _ hj]
  have : (memStore k r m).2 = m := by simp only [memStore, e]
  exact ⟨by rw [this]; exact .refl m, fun _ _ => this⟩

/-- A step on memory that takes no array away. -/
def Allocs (h : Heap) (x : M Heap α) (Q : Heap → α → Prop) : Prop := h.length ≤ (x h).2.length ∧ ∀ a, (x h).1 = .ok a → Q (x h).2 a

theorem Quiet.heap {x : M Heap α} {Q : Heap → α → Prop} (h : Allocs m.heap x Q) : Quiet m (onHeap x) fun m' a => Q m'.heap a :=
  ⟨⟨rfl, h.1⟩, fun a ha => h.2 a ha⟩

theorem Allocs.bind {h : Heap} {x : M Heap α} {f : α → M Heap β} {Q : Heap → α → Prop} {R : Heap → β → Prop} (h1 : Allocs h x Q)
    (h2 : ∀ h' a, h.length ≤ h'.length → Q h' a → Allocs h' (f a) R) : Allocs h (x >>= f) R := by
  obtain ⟨s, q⟩ := h1
  unfold Allocs
  rw [M.bind_run]
  generalize x h = xm at s q
  obtain ⟨r, m'⟩ := xm
  cases r with
  | ok a =>
    obtain ⟨s2, q2⟩ := h2 m' a s (q a rfl)
    exact ⟨Nat.le_trans s s2, q2⟩
  | err e => exact ⟨s, fun a h => by simp at h⟩
  | panic => exact ⟨s, fun a h => by simp at h⟩

theorem Allocs.mono {h : Heap} {x : M Heap α} {Q R : Heap → α → Prop} (h1 : Allocs h x Q) (hq : ∀ h' a, h.length ≤ h'.length → Q h' a → R h' a) : Allocs h x R :=
  ⟨h1.1, fun a ha => hq _ _ h1.1 (h1.2 a ha)⟩

theorem Allocs.pure {h : Heap} (a : α) : Allocs h (Pure.pure a : M Heap α) fun h' b => h' = h ∧ b = a := ⟨Nat.le_refl _, fun b hb => by cases hb; exact ⟨rfl, rfl⟩⟩
theorem Allocs.throw {h : Heap} (e : Err) : Allocs h (M.throw e : M Heap α) fun _ _ => False := ⟨Nat.le_refl _, fun b hb => by cases hb⟩
theorem Allocs.lift {h : Heap} (r : Res α) : Allocs h (M.lift r : M Heap α) fun h' b => h' = h ∧ r = .ok b := ⟨Nat.le_refl _, fun b hb => ⟨rfl, hb⟩⟩

/-- A new array. -/
def IsNew (n : Nat) (h : Heap) (i : Nat) : Prop := n ≤ i ∧ i < h.length

theorem IsNew.up {n : Nat} {h h' : Heap} {i : Nat} (hi : IsNew n h i) (hh : h.length ≤ h'.length) : IsNew n h' i := ⟨hi.1, Nat.lt_of_lt_of_le hi.2 hh⟩
theorem IsNew.down {n n' : Nat} {h : Heap} {i : Nat} (hi : IsNew n h i) (hh : n' ≤ n) : IsNew n' h i := ⟨Nat.le_trans hh hi.1, hi.2⟩

theorem allocs_bytes (b : Bytes) (h : Heap) : Allocs h (allocBytes b) fun h' s => IsNew h.length h' s.arr := by
  refine ⟨by simp [allocBytes], fun a ha => ?_⟩
  simp only [allocBytes, Res.ok.injEq] at ha
  subst ha
  exact ⟨Nat.le_refl _, by simp [allocBytes]⟩

theorem allocs_hash (C : Crypto) (k : Slice) (b : Bytes) (h : Heap) : Allocs h (hashRef C k b) fun h' s => IsNew h.length h' s.arr := allocs_bytes _ h

theorem allocs_next (C : Crypto) (c : ChainRef) (h : Heap) : Allocs h (c.next C) fun h' d => IsNew h.length h' d.seed.arr :=
  (allocs_hash C c.seed [2] h).bind fun h' s hl hs => (Allocs.pure _).mono fun h'' d hl' ⟨e1, e2⟩ => by subst e1; subst e2; exact hs

theorem allocs_derive (C : Crypto) (s : Slice) (it : UInt32) (h : Heap) : Allocs h (deriveMessageKeyRef C s it) fun h' k => h' = h ∧ k.seed = s := by
  refine ⟨Nat.le_refl _, fun a ha => ?_⟩
  simp only [deriveMessageKeyRef, Res.ok.injEq] at ha
  subst ha
  exact ⟨rfl, rfl⟩

theorem allocs_messageKey (C : Crypto) (c : ChainRef) (h : Heap) : Allocs h (c.messageKey C) fun h' k => IsNew h.length h' k.seed.arr :=
  (allocs_hash C c.seed [1] h).bind fun h' s hl hs => (allocs_derive C s c.iteration h').mono fun h'' k hl' ⟨e1, e2⟩ => by rw [e1, e2]; exact hs

theorem allocs_encrypt (C : Crypto) (key iv : Bytes) (s : Slice) (h : Heap) : Allocs h (cbcEncryptSlice C key iv s) fun _ _ => True := by
  refine ⟨?_, fun _ _ => trivial⟩
  unfold cbcEncryptSlice
  (repeat' split)
  · exact Nat.le_refl _
  · exact Nat.le_refl _
  · rename_i heq
    have : (pkcs7padSlice h s).2.length ≥ h.length := by
      simp only [pkcs7padSlice, goAppend]
      split <;> simp
    rw [heq] at this
    simp only [List.length_append] at this ⊢
    omega

theorem allocs_decrypt (C : Crypto) (key iv : Bytes) (s : Slice) (h : Heap) : Allocs h (cbcDecryptSlice C key iv s) fun _ _ => True := by
  refine ⟨?_, fun _ _ => trivial⟩
  unfold cbcDecryptSlice
  dsimp only
  (repeat' split) <;> simp

theorem addMessageKey_renews {s : GStateRef} {n n' : Nat} (hd : Distinct s.arrays n) {k : MessageKeyRef} (hk : n ≤ k.seed.arr) (hk' : k.seed.arr < n') (hn : n ≤ n') :
    Renews s.arrays n (s.addMessageKey k).arrays n' := by
  have h1 : Renews s.arrays n (s.arrays ++ [k.seed.arr]) n' := by
    have := Renews.middle (a := s.arrays) (b := []) (b' := [k.seed.arr]) (c := []) (n := n) (n' := n') (by simpa using hd) hn
      ⟨by simp, by simpa using hk', by simpa using hk⟩
    simpa using this
  refine h1.trans (n' := n') ?_ hn
  refine Renews.sub h1.distinct (Nat.le_refl _) ?_
  unfold GStateRef.addMessageKey GStateRef.arrays
  dsimp only
  rw [List.cons_append]
  refine List.Sublist.cons_cons _ ?_
  split
  · rw [List.map_drop, List.map_append]
    exact List.drop_sublist _ _
  · rw [List.map_append]
    exact List.Sublist.refl _

theorem allocs_skip (C : Crypto) (it : UInt32) (fuel : Nat) (ck : ChainRef) (s : GStateRef) (h : Heap) (hd : Distinct s.arrays h.length) :
    Allocs h (groupSkipRef C it fuel ck s) fun h' o => Renews s.arrays h.length o.2.arrays h'.length := by
  induction fuel generalizing ck s h with
  | zero => exact (Allocs.pure _).mono fun h' o hl ⟨e1, e2⟩ => by subst e1; subst e2; exact .refl hd (Nat.le_refl _)
  | succ fuel ih =>
    unfold groupSkipRef
    split
    · refine (allocs_messageKey C ck h).bind fun h1 k l1 hk => ?_
      refine (allocs_next C ck h1).bind fun h2 c l2 _ => ?_
      have r := addMessageKey_renews hd hk.1 (Nat.lt_of_lt_of_le hk.2 l2) (Nat.le_trans l1 l2)
      exact (ih c (s.addMessageKey k) h2 r.distinct).mono fun h3 o l3 ho => r.trans ho (Nat.le_trans l1 l2)
    · exact (Allocs.pure _).mono fun h' o hl ⟨e1, e2⟩ => by subst e1; subst e2; exact .refl hd (Nat.le_refl _)

theorem allocs_groupMessageKey (C : Crypto) (it : UInt32) (s : GStateRef) (h : Heap) (hd : Distinct s.arrays h.length) :
    Allocs h (groupMessageKeyRef C s it) fun h' o => Renews s.arrays h.length o.2.arrays h'.length := by
  unfold groupMessageKeyRef
  split
  · refine Allocs.bind (Q := fun h' o => ∀ k t, o = some (k, t) → Renews s.arrays h.length t.arrays h'.length) ?_ fun h1 o l1 ho => ?_
    · unfold GStateRef.removeMessageKeys
      split
      · exact (Allocs.pure _).mono fun h' o hl ⟨e1, e2⟩ k t e => by rw [e2] at e; cases e
      · refine (allocs_derive C _ _ h).bind fun h1 d l1 ⟨e1, e2⟩ => (Allocs.pure _).mono fun h' o hl ⟨e3, e4⟩ k t e => ?_
        subst e1
        subst e3
        rw [e4] at e
        cases e
        refine Renews.sub hd (Nat.le_refl _) ?_
        unfold GStateRef.arrays
        exact List.Sublist.cons_cons _ (List.eraseP_sublist.map _)
    · cases o with
      | none => exact (Allocs.throw _).mono fun _ _ _ h => h.elim
      | some o =>
        exact (Allocs.pure _).mono fun h' p hl ⟨e1, e2⟩ => by subst e1; subst e2; exact ho _ _ rfl
  · split
    · exact (Allocs.throw _).mono fun _ _ _ h => h.elim
    · refine (allocs_skip C it _ s.chainKey s h hd).bind fun h1 o l1 r1 => ?_
      refine (allocs_next C o.1 h1).bind fun h2 c l2 hc => ?_
      refine (allocs_messageKey C o.1 h2).bind fun h3 k l3 _ => (Allocs.pure _).mono fun h4 p l4 ⟨e1, e2⟩ => ?_
      subst e1
      subst e2
      refine r1.trans (n' := h1.length) ?_ l1
      unfold GStateRef.arrays
      exact Renews.head r1.distinct hc.1 (Nat.lt_of_lt_of_le hc.2 l3) (Nat.le_trans l2 l3)

/-! ## Records -/

theorem placesOf_sublist {r r' : List GStateRef} (h : List.Sublist r r') : List.Sublist (placesOf r) (placesOf r') := by
  induction h with
  | slnil => exact List.Sublist.refl _
  | cons a _ ih => rw [placesOf_cons]; exact ih.trans (List.sublist_append_right _ _)
  | cons_cons a _ ih => rw [placesOf_cons, placesOf_cons]; exact (List.Sublist.refl _).append ih

theorem set_state_split {r : List GStateRef} {id : UInt32} {s : GStateRef} (h : (r.find? fun s => decide (id = s.chainId)) = some s) :
    ∃ pre post, r = pre ++ s :: post ∧ ∀ s', setStateRef r id s' = pre ++ s' :: post := by
  induction r with
  | nil => simp at h
  | cons t r ih =>
    by_cases ht : id = t.chainId
    · rw [List.find?_cons_of_pos (by simpa using ht)] at h
      cases h
      exact ⟨[], r, rfl, fun s' => by simp [setStateRef, ht]⟩
    · rw [List.find?_cons_of_neg (by simpa using ht)] at h
      obtain ⟨pre, post, h1, h2⟩ := ih h
      exact ⟨t :: pre, post, by rw [h1]; rfl, fun s' => by rw [setStateRef, if_neg ht, h2 s']; rfl⟩

theorem set_state_renews {r : List GStateRef} {id : UInt32} {s s' : GStateRef} (h : (r.find? fun s => decide (id = s.chainId)) = some s) {n n' : Nat}
    (hd : Distinct (placesOf r) n) (hn : n ≤ n') (hs : Renews s.arrays n s'.arrays n') : Renews (placesOf r) n (placesOf (setStateRef r id s')) n' := by
  obtain ⟨pre, post, h1, h2⟩ := set_state_split h
  rw [h2, h1, placesOf_append, placesOf_append, placesOf_cons, placesOf_cons, ← List.append_assoc, ← List.append_assoc]
  rw [h1, placesOf_append, placesOf_cons, ← List.append_assoc] at hd
  exact Renews.middle hd hn hs

theorem distinct_state {r : List GStateRef} {s : GStateRef} (hs : s ∈ r) {n : Nat} (hd : Distinct (placesOf r) n) : Distinct s.arrays n := by
  obtain ⟨pre, post, rfl⟩ := List.append_of_mem hs
  rw [placesOf_append, placesOf_cons] at hd
  exact ⟨hd.1.sublist ((List.sublist_append_left _ _).trans (List.sublist_append_right _ _)), fun i hi => hd.2 i (by simp [hi])⟩

theorem add_state_renews {g r : List GStateRef} {s : GStateRef} (hr : addStateRef g s = .ok r) {n n' : Nat} (hd : Distinct (placesOf g) n) (hn : n ≤ n')
    (hs : Renews [] n s.arrays n') : Renews (placesOf g) n (placesOf r) n' := by
  unfold addStateRef at hr
  cases hk : newPublicKey s.signingPublic with
  | err e => simp [hk] at hr
  | panic => simp [hk] at hr
  | ok k =>
    simp only [hk, Res.ok.injEq] at hr
    subst hr
    generalize hp : isStateRef s.chainId k = p
    have sub : ∀ g0 : List GStateRef, List.Sublist
        (if (g0.filter fun t => decide (t.chainId ≠ s.chainId)).length ≥ maxSenderKeyStates then (g0.filter fun t => decide (t.chainId ≠ s.chainId)).drop 1
          else g0.filter fun t => decide (t.chainId ≠ s.chainId)) g0 := by
      intro g0
      split
      · exact (List.drop_sublist _ _).trans List.filter_sublist
      · exact List.filter_sublist
    cases hf : g.find? p with
    | none =>
      simp only [Option.getD_none]
      have h1 := placesOf_sublist ((sub (g.eraseP p)).trans List.eraseP_sublist)
      rw [placesOf_append]
      have h2 : Renews (placesOf g) n (placesOf g ++ s.arrays) n' := by
        have := Renews.middle (a := placesOf g) (b := []) (b' := s.arrays) (c := []) (n := n) (n' := n') (by simpa using hd) hn hs
        simpa using this
      refine h2.trans (n' := n') (Renews.sub h2.distinct (Nat.le_refl _) ?_) hn
      have : placesOf [s] = s.arrays := by simp [placesOf]
      rw [this]
      exact h1.append (List.Sublist.refl _)
    | some u =>
      simp only [Option.getD_some]
      obtain ⟨hu, as, bs, rfl, has⟩ := List.find?_eq_some_iff_append.1 hf
      have he : (as ++ u :: bs).eraseP p = as ++ bs := by
        rw [List.eraseP_append_right _ (fun b hb => by simpa using has b hb), List.eraseP_cons_of_pos hu]
      rw [he]
      have hperm : List.Perm (placesOf (as ++ u :: bs)) (placesOf ((as ++ bs) ++ [u])) := by
        refine List.Perm.flatMap_right _ ?_
        rw [List.append_assoc]
        exact List.Perm.append_left _ (List.perm_append_singleton u bs).symm
      have h2 : Renews (placesOf (as ++ u :: bs)) n (placesOf ((as ++ bs) ++ [u])) n' :=
        ⟨hperm.nodup_iff.1 hd.1, fun i hi => Nat.lt_of_lt_of_le (hd.2 i (hperm.mem_iff.2 hi)) hn, fun i hi => .inl (hperm.mem_iff.2 hi)⟩
      exact h2.trans (n' := n') (Renews.sub h2.distinct (Nat.le_refl _) (placesOf_sublist ((sub (as ++ bs)).append (List.Sublist.refl _)))) hn

/-- Storing a record, some steps after it was loaded. -/
theorem Keeping.store {k : Address × DistId} {r r' : List GStateRef} (hp : m0.Places) (hs : Same m0 m) (hr : (m0.records k).getD [] = r)
    (hn : Renews (placesOf r) m0.heap.length (placesOf r') m.heap.length) :
    Keeping m0 m (memStore k r') fun m' _ => m'.records = upd m.records k (some r') := by
  have st : Stores m0 m := (Stores.refl hp).same hs
  have key := Stores.store (k := k) (r' := r') (l := placesOf r) st.places hs.grows (fun i hi => ?_) (fun k' r1 h1 => ?_) hn
  · refine ⟨⟨key.1, st.grows, fun k1 r1 h1 i hi => ?_⟩, fun _ _ => rfl⟩
    rcases key.2 k1 r1 h1 i hi with ⟨r0, h2, h3⟩ | h2
    · exact .inl ⟨r0, by rw [← hs.records]; exact h2, h3⟩
    · exact .inr h2
  · cases h1 : m0.records k with
    | none => rw [h1] at hr; subst hr; simp [placesOf] at hi
    | some r1 =>
      rw [h1] at hr
      simp only [Option.getD_some] at hr
      exact ⟨r, by rw [hs.records, h1, hr], hi⟩
  · rw [hs.records] at h1
    exact (hp.distinct k' r1 h1).2

/-! ## Calls -/

theorem Quiet.congr {x x' : M GMem α} {Q : GMem → α → Prop} (e : x m = x' m) (h : Quiet m x' Q) : Quiet m x Q := by
  unfold Quiet at h ⊢
  rw [e]
  exact h

theorem Allocs.congr {h : Heap} {x x' : M Heap α} {Q : Heap → α → Prop} (e : x h = x' h) (ha : Allocs h x' Q) : Allocs h x Q := by
  unfold Allocs at ha ⊢
  rw [e]
  exact ha

theorem quiet_newSenderKey (C : Crypto) (version : UInt8) (dist : DistId) (id it : UInt32) (ct : Slice) (key : PrivKey) :
    Quiet m (newSenderKeyRef C version dist id it ct key) fun _ _ => True := by
  unfold newSenderKeyRef
  refine Quiet.congr (x' := do
      let msg ← memRand (newSenderKey C version dist id it (m.heap.read ct) key)
      let serialized ← onHeap (allocBytes msg.serialized)
      return { version := msg.version, distID := msg.distID, chainID := msg.chainID, iteration := msg.iteration,
               ciphertext := ct, serialized := serialized : SenderKeyRef }) rfl ?_
  refine Quiet.bind (Quiet.rand _) fun m1 msg _ _ => ?_
  refine Quiet.bind (Quiet.heap (allocs_bytes _ _)) fun m2 s _ _ => ?_
  exact ⟨(Quiet.pure _).1, fun _ _ => trivial⟩

/-- `EncryptMessage` on success: the first state has a new chain key, in a new array. -/
theorem keeping_encrypt (C : Crypto) (hp : m.Places) (sender : Address) (dist : DistId) (x : Slice) :
    Keeping m m (encryptBytes C sender dist x) fun m' _ => ∃ s r c, m.records (sender, dist) = some (s :: r) ∧
      m'.records = upd m.records (sender, dist) (some ({ s with chainKey := c } :: r)) ∧ m.heap.length ≤ c.seed.arr := by
  have st := Stores.refl hp
  unfold encryptBytes
  refine (Keeping.quiet st (Quiet.load _)).bind fun m1 rec st1 ⟨_, e1, e2⟩ => ?_
  subst m1
  cases hrec : m.records (sender, dist) with
  | none =>
    rw [hrec] at e2
    subst e2
    exact ((Keeping.quiet st (Quiet.throw _)).mono fun _ _ h => h.2.elim)
  | some record =>
    rw [hrec] at e2
    subst e2
    simp only
    refine (Keeping.quiet st (Quiet.lift _)).bind fun m1 s st1 ⟨_, e1, e2⟩ => ?_
    subst m1
    cases record with
    | nil => simp [stateRef] at e2
    | cons s' r =>
    simp only [stateRef, Res.ok.injEq] at e2
    subst s
    refine (Keeping.quiet st (Quiet.heap (allocs_messageKey C _ _))).bind fun m1 mk st1 ⟨s1, _⟩ => ?_
    refine (Keeping.quiet st1 (Quiet.heap (allocs_encrypt C _ _ _ _))).bind fun m2 ct st2 ⟨s2, _⟩ => ?_
    refine (Keeping.quiet st2 (Quiet.lift _)).bind fun m3 sk st3 ⟨_, e3, _⟩ => ?_
    subst m3
    refine (Keeping.quiet st2 (quiet_newSenderKey C _ _ _ _ _ _)).bind fun m4 msg st4 ⟨s4, _⟩ => ?_
    refine (Keeping.quiet st4 (Quiet.heap (allocs_next C _ _))).bind fun m5 next st5 ⟨s5, hnew⟩ => ?_
    have s04 := (s1.trans s2).trans s4
    have s05 := s04.trans s5
    have hd := hp.distinct _ _ hrec
    have hren : Renews (placesOf (s' :: r)) m.heap.length (placesOf ({ s' with chainKey := next } :: r)) m5.heap.length := by
      rw [placesOf_cons] at hd ⊢
      rw [placesOf_cons]
      unfold GStateRef.arrays at hd ⊢
      simp only [List.cons_append] at hd ⊢
      exact Renews.head hd (Nat.le_trans s04.grows hnew.1) hnew.2 s05.grows
    refine (Keeping.store hp s05 (by rw [hrec]; rfl) hren).bind fun m6 _ st6 e6 => ?_
    refine (Keeping.quiet st6 (Quiet.store _ _ (by rw [e6]; exact upd_same _ _ _))).bind fun m7 _ st7 ⟨_, e7⟩ => ?_
    subst m7
    refine (Keeping.quiet st6 (Quiet.pure _)).mono fun m8 _ ⟨_, e8, _⟩ => ?_
    subst m8
    exact ⟨s', r, next, rfl, by rw [e6, s05.records], Nat.le_trans s04.grows hnew.1⟩

theorem keeping_decrypt (C : Crypto) (hp : m.Places) (sender : Address) (msg : SenderKeyRef) :
    Keeping m m (decryptBytes C sender msg) fun _ _ => True := by
  have st := Stores.refl hp
  unfold decryptBytes
  refine (Keeping.quiet st (Quiet.load _)).bind fun m1 rec st1 ⟨_, e1, e2⟩ => ?_
  subst m1
  cases hrec : m.records (sender, msg.distID) with
  | none =>
    rw [hrec] at e2
    subst e2
    exact ((Keeping.quiet st (Quiet.throw _)).mono fun _ _ h => h.2.elim)
  | some record =>
    rw [hrec] at e2
    subst e2
    simp only
    cases hf : record.find? fun s => decide (msg.chainID = s.chainId) with
    | none => exact ((Keeping.quiet st (Quiet.throw _)).mono fun _ _ h => h.2.elim)
    | some state =>
      simp only
      split
      · exact ((Keeping.quiet st (Quiet.throw _)).mono fun _ _ h => h.2.elim)
      · refine (Keeping.quiet st (Quiet.lift _)).bind fun m1 sk st1 ⟨_, e1, _⟩ => ?_
        subst m1
        refine (Keeping.quiet st Quiet.get).bind fun m1 m1' st1 ⟨_, e1, e2⟩ => ?_
        subst m1' m1
        refine (Keeping.quiet st (Quiet.lift _)).bind fun m1 valid st1 ⟨_, e1, _⟩ => ?_
        subst m1
        split
        · have hd := hp.distinct _ _ hrec
          refine (Keeping.quiet st (Quiet.heap (allocs_groupMessageKey C _ _ _ (distinct_state (List.mem_of_find?_eq_some hf) hd)))).bind
            fun m1 out st1 ⟨s1, hren⟩ => ?_
          refine (Keeping.store hp s1 (by rw [hrec]; rfl) (set_state_renews hf hd s1.grows hren)).bind fun m2 _ st2 e2 => ?_
          refine (Keeping.quiet st2 (Quiet.heap (allocs_decrypt C _ _ _ _))).bind fun m3 p st3 ⟨s3, _⟩ => ?_
          refine (Keeping.quiet st3 (Quiet.store _ _ (by rw [s3.records, e2]; exact upd_same _ _ _))).bind fun m4 _ st4 _ => ?_
          exact (Keeping.quiet st4 (Quiet.pure _)).mono fun _ _ _ => trivial
        · exact ((Keeping.quiet st (Quiet.throw _)).mono fun _ _ h => h.2.elim)

theorem allocs_newState (version : UInt8) (id it : UInt32) (x : Slice) (k : PubKey) (p : Option PrivKey) (h : Heap) :
    Allocs h (newGroupStateRef version id it x k p) fun h' s => Renews [] h.length s.arrays h'.length :=
  Allocs.bind (x := makeCopy x.len x) (Q := fun h' s => IsNew h.length h' s.arr) (allocs_bytes _ h) fun h1 c l1 hc => (Allocs.pure _).mono fun h2 s l2 ⟨e1, e2⟩ => by
    subst e1
    subst e2
    exact ⟨by simp [GStateRef.arrays], by simpa [GStateRef.arrays] using hc.2, by simpa [GStateRef.arrays] using hc.1⟩

theorem keeping_process (hp : m.Places) (sender : Address) (msg : DistributionRef) : Keeping m m (processBytes sender msg) fun _ _ => True := by
  have st := Stores.refl hp
  unfold processBytes
  refine (Keeping.quiet st (Quiet.load _)).bind fun m1 rec st1 ⟨_, e1, e2⟩ => ?_
  subst m1
  refine (Keeping.quiet st (Quiet.heap (allocs_newState _ _ _ _ _ _ _))).bind fun m1 state st1 ⟨s1, hren⟩ => ?_
  refine (Keeping.quiet st1 (Quiet.lift _)).bind fun m2 r st2 ⟨_, e3, hr⟩ => ?_
  subst m2
  have hd : Distinct (placesOf (rec.getD [])) m.heap.length := by
    rw [e2]
    cases h : m.records (sender, msg.distID) with
    | none => exact ⟨by simp [placesOf], by simp [placesOf]⟩
    | some r => exact hp.distinct _ _ h
  exact (Keeping.store hp s1 (by rw [e2]) (add_state_renews hr hd s1.grows hren)).mono fun _ _ _ => trivial

theorem keeping_create (C : Crypto) (hp : m.Places) (sender : Address) (dist : DistId) (hnone : m.records (sender, dist) = none) :
    Keeping m m (createSenderKeyRef C sender dist) fun _ _ => True := by
  have st := Stores.refl hp
  unfold createSenderKeyRef
  refine (Keeping.quiet st (Quiet.sysRand _)).bind fun m1 id st1 ⟨s1, _⟩ => ?_
  refine (Keeping.quiet st1 (Quiet.rand _)).bind fun m2 k st2 ⟨s2, _⟩ => ?_
  refine (Keeping.quiet st2 (Quiet.heap (allocs_bytes _ _))).bind fun m3 ks st3 ⟨s3, _⟩ => ?_
  refine (Keeping.quiet st3 (Quiet.rand _)).bind fun m4 kp st4 ⟨s4, _⟩ => ?_
  refine (Keeping.quiet st4 (Quiet.heap (allocs_newState _ _ _ _ _ _ _))).bind fun m5 state st5 ⟨s5, hren⟩ => ?_
  refine (Keeping.quiet st5 (Quiet.lift _)).bind fun m6 r st6 ⟨_, e6, hr⟩ => ?_
  subst m6
  have s04 := ((s1.trans s2).trans s3).trans s4
  have hren' : Renews [] m.heap.length state.arrays m5.heap.length :=
    ⟨hren.nodup, hren.lt, fun i hi => by
      rcases hren.old i hi with h | h
      · exact .inl h
      · exact .inr (Nat.le_trans s04.grows h)⟩
  refine (Keeping.store hp (s04.trans s5) (r := []) (by rw [hnone]; rfl)
    (add_state_renews hr ⟨by simp [placesOf], by simp [placesOf]⟩ (s04.trans s5).grows hren')).bind fun m7 _ st7 _ => ?_
  exact (Keeping.quiet st7 (Quiet.pure _)).mono fun _ _ _ => trivial

theorem allocs_distribution (version : UInt8) (dist : DistId) (id it : UInt32) (x : Slice) (k : PubKey) (h : Heap) :
    Allocs h (newDistributionRef version dist id it x k) fun _ _ => True := by
  refine Allocs.congr (x' := do
      let serialized ← allocBytes (newDistribution version dist id it (h.read x) k).serialized
      return { version := version, distID := dist, chainID := id, iteration := it, chainKey := x,
               signingKey := k, serialized := serialized : DistributionRef }) rfl ?_
  exact Allocs.bind (allocs_bytes _ h) fun h1 c l1 hc => (Allocs.pure _).mono fun _ _ _ _ => trivial

theorem keeping_newDistribution (C : Crypto) (hp : m.Places) (sender : Address) (dist : DistId) :
    Keeping m m (newDistributionBytes C sender dist) fun _ _ => True := by
  have st := Stores.refl hp
  unfold newDistributionBytes
  refine (Keeping.quiet st (Quiet.load _)).bind fun m1 stored st1 ⟨_, e1, e2⟩ => ?_
  subst m1
  have tail : ∀ (m2 : GMem) (r : List GStateRef), Stores m m2 → Keeping m m2 (do
      let state ← M.lift (stateRef r)
      let signingKey ← M.lift (newPublicKey state.signingPublic)
      onHeap (newDistributionRef state.version.toUInt8 dist state.chainId state.chainKey.iteration state.chainKey.seed signingKey)) fun _ _ => True := by
    intro m2 r st2
    refine (Keeping.quiet st2 (Quiet.lift _)).bind fun m3 s st3 ⟨_, e3, _⟩ => ?_
    refine (Keeping.quiet st3 (Quiet.lift _)).bind fun m4 k st4 ⟨_, e4, _⟩ => ?_
    exact (Keeping.quiet st4 (Quiet.heap (allocs_distribution _ _ _ _ _ _ _))).mono fun _ _ _ => trivial
  cases stored with
  | some r => exact (Keeping.quiet st (Quiet.pure r)).bind fun m2 r st2 _ => tail m2 r st2
  | none => exact (keeping_create C hp sender dist e2.symm).bind fun m2 r st2 _ => tail m2 r st2

theorem allocs_senderKeyFrom (x : Slice) (h : Heap) : Allocs h (senderKeyFromSlice x) fun _ _ => True := by
  unfold senderKeyFromSlice
  refine Allocs.bind (x := M.get) (Q := fun _ _ => True) ⟨Nat.le_refl _, fun _ _ => trivial⟩ fun h1 a l1 _ => ?_
  refine (Allocs.lift _).bind fun h2 d l2 _ => (allocs_bytes _ _).bind fun h3 c l3 _ => (Allocs.pure _).mono fun _ _ _ _ => trivial

theorem allocs_distributionFrom (x : Slice) (h : Heap) : Allocs h (distributionFromSlice x) fun _ _ => True := by
  unfold distributionFromSlice
  refine Allocs.bind (x := M.get) (Q := fun _ _ => True) ⟨Nat.le_refl _, fun _ _ => trivial⟩ fun h1 a l1 _ => ?_
  refine (Allocs.lift _).bind fun h2 d l2 _ => (allocs_bytes _ _).bind fun h3 c l3 _ => (Allocs.pure _).mono fun _ _ _ _ => trivial

/-! ## Programs -/

theorem ByteMem.call_mem {s : ByteMem} (x : M GMem α) (sl ck : α → List Slice) : (s.call x sl ck).2.mem = (x s.mem).2 := by
  unfold ByteMem.call
  split <;> rename_i h <;> rw [h]

theorem Keeping.join {x : M GMem α} {f : α → M GMem β} {Q : GMem → α → Prop} (hq : Keeping m m x Q) (hf : ∀ m' a, m'.Places → Keeping m' m' (f a) fun _ _ => True) :
    Keeping m m (x >>= f) fun _ _ => True :=
  hq.bind fun m' a st _ => ⟨st.trans (hf m' a st.places).1, fun _ _ => trivial⟩

theorem stores_writeTo {s : ByteMem} (hp : s.mem.Places) (x : Slice) (offset : Nat) (bytes : Bytes) : Stores s.mem (s.writeTo x offset bytes).mem := by
  unfold ByteMem.writeTo
  split
  · exact Stores.heap hp (by simp)
  · exact Stores.refl hp

theorem ByteMem.stores (C : Crypto) {s : ByteMem} (hp : s.mem.Places) (op : ByteOp) : Stores s.mem (s.step C op).2.mem := by
  have stay := Stores.refl hp
  cases op with
  | make => exact Stores.heap hp (by simp)
  | write i offset bytes =>
    simp only [ByteMem.step]
    split
    · exact stores_writeTo hp ..
    · exact stay
  | writeChainKey i offset bytes =>
    simp only [ByteMem.step]
    split
    · exact stores_writeTo hp ..
    · exact stay
  | newDistribution sender dist =>
    simp only [ByteMem.step]
    rw [ByteMem.call_mem]
    exact (keeping_newDistribution C hp sender dist).1
  | process sender i =>
    simp only [ByteMem.step]
    split
    · rw [ByteMem.call_mem]
      exact ((Keeping.quiet stay (Quiet.heap (allocs_distributionFrom _ _))).join fun m1 d p1 => (keeping_process p1 sender d).join fun m2 _ p2 =>
        (Keeping.quiet (Stores.refl p2) (Quiet.pure _)).mono fun _ _ _ => trivial).1
    · exact stay
  | encrypt sender dist i =>
    simp only [ByteMem.step]
    split
    · rw [ByteMem.call_mem]
      exact (keeping_encrypt C hp sender dist _).1
    · exact stay
  | decrypt sender i =>
    simp only [ByteMem.step]
    split
    · rw [ByteMem.call_mem]
      exact ((Keeping.quiet stay (Quiet.heap (allocs_senderKeyFrom _ _))).join fun m1 d p1 => (keeping_decrypt C p1 sender d).join fun m2 _ p2 =>
        (Keeping.quiet (Stores.refl p2) (Quiet.pure _)).mono fun _ _ _ => trivial).1
    · exact stay

theorem ByteMem.stores_run (C : Crypto) {s : ByteMem} (hp : s.mem.Places) (ops : List ByteOp) : Stores s.mem (s.run C ops).2.mem := by
  induction ops generalizing s with
  | nil => exact Stores.refl hp
  | cons op ops ih => exact (ByteMem.stores C hp op).trans (ih (ByteMem.stores C hp op).places)

theorem places_start (rand sysRand : Bytes) : (ByteMem.start rand sysRand).mem.Places :=
  ⟨fun k r hr => by simp [ByteMem.start] at hr, fun k k' r r' _ hr => by simp [ByteMem.start] at hr⟩

theorem places_reached (C : Crypto) (rand sysRand : Bytes) (ops : List ByteOp) : ((ByteMem.start rand sysRand).run C ops).2.mem.Places :=
  (ByteMem.stores_run C (places_start rand sysRand) ops).places

/-- An array that no record uses is never used again. -/
theorem Stores.unused {m m' : GMem} (h : Stores m m') {i : Nat} (hi : i < m.heap.length) (hu : ∀ k r, m.records k = some r → i ∉ placesOf r) :
    ∀ k r, m'.records k = some r → i ∉ placesOf r := by
  intro k r hr hm
  rcases h.old k r hr i hm with ⟨r0, h1, h2⟩ | h1
  · exact hu k r0 h1 h2
  · omega

theorem read_modify_ne (h : Heap) (i : Nat) (f : Bytes → Bytes) {s : Slice} (hs : s.arr ≠ i) : Heap.read (h.modify i f) s = h.read s := by
  unfold Heap.read
  rw [array_modify_ne h i s.arr f (Ne.symm hs)]

theorem seen_modify_ne (h : Heap) (i : Nat) (f : Bytes → Bytes) {s : GStateRef} (hs : i ∉ s.arrays) : s.seen (h.modify i f) = s.seen h := by
  unfold GStateRef.arrays at hs
  simp only [List.mem_cons, List.mem_map, not_or, not_exists, not_and] at hs
  unfold GStateRef.seen
  congr 1
  · unfold ChainRef.seen
    rw [read_modify_ne _ _ _ (Ne.symm hs.1)]
  · refine List.map_congr_left fun c hc => ?_
    unfold ChainRef.seen
    rw [read_modify_ne _ _ _ (hs.2 c hc)]

theorem map_seen_modify_ne (h : Heap) (i : Nat) (f : Bytes → Bytes) {r : List GStateRef} (hr : i ∉ placesOf r) :
    r.map (GStateRef.seen (h.modify i f)) = r.map (GStateRef.seen h) := by
  refine List.map_congr_left fun s hs => seen_modify_ne h i f fun hm => hr ?_
  exact List.mem_flatMap.2 ⟨s, hs, hm⟩

/-- Writing to an array that no record uses changes nothing that the library would load. -/
theorem seen_unused {m : GMem} {i : Nat} (hu : ∀ k r, m.records k = some r → i ∉ placesOf r) (f : Bytes → Bytes) :
    GMem.seen { m with heap := m.heap.modify i f } = m.seen := by
  unfold GMem.seen
  congr 1
  funext k
  cases hr : m.records k with
  | none => rfl
  | some r => exact congrArg some (map_seen_modify_ne _ _ _ (hu k r hr))

/-! ## Which records a call changes -/

/-- The step leaves these records. -/
def Frame (p : Address × DistId → Prop) (x : M GMem α) : Prop := ∀ m j, p j → (x m).2.records j = m.records j

variable {p : Address × DistId → Prop}

theorem Frame.bind {x : M GMem α} {f : α → M GMem β} (h1 : Frame p x) (h2 : ∀ a, Frame p (f a)) : Frame p (x >>= f) := by
  intro m j hj
  have e := h1 m j hj
  rw [M.bind_run]
  generalize x m = xm at e
  obtain ⟨r, m'⟩ := xm
  cases r with
  | ok a => exact (h2 a m' j hj).trans e
  | err e' => exact e
  | panic => exact e

theorem Frame.quiet {x : M GMem α} (h : ∀ m, ∃ Q, Quiet m x Q) : Frame p x := fun m j _ => by
  obtain ⟨Q, hq⟩ := h m
  rw [hq.1.records]

theorem Frame.load (k : Address × DistId) : Frame p (memLoad k) := fun _ _ _ => rfl
theorem Frame.lift (r : Res α) : Frame p (M.lift r : M GMem α) := fun _ _ _ => rfl
theorem Frame.throw (e : Err) : Frame p (M.throw e : M GMem α) := fun _ _ _ => rfl
theorem Frame.pure (a : α) : Frame p (pure a : M GMem α) := fun _ _ _ => rfl
theorem Frame.heap (x : M Heap α) : Frame p (onHeap x) := fun _ _ _ => rfl
theorem Frame.rand (x : M Bytes α) : Frame p (memRand x) := fun _ _ _ => rfl
theorem Frame.sysRand (x : M Bytes α) : Frame p (memSysRand x) := fun _ _ _ => rfl
theorem Frame.store {k : Address × DistId} (hk : ¬ p k) (r : List GStateRef) : Frame p (memStore k r) := fun m j hj => by
  have : j ≠ k := fun e => hk (e ▸ hj)
  simp only [memStore]
  exact upd_ne _ _ this

theorem frame_encrypt (C : Crypto) (sender : Address) (dist : DistId) (x : Slice) : Frame (fun j => j.1 ≠ sender) (encryptBytes C sender dist x) := by
  unfold encryptBytes
  refine (Frame.load _).bind fun rec => ?_
  cases rec with
  | none => exact Frame.throw _
  | some r =>
    refine (Frame.lift _).bind fun s => (Frame.heap _).bind fun k => (Frame.heap _).bind fun c => (Frame.lift _).bind fun sk => ?_
    refine (Frame.quiet fun m => ⟨_, quiet_newSenderKey C _ _ _ _ _ _⟩).bind fun msg => (Frame.heap _).bind fun n => ?_
    exact (Frame.store (by simp) _).bind fun _ => (Frame.store (by simp) _).bind fun _ => Frame.pure _

theorem frame_decrypt (C : Crypto) (sender : Address) (msg : SenderKeyRef) : Frame (fun j => j.1 ≠ sender) (decryptBytes C sender msg) := by
  unfold decryptBytes
  refine (Frame.load _).bind fun rec => ?_
  cases rec with
  | none => exact Frame.throw _
  | some r =>
    simp only
    cases r.find? fun s => decide (msg.chainID = s.chainId) with
    | none => exact Frame.throw _
    | some s =>
      simp only
      split
      · exact Frame.throw _
      · refine (Frame.lift _).bind fun sk => Frame.bind (x := M.get) (fun _ _ _ => rfl) fun m => (Frame.lift _).bind fun v => ?_
        split
        · exact (Frame.heap _).bind fun o => (Frame.store (by simp) _).bind fun _ => (Frame.heap _).bind fun p => (Frame.store (by simp) _).bind fun _ => Frame.pure _
        · exact Frame.throw _

theorem frame_process (sender : Address) (msg : DistributionRef) : Frame (fun j => j.1 ≠ sender) (processBytes sender msg) := by
  unfold processBytes
  exact (Frame.load _).bind fun rec => (Frame.heap _).bind fun s => (Frame.lift _).bind fun r => Frame.store (by simp) _

theorem frame_newDistribution (C : Crypto) (sender : Address) (dist : DistId) : Frame (fun j => j.1 ≠ sender) (newDistributionBytes C sender dist) := by
  unfold newDistributionBytes
  refine (Frame.load _).bind fun rec => ?_
  have tail : ∀ r : List GStateRef, Frame (fun j => j.1 ≠ sender) (do
      let state ← M.lift (stateRef r)
      let signingKey ← M.lift (newPublicKey state.signingPublic)
      onHeap (newDistributionRef state.version.toUInt8 dist state.chainId state.chainKey.iteration state.chainKey.seed signingKey)) :=
    fun r => (Frame.lift _).bind fun s => (Frame.lift _).bind fun k => Frame.heap _
  cases rec with
  | some r => exact (Frame.pure r).bind tail
  | none =>
    refine Frame.bind ?_ tail
    unfold createSenderKeyRef
    exact (Frame.sysRand _).bind fun _ => (Frame.rand _).bind fun _ => (Frame.heap _).bind fun _ => (Frame.rand _).bind fun _ => (Frame.heap _).bind fun _ =>
      (Frame.lift _).bind fun _ => (Frame.store (by simp) _).bind fun _ => Frame.pure _

theorem ByteMem.writeTo_records (s : ByteMem) (x : Slice) (offset : Nat) (bytes : Bytes) : (s.writeTo x offset bytes).mem.records = s.mem.records := by
  unfold ByteMem.writeTo
  split <;> rfl

theorem ByteMem.frame (C : Crypto) (s : ByteMem) (op : ByteOp) (j : Address × DistId)
    (hj : match op with
      | .newDistribution sender _ | .process sender _ | .encrypt sender _ _ | .decrypt sender _ => sender ≠ j.1
      | _ => True) : (s.step C op).2.mem.records j = s.mem.records j := by
  cases op with
  | make => rfl
  | write i offset bytes =>
    simp only [ByteMem.step]
    split
    · rw [ByteMem.writeTo_records]
    · rfl
  | writeChainKey i offset bytes =>
    simp only [ByteMem.step]
    split
    · rw [ByteMem.writeTo_records]
    · rfl
  | newDistribution sender dist =>
    simp only [ByteMem.step]
    rw [ByteMem.call_mem]
    exact frame_newDistribution C sender dist _ j (Ne.symm hj)
  | process sender i =>
    simp only [ByteMem.step]
    split
    · rw [ByteMem.call_mem]
      exact (Frame.bind (Frame.heap _) fun d => (frame_process sender d).bind fun _ => Frame.pure _) _ j (Ne.symm hj)
    · rfl
  | encrypt sender dist i =>
    simp only [ByteMem.step]
    split
    · rw [ByteMem.call_mem]
      exact frame_encrypt C sender dist _ _ j (Ne.symm hj)
    · rfl
  | decrypt sender i =>
    simp only [ByteMem.step]
    split
    · rw [ByteMem.call_mem]
      exact (Frame.bind (Frame.heap _) fun d => (frame_decrypt C sender d).bind fun _ => Frame.pure _) _ j (Ne.symm hj)
    · rfl

theorem ByteMem.call_chainKeys {γ} (s : ByteMem) (x : M GMem γ) (sl ck : γ → List Slice) : s.chainKeys <+: (s.call x sl ck).2.chainKeys := by
  unfold ByteMem.call
  split
  · exact List.prefix_append _ _
  · exact List.prefix_refl _
  · exact List.prefix_refl _

theorem ByteMem.writeTo_chainKeys (s : ByteMem) (x : Slice) (offset : Nat) (bytes : Bytes) : (s.writeTo x offset bytes).chainKeys = s.chainKeys := by
  unfold ByteMem.writeTo
  split <;> rfl

theorem ByteMem.step_chainKeys (C : Crypto) (s : ByteMem) (op : ByteOp) : s.chainKeys <+: (s.step C op).2.chainKeys := by
  cases op <;> simp only [ByteMem.step] <;> (repeat' split) <;>
    first
    | exact List.prefix_refl _
    | exact ByteMem.call_chainKeys ..
    | (rw [ByteMem.writeTo_chainKeys]; exact List.prefix_refl _)

theorem ByteMem.run_chainKeys (C : Crypto) (s : ByteMem) (ops : List ByteOp) : s.chainKeys <+: (s.run C ops).2.chainKeys := by
  induction ops generalizing s with
  | nil => exact List.prefix_refl _
  | cons op ops ih => exact (ByteMem.step_chainKeys C s op).trans (ih _)

/-- After `EncryptMessage` no record uses the array of the chain key that was there. -/
theorem encrypt_frees (C : Crypto) (hp : m.Places) {sender : Address} {dist : DistId} {x : Slice} {o : SenderKeyRef} {m' : GMem}
    (h : encryptBytes C sender dist x m = (.ok o, m')) {s : GStateRef} {r : List GStateRef} (hr : m.records (sender, dist) = some (s :: r)) :
    ∀ k r', m'.records k = some r' → s.chainKey.seed.arr ∉ placesOf r' := by
  obtain ⟨_, q⟩ := keeping_encrypt C hp sender dist x
  rw [h] at q
  obtain ⟨s1, r1, c, h1, h2, h3⟩ := q o rfl
  rw [hr] at h1
  cases h1
  have hd := hp.distinct _ _ hr
  have hlt : s.chainKey.seed.arr < m.heap.length := hd.2 _ (by simp [placesOf, GStateRef.arrays])
  intro k r' hk hm
  rw [h2] at hk
  by_cases he : k = (sender, dist)
  · subst he
    rw [upd_same] at hk
    cases hk
    have hn := hd.1
    simp only [placesOf_cons, GStateRef.arrays, List.cons_append, List.mem_cons, List.nodup_cons] at hm hn
    rcases hm with hm | hm
    · omega
    · exact hn.1 hm
  · rw [upd_ne _ _ he] at hk
    exact hp.apart _ _ _ _ (Ne.symm he) hr hk _ (by simp [placesOf, GStateRef.arrays]) hm

end
end Verif
