import Verif.Spec.Getters
import Verif.Proofs.StateBytesRun
import Verif.Props.Buffers

namespace Verif

theorem writeValues_length (vs : List Bytes) (ws : List PartWrite) : (writeValues vs ws).length = vs.length := by
  induction ws generalizing vs with
  | nil => rfl
  | cons w ws ih => simp [writeValues, ih]

/-- Slices that share no byte are byte strings that have nothing to do with each other. -/
theorem read_writeParts (h : Heap) (parts : List Slice) (hv : ∀ x ∈ parts, h.Valid x) (hp : parts.Pairwise NoOverlap) (ws : List PartWrite) :
    parts.map (h.writeParts parts ws).read = writeValues (parts.map h.read) ws := by
  induction ws generalizing h with
  | nil => rfl
  | cons w ws ih =>
    unfold Heap.writeParts writeValues
    cases hx : parts[w.part]? with
    | none =>
      dsimp only
      rw [ih h hv]
      congr 1
      have hl := List.getElem?_eq_none_iff.mp hx
      rw [List.modify_eq_self (by simpa using hl)]
    | some x =>
      dsimp only
      have hm : x ∈ parts := List.mem_of_getElem? hx
      have hvx := hv x hm
      have hlen := len_of_valid hvx
      by_cases fit : w.offset + w.bytes.length ≤ x.len
      · rw [if_pos fit]
        have hv' : ∀ y ∈ parts, (putAt h x w.offset w.bytes).Valid y := fun y hy => valid_putAt hvx fit (hv y hy)
        refine (ih (putAt h x w.offset w.bytes) hv').trans ?_
        congr 1
        apply List.ext_getElem?
        intro j
        rw [List.getElem?_modify, List.getElem?_map, List.getElem?_map]
        cases hy : parts[j]? with
        | none => simp
        | some y =>
          by_cases e : w.part = j
          · subst e
            have : x = y := by simpa [hx] using hy
            subst this
            simp [read_putAt_self hvx fit, hlen, fit]
          · simp only [Option.map_some, e, if_false]
            rw [read_putAt_apart hvx fit]
            · rfl
            · obtain ⟨h1, e1⟩ := List.getElem?_eq_some_iff.mp hx
              obtain ⟨h2, e2⟩ := List.getElem?_eq_some_iff.mp hy
              rcases Nat.lt_or_gt_of_ne e with l | l
              · have := List.pairwise_iff_getElem.mp hp _ _ h1 h2 l
                rwa [e1, e2] at this
              · have := List.pairwise_iff_getElem.mp hp _ _ h2 h1 l
                rw [e1, e2] at this
                rcases this with a | a | a
                · exact .inl (Ne.symm a)
                · exact .inr (.inr a)
                · exact .inr (.inl a)
      · rw [if_neg fit, ih h hv]
        congr 1
        apply List.ext_getElem?
        intro j
        rw [List.getElem?_modify]
        by_cases e : w.part = j
        · subst e
          simp [hx, hlen, fit]
        · simp [e]

theorem pair_apart {x y : Slice} (h : NoOverlap x y) : [x, y].Pairwise NoOverlap := by simpa using h

theorem valid_alloc (h : Heap) (b : Bytes) : Heap.Valid (h ++ [b]) ⟨h.length, 0, b.length, b.length⟩ := by
  refine ⟨by simp, by simp, ?_⟩
  simp [Heap.array]

theorem valid_grow (h t : Heap) (x : Slice) (hv : h.Valid x) : Heap.Valid (h ++ t) x := by
  obtain ⟨h1, h2, h3⟩ := hv
  refine ⟨by simp; omega, h2, ?_⟩
  rw [array_append h t x.arr h1]
  exact h3

/-- The end of `decryptSignal`. (protocol/session/cipher.go:184-212.) -/
def signalEnd (E : Env) (a : Address) (record : Record) (p : Option Bytes) : M World (Option Bytes) := do
  touch E a true record
  match record.current with
  | none => M.throw .mustHaveState
  | some state =>
    match state.remoteIdentityKey with
    | .ok (some theirIdentityKey) =>
      let trusted ← isTrusted E a theirIdentityKey .receiving
      if trusted then
        storeIdentity a theirIdentityKey
        storeSession a record
        return p
      else M.throw (.untrustedIdentity a)
    | .panic => M.panic
    | _ => M.throw .mustHaveIdentity

/-- It returns the plaintext it is given, whatever that is. -/
theorem signalEnd_ok (E : Env) (a : Address) (record : Record) (p q r : Option Bytes) (w w' : World)
    (e : signalEnd E a record p w = (.ok r, w')) : r = p ∧ signalEnd E a record q w = (.ok q, w') := by
  unfold signalEnd at e ⊢
  simp only [bind, M.bind] at e ⊢
  rcases ht : touch E a true record w with ⟨_ | _ | _, w1⟩ <;> rw [ht] at e
  rotate_left
  · cases (Prod.ext_iff.mp e).1
  · cases (Prod.ext_iff.mp e).1
  dsimp only at e ⊢
  cases hc : record.current with
  | none => rw [hc] at e; cases (Prod.ext_iff.mp e).1
  | some state =>
    rw [hc] at e
    dsimp only at e ⊢
    rcases hk : state.remoteIdentityKey with o | _ | _ <;> rw [hk] at e
    rotate_left
    · cases (Prod.ext_iff.mp e).1
    · cases (Prod.ext_iff.mp e).1
    cases o with
    | none => cases (Prod.ext_iff.mp e).1
    | some k =>
      simp only [M.bind] at e ⊢
      rcases hi : isTrusted E a k .receiving w1 with ⟨b | _ | _, w2⟩ <;> rw [hi] at e
      rotate_left
      · cases (Prod.ext_iff.mp e).1
      · cases (Prod.ext_iff.mp e).1
      dsimp only at e ⊢
      cases b with
      | false => cases (Prod.ext_iff.mp e).1
      | true =>
        simp only [if_true, M.bind] at e ⊢
        rcases h1 : storeIdentity a k w2 with ⟨_ | _ | _, w3⟩ <;> rw [h1] at e
        rotate_left
        · cases (Prod.ext_iff.mp e).1
        · cases (Prod.ext_iff.mp e).1
        dsimp only at e ⊢
        rcases h2 : storeSession a record w3 with ⟨_ | _ | _, w4⟩ <;> rw [h2] at e
        rotate_left
        · cases (Prod.ext_iff.mp e).1
        · cases (Prod.ext_iff.mp e).1
        dsimp only at e ⊢
        have e1 := Res.ok.inj (Prod.ext_iff.mp e).1
        have e2 : w4 = w' := (Prod.ext_iff.mp e).2
        exact ⟨e1.symm, by rw [e2]; rfl⟩

/-- The end of `decryptPreKey`. (protocol/session/cipher.go:153-171.) -/
def preKeyEnd (E : Env) (a : Address) (loaded : Bool) (id : Option UInt32) (record : Record) (p : Bytes) : M World (Option Bytes) := do
  touch E a loaded record
  storeSession a record
  match id with
  | some id => deletePreKey id
  | none => pure ()
  return some p

theorem preKeyEnd_ok (E : Env) (a : Address) (loaded : Bool) (id : Option UInt32) (record : Record) (p q : Bytes) (r : Option Bytes) (w w' : World)
    (e : preKeyEnd E a loaded id record p w = (.ok r, w')) : r = some p ∧ preKeyEnd E a loaded id record q w = (.ok (some q), w') := by
  unfold preKeyEnd at e ⊢
  simp only [bind, M.bind] at e ⊢
  rcases ht : touch E a loaded record w with ⟨_ | _ | _, w1⟩ <;> rw [ht] at e
  rotate_left
  · cases (Prod.ext_iff.mp e).1
  · cases (Prod.ext_iff.mp e).1
  dsimp only at e ⊢
  rcases hs : storeSession a record w1 with ⟨_ | _ | _, w2⟩ <;> rw [hs] at e
  rotate_left
  · cases (Prod.ext_iff.mp e).1
  · cases (Prod.ext_iff.mp e).1
  cases id with
  | none =>
    have e1 := Res.ok.inj (Prod.ext_iff.mp e).1
    have e2 : w2 = w' := (Prod.ext_iff.mp e).2
    exact ⟨e1.symm, by rw [← e2]; rfl⟩
  | some i =>
    dsimp only at e ⊢
    simp only [M.bind] at e ⊢
    rcases hd : deletePreKey i w2 with ⟨_ | _ | _, w3⟩ <;> rw [hd] at e
    rotate_left
    · cases (Prod.ext_iff.mp e).1
    · cases (Prod.ext_iff.mp e).1
    have e1 := Res.ok.inj (Prod.ext_iff.mp e).1
    have e2 : w3 = w' := (Prod.ext_iff.mp e).2
    exact ⟨e1.symm, by rw [← e2]; rfl⟩

/-- `append` to a slice changes no byte of that slice and none of another array. -/
theorem read_goAppend {h : Heap} {x y : Slice} (hx : h.Valid x) (hy : h.Valid y) (ha : x = y ∨ x.arr ≠ y.arr) (bs : Bytes) :
    (goAppend h x bs).2.read y = h.read y := by
  unfold goAppend
  by_cases fit : x.len + bs.length ≤ x.cap
  · rw [if_pos fit]
    have hread : ∀ z : Slice, z = x ∨ x.arr ≠ z.arr → Heap.read (h.modify x.arr fun a => overwrite a (x.off + x.len) bs) z = h.read z := by
      intro z hz
      have harr := array_putAt h x x.len bs z.arr
      have hput : (h.modify x.arr fun a => overwrite a (x.off + x.len) bs) = putAt h x x.len bs := rfl
      rw [hput]
      unfold Heap.read
      rw [harr]
      by_cases e : x.arr = z.arr ∧ z.arr < h.length
      · rw [if_pos e]
        rcases hz with rfl | hz
        · obtain ⟨h1, h2, h3⟩ := hx
          exact window_apart _ _ _ _ _ (by omega) (.inr (Nat.le_refl _))
        · exact absurd e.1 hz
      · rw [if_neg e]
    exact hread y (ha.imp Eq.symm id)
  · rw [if_neg fit]
    exact read_append h _ y hy.1

end Verif
