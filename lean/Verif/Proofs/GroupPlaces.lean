import Verif.Proofs.GroupBytesRun

/-! Helper lemmas for C131: no two places of the store share an array. -/

namespace Verif

/-- The arrays behind the slices of a state. -/
def GStateRef.arrays (s : GStateRef) : List Nat := s.chainKey.seed.arr :: s.messageKeys.map fun c => c.seed.arr

/-- The arrays behind the slices of a record. -/
def placesOf (r : List GStateRef) : List Nat := r.flatMap GStateRef.arrays

theorem placesOf_append (r r' : List GStateRef) : placesOf (r ++ r') = placesOf r ++ placesOf r' := List.flatMap_append ..
theorem placesOf_cons (s : GStateRef) (r : List GStateRef) : placesOf (s :: r) = s.arrays ++ placesOf r := List.flatMap_cons ..

/-- All arrays are distinct, and below `n`. -/
def Distinct (l : List Nat) (n : Nat) : Prop := l.Nodup ∧ ∀ i ∈ l, i < n

/-- `l'` has arrays of `l` and new ones. -/
structure Renews (l : List Nat) (n : Nat) (l' : List Nat) (n' : Nat) : Prop where
  nodup : l'.Nodup
  lt : ∀ i ∈ l', i < n'
  old : ∀ i ∈ l', i ∈ l ∨ n ≤ i

theorem Renews.refl {l : List Nat} {n n' : Nat} (h : Distinct l n) (hn : n ≤ n') : Renews l n l n' :=
  ⟨h.1, fun i hi => Nat.lt_of_lt_of_le (h.2 i hi) hn, fun _ hi => .inl hi⟩

theorem Renews.trans {l l' l'' : List Nat} {n n' n'' : Nat} (h : Renews l n l' n') (h' : Renews l' n' l'' n'') (hn : n ≤ n') : Renews l n l'' n'' :=
  ⟨h'.nodup, h'.lt, fun i hi => by
    rcases h'.old i hi with h1 | h1
    · exact h.old i h1
    · exact .inr (Nat.le_trans hn h1)⟩

theorem Renews.distinct {l l' : List Nat} {n n' : Nat} (h : Renews l n l' n') : Distinct l' n' := ⟨h.nodup, h.lt⟩

theorem Renews.up {l l' : List Nat} {n n' n'' : Nat} (h : Renews l n l' n') (hn : n' ≤ n'') : Renews l n l' n'' :=
  ⟨h.nodup, fun i hi => Nat.lt_of_lt_of_le (h.lt i hi) hn, h.old⟩

/-- Fewer arrays. -/
theorem Renews.sub {l l' : List Nat} {n n' : Nat} (h : Distinct l n) (hn : n ≤ n') (hs : List.Sublist l' l) : Renews l n l' n' :=
  ⟨h.1.sublist hs, fun i hi => Nat.lt_of_lt_of_le (h.2 i (hs.subset hi)) hn, fun i hi => .inl (hs.subset hi)⟩

/-- The middle part is renewed. -/
theorem Renews.middle {a b b' c : List Nat} {n n' : Nat} (h : Distinct (a ++ b ++ c) n) (hn : n ≤ n') (hb : Renews b n b' n') :
    Renews (a ++ b ++ c) n (a ++ b' ++ c) n' := by
  obtain ⟨h1, h2⟩ := h
  rw [List.append_assoc, List.nodup_append] at h1
  obtain ⟨ha, hbc, hd⟩ := h1
  rw [List.nodup_append] at hbc
  obtain ⟨_, hc, hd2⟩ := hbc
  have lta : ∀ i ∈ a, i < n := fun i hi => h2 i (by simp [hi])
  have ltc : ∀ i ∈ c, i < n := fun i hi => h2 i (by simp [hi])
  refine ⟨?_, ?_, ?_⟩
  · rw [List.append_assoc, List.nodup_append]
    refine ⟨ha, List.nodup_append.2 ⟨hb.nodup, hc, ?_⟩, ?_⟩
    · rintro i hi j hj rfl
      rcases hb.old i hi with h | h
      · exact hd2 i h i hj rfl
      · have := ltc i hj
        omega
    · rintro i hi j hj rfl
      rcases List.mem_append.1 hj with h | h
      · rcases hb.old i h with h | h
        · exact hd i hi i (by simp [h]) rfl
        · have := lta i hi
          omega
      · exact hd i hi i (by simp [h]) rfl
  · intro i hi
    rcases List.mem_append.1 hi with hi | hi
    · rcases List.mem_append.1 hi with hi | hi
      · exact Nat.lt_of_lt_of_le (lta i hi) hn
      · exact hb.lt i hi
    · exact Nat.lt_of_lt_of_le (ltc i hi) hn
  · intro i hi
    rcases List.mem_append.1 hi with hi | hi
    · rcases List.mem_append.1 hi with hi | hi
      · exact .inl (by simp [hi])
      · rcases hb.old i hi with h | h
        · exact .inl (by simp [h])
        · exact .inr h
    · exact .inl (by simp [hi])

/-- A new array in the place of the first. -/
theorem Renews.head {a b : Nat} {l : List Nat} {n n' : Nat} (h : Distinct (a :: l) n) (hb : n ≤ b) (hb' : b < n') (hn : n ≤ n') : Renews (a :: l) n (b :: l) n' := by
  have := Renews.middle (a := []) (b := [a]) (b' := [b]) (c := l) (n := n) (n' := n') (by simpa using h) hn
    ⟨by simp, by simpa using hb', by simpa using Or.inr hb⟩
  simpa using this

/-- The store: the arrays of a record are distinct, and records share none. -/
structure GMem.Places (m : GMem) : Prop where
  distinct : ∀ k r, m.records k = some r → Distinct (placesOf r) m.heap.length
  apart : ∀ k k' r r', k ≠ k' → m.records k = some r → m.records k' = some r' → ∀ i ∈ placesOf r, i ∉ placesOf r'

theorem GMem.Places.heap {m : GMem} (h : m.Places) {hp : Heap} (hn : m.heap.length ≤ hp.length) : GMem.Places { m with heap := hp } :=
  ⟨fun k r hr => ⟨(h.distinct k r hr).1, fun i hi => Nat.lt_of_lt_of_le ((h.distinct k r hr).2 i hi) hn⟩, h.apart⟩

/-- What a call may do to the records: it renews the arrays of one record at most. -/
structure Stores (m m' : GMem) : Prop where
  places : m'.Places
  grows : m.heap.length ≤ m'.heap.length
  old : ∀ k r, m'.records k = some r → ∀ i ∈ placesOf r, (∃ r0, m.records k = some r0 ∧ i ∈ placesOf r0) ∨ m.heap.length ≤ i

theorem Stores.refl {m : GMem} (h : m.Places) : Stores m m := ⟨h, Nat.le_refl _, fun _ r hr _ hi => .inl ⟨r, hr, hi⟩⟩

theorem Stores.trans {a b c : GMem} (h1 : Stores a b) (h2 : Stores b c) : Stores a c :=
  ⟨h2.places, Nat.le_trans h1.grows h2.grows, fun k r hr i hi => by
    rcases h2.old k r hr i hi with ⟨r0, h3, h4⟩ | h3
    · exact h1.old k r0 h3 i h4
    · exact .inr (Nat.le_trans h1.grows h3)⟩

theorem Stores.heap {m : GMem} (h : m.Places) {hp : Heap} (hn : m.heap.length ≤ hp.length) : Stores m { m with heap := hp } :=
  ⟨h.heap hn, hn, fun _ r hr _ hi => .inl ⟨r, hr, hi⟩⟩

/-- Storing a record whose arrays are those that the stored one had when memory had `n` arrays, or newer ones. -/
theorem Stores.store {m : GMem} (h : m.Places) {k : Address × DistId} {r' : List GStateRef} {l : List Nat} {n : Nat} (hn : n ≤ m.heap.length)
    (hl : ∀ i ∈ l, ∃ r, m.records k = some r ∧ i ∈ placesOf r) (hu : ∀ k' r, m.records k' = some r → ∀ i ∈ placesOf r, i < n)
    (hr : Renews l n (placesOf r') m.heap.length) :
    GMem.Places { m with records := upd m.records k (some r') } ∧
      ∀ k1 r1, upd m.records k (some r') k1 = some r1 → ∀ i ∈ placesOf r1, (∃ r0, m.records k1 = some r0 ∧ i ∈ placesOf r0) ∨ n ≤ i := by
  have key : ∀ k' r, k' ≠ k → m.records k' = some r → ∀ i ∈ placesOf r', i ∉ placesOf r := by
    intro k' r hk hr' i hi hi'
    rcases hr.old i hi with h1 | h1
    · obtain ⟨r0, h2, h3⟩ := hl i h1
      exact h.apart k k' r0 r (Ne.symm hk) h2 hr' i h3 hi'
    · have := hu k' r hr' i hi'
      omega
  refine ⟨⟨fun k' r h1 => ?_, fun k1 k2 r1 r2 hne h1 h2 i hi hi' => ?_⟩, fun k1 r1 h1 i hi => ?_⟩
  · simp only at h1
    by_cases hk : k' = k
    · subst hk
      rw [upd_same] at h1
      cases h1
      exact hr.distinct
    · rw [upd_ne _ _ hk] at h1
      exact h.distinct k' r h1
  · simp only at h1 h2
    by_cases hk1 : k1 = k
    · subst hk1
      rw [upd_same] at h1
      cases h1
      rw [upd_ne _ _ (Ne.symm hne)] at h2
      exact key k2 r2 (Ne.symm hne) h2 i hi hi'
    · rw [upd_ne _ _ hk1] at h1
      by_cases hk2 : k2 = k
      · subst hk2
        rw [upd_same] at h2
        cases h2
        exact key k1 r1 hk1 h1 i hi' hi
      · rw [upd_ne _ _ hk2] at h2
        exact h.apart k1 k2 r1 r2 hne h1 h2 i hi hi'
  · by_cases hk : k1 = k
    · subst hk
      rw [upd_same] at h1
      cases h1
      rcases hr.old i hi with h2 | h2
      · exact .inl (hl i h2)
      · exact .inr h2
    · rw [upd_ne _ _ hk] at h1
      exact .inl ⟨r1, h1, hi⟩

end Verif
