import Verif.Spec.Fields

/-! # The wire-level parser accepts exactly the grammar -/

namespace Verif.Grammar

open Wire

theorem Digits.ne_nil {bs : Bytes} {n : Nat} (h : Digits bs n) : bs ≠ [] := by cases h <;> simp

theorem decVarintN_sound (k : Nat) (bs : Bytes) (n : Nat) (rest : Bytes) (h : decVarintN k bs = some (n, rest)) :
    ∃ p, bs = p ++ rest ∧ Digits p n ∧ p.length ≤ k ∧ n < 2 ^ (7 * (k - 1) + 1) := by
  induction k generalizing bs n with
  | zero => cases bs <;> simp [decVarintN] at h
  | succ k ih =>
    cases bs with
    | nil => cases k <;> simp [decVarintN] at h
    | cons b bs =>
      cases k with
      | zero =>
        simp only [decVarintN] at h
        split at h
        · rename_i hb
          simp only [Option.some.injEq, Prod.mk.injEq] at h
          obtain ⟨rfl, rfl⟩ := h
          exact ⟨[b], rfl, .last b (by omega), by simp, by simpa using hb⟩
        · cases h
      | succ k =>
        simp only [decVarintN] at h
        have hp : (2:Nat) ^ (7 * (k + 1) + 1) = 128 * 2 ^ (7 * k + 1) := by
          rw [show 7 * (k + 1) + 1 = 7 + (7 * k + 1) by omega, Nat.pow_add]
        have hpos : 1 ≤ (2:Nat) ^ (7 * k + 1) := Nat.one_le_two_pow
        split at h
        · rename_i hb
          simp only [Option.some.injEq, Prod.mk.injEq] at h
          obtain ⟨rfl, rfl⟩ := h
          refine ⟨[b], rfl, .last b hb, by simp, ?_⟩
          simp only [Nat.add_sub_cancel]
          omega
        · rename_i hb
          split at h
          · rename_i v r hv
            simp only [Option.some.injEq, Prod.mk.injEq] at h
            obtain ⟨rfl, rfl⟩ := h
            obtain ⟨p, rfl, hd, hl, hlt⟩ := ih _ _ hv
            refine ⟨b :: p, rfl, .more b p v (by omega) hd, by simpa using hl, ?_⟩
            simp only [Nat.add_sub_cancel] at hlt ⊢
            have := b.toNat_lt
            omega
          · cases h

theorem decVarintN_complete (p : Bytes) (n : Nat) (h : Digits p n) (k : Nat) (hl : p.length ≤ k)
    (hn : n < 2 ^ (7 * (k - 1) + 1)) (rest : Bytes) : decVarintN k (p ++ rest) = some (n, rest) := by
  induction h generalizing k with
  | last b hb =>
    match k, hl with
    | 1, _ =>
      have : b.toNat < 2 := by simpa using hn
      simp [decVarintN, this]
    | k + 2, _ => simp [decVarintN, hb]
  | more b bs n hb hd ih =>
    have hne := List.length_pos_iff.mpr hd.ne_nil
    simp only [List.length_cons] at hl
    match k, hl, hn with
    | 0, hl, _ => omega
    | 1, hl, _ => omega
    | k + 2, hl, hn =>
      have hp : (2:Nat) ^ (7 * (k + 1) + 1) = 128 * 2 ^ (7 * k + 1) := by
        rw [show 7 * (k + 1) + 1 = 7 + (7 * k + 1) by omega, Nat.pow_add]
      rw [show k + 2 - 1 = k + 1 by omega] at hn
      have := ih (k + 1) (by omega) (by simp only [Nat.add_sub_cancel]; omega)
      rw [List.cons_append, decVarintN, if_neg (by omega), this]

/-- A varint is read exactly when the input starts with one. -/
theorem decVarint_iff (bs : Bytes) (n : Nat) (rest : Bytes) :
    decVarint bs = some (n, rest) ↔ ∃ p, bs = p ++ rest ∧ IsVarint p n := by
  constructor
  · intro h
    obtain ⟨p, e, hd, hl, hn⟩ := decVarintN_sound 10 _ _ _ h
    exact ⟨p, e, hd, hl, hn⟩
  · rintro ⟨p, rfl, hd, hl, hn⟩
    exact decVarintN_complete p n hd 10 hl hn rest

theorem decTag_iff (bs : Bytes) (num wt : Nat) (rest : Bytes) :
    decTag bs = some (num, wt, rest) ↔ ∃ t, bs = t ++ rest ∧ IsTag 536870912 t num wt := by
  unfold decTag IsTag
  constructor
  · intro h
    split at h
    · cases h
    · rename_i t r hv
      dsimp only at h
      split at h
      · rename_i hc
        simp only [Option.some.injEq, Prod.mk.injEq] at h
        obtain ⟨rfl, rfl, rfl⟩ := h
        obtain ⟨p, e, hp⟩ := (decVarint_iff _ _ _).1 hv
        have e' : t / 8 * 8 + t % 8 = t := by omega
        exact ⟨p, e, by rw [e']; exact hp, by omega, hc.1, hc.2⟩
      · cases h
  · rintro ⟨t, rfl, hv, hw, h1, h2⟩
    rw [(decVarint_iff _ _ _).2 ⟨t, rfl, hv⟩]
    have e1 : (num * 8 + wt) / 8 = num := by omega
    have e2 : (num * 8 + wt) % 8 = wt := by omega
    simp [e1, e2, h1, h2]

theorem decTagIn_iff (bs : Bytes) (num wt : Nat) (rest : Bytes) :
    decTagIn bs = some (num, wt, rest) ↔ ∃ t, bs = t ++ rest ∧ IsTag 2147483648 t num wt := by
  unfold decTagIn IsTag
  constructor
  · intro h
    split at h
    · cases h
    · rename_i t r hv
      dsimp only at h
      split at h
      · rename_i hc
        simp only [Option.some.injEq, Prod.mk.injEq] at h
        obtain ⟨rfl, rfl, rfl⟩ := h
        obtain ⟨p, e, hp⟩ := (decVarint_iff _ _ _).1 hv
        have e' : t / 8 * 8 + t % 8 = t := by omega
        exact ⟨p, e, by rw [e']; exact hp, by omega, hc.1, hc.2⟩
      · cases h
  · rintro ⟨t, rfl, hv, hw, h1, h2⟩
    rw [(decVarint_iff _ _ _).2 ⟨t, rfl, hv⟩]
    have e1 : (num * 8 + wt) / 8 = num := by omega
    have e2 : (num * 8 + wt) % 8 = wt := by omega
    simp [e1, e2, h1, h2]

theorem IsTag.length_pos {l : Nat} {t : Bytes} {num wt : Nat} (h : IsTag l t num wt) : 1 ≤ t.length :=
  List.length_pos_iff.mpr h.1.1.ne_nil

/-- What a successful skip has read: fields up to the end tag of the innermost open group, and then, if a group is
still open, the rest of that one. -/
theorem skipGroup_sound (k : Nat) (m : Nat) (stack : List Nat) (bs r : Bytes)
    (h : skipGroup k (m :: stack) bs = some r) :
    ∃ body e rest, bs = body ++ e ++ rest ∧ Inside (10000 - stack.length) body ∧ IsTag 2147483648 e m 4 ∧
      ((stack = [] ∧ r = rest) ∨ (stack ≠ [] ∧ ∃ k', k' < k ∧ skipGroup k' stack rest = some r)) := by
  induction k using Nat.strongRecOn generalizing m stack bs with
  | ind k ih =>
    cases k with
    | zero => simp [skipGroup] at h
    | succ k =>
      rw [skipGroup] at h
      split at h
      · cases h
      · rename_i num wt rest ht
        obtain ⟨t, rfl, hT⟩ := (decTagIn_iff _ _ _ _).1 ht
        -- one field, then the same group again
        have step : ∀ (p rest' : Bytes) (v : Val) (k' : Nat), k' ≤ k → rest = p ++ rest' →
            Payload (10000 - stack.length) num wt p v → skipGroup k' (m :: stack) rest' = some r →
            ∃ body e rest₀, t ++ rest = body ++ e ++ rest₀ ∧ Inside (10000 - stack.length) body ∧ IsTag 2147483648 e m 4 ∧
              ((stack = [] ∧ r = rest₀) ∨ (stack ≠ [] ∧ ∃ k', k' < k + 1 ∧ skipGroup k' stack rest₀ = some r)) := by
          intro p rest' v k' hk' e hp hs
          obtain ⟨body, e', rest'', rfl, hin, he, hor⟩ := ih k' (by omega) m stack rest' hs
          refine ⟨t ++ p ++ body, e', rest'', ?_, .cons _ num wt t p body v hT hp hin, he, ?_⟩
          · subst e; simp
          · rcases hor with hor | ⟨hne, k'', hk'', hs''⟩
            · exact Or.inl hor
            · exact Or.inr ⟨hne, k'', by omega, hs''⟩
        split at h
        · split at h
          · rename_i n r' hv
            obtain ⟨p, e, hp⟩ := (decVarint_iff _ _ _).1 hv
            exact step p r' _ k (by omega) e (.varint _ _ n p hp) h
          · cases h
        · split at h
          · rename_i hl
            exact step (rest.take 8) (rest.drop 8) _ k (by omega) (by simp)
              (.fixed64 _ _ _ (by simp; omega)) h
          · cases h
        · split at h
          · rename_i n r' hv
            obtain ⟨p, e, hp⟩ := (decVarint_iff _ _ _).1 hv
            split at h
            · rename_i hl
              have hlen : (r'.take n).length = n := by simp; omega
              exact step (p ++ r'.take n) (r'.drop n) _ k (by omega) (by simp [e])
                (.len _ _ p (r'.take n) (by rw [hlen]; exact hp)) h
            · cases h
          · cases h
        · split at h
          · rename_i hd
            obtain ⟨body, e, rest', rfl, hin, he, hor⟩ := ih k (by omega) num (m :: stack) rest h
            rcases hor with ⟨hn, _⟩ | ⟨_, k', hk', hs⟩
            · cases hn
            · refine step (body ++ e) rest' .group k' (by omega) (by simp) ?_ hs
              simp only [List.length_cons] at hin hd
              have : 10000 - stack.length = (10000 - (stack.length + 1)) + 1 := by omega
              rw [this]
              exact .group _ num body e hin he
          · cases h
        · split at h
          · cases h
          · rename_i m' heq
            simp only [List.cons.injEq] at heq
            obtain ⟨rfl, rfl⟩ := heq
            split at h
            · rename_i hm
              cases h
              subst hm
              exact ⟨[], t, _, rfl, .nil _, hT, Or.inl ⟨rfl, rfl⟩⟩
            · cases h
          · rename_i m' stack' hne heq
            simp only [List.cons.injEq] at heq
            obtain ⟨rfl, rfl⟩ := heq
            split at h
            · rename_i hm
              subst hm
              exact ⟨[], t, rest, rfl, .nil _, hT, Or.inr ⟨fun e => by subst e; exact hne rfl, k, by omega, h⟩⟩
            · cases h
        · split at h
          · rename_i hl
            exact step (rest.take 4) (rest.drop 4) _ k (by omega) (by simp)
              (.fixed32 _ _ _ (by simp; omega)) h
          · cases h
        · cases h

/-- The bound on the work is never the reason for a failure. -/
theorem skipGroup_fuel (k : Nat) (stack : List Nat) (bs r : Bytes) (h : skipGroup k stack bs = some r) (k' : Nat)
    (hk : bs.length ≤ k') : skipGroup k' stack bs = some r := by
  induction k generalizing stack bs k' with
  | zero => simp [skipGroup] at h
  | succ k ih =>
    rw [skipGroup] at h
    split at h
    · cases h
    · rename_i num wt rest ht
      obtain ⟨t, rfl, hT⟩ := (decTagIn_iff _ _ _ _).1 ht
      have hpos := hT.length_pos
      rw [List.length_append] at hk
      cases k' with
      | zero => omega
      | succ k' =>
        rw [skipGroup, ht]
        dsimp only
        split at h
        · split at h
          · rename_i n r' hv
            obtain ⟨p, e, hp⟩ := (decVarint_iff _ _ _).1 hv
            exact ih _ _ h k' (by rw [e, List.length_append] at hk; omega)
          · cases h
        · split at h
          · rename_i hl
            rw [if_pos hl]
            exact ih _ _ h k' (by simp; omega)
          · cases h
        · split at h
          · rename_i n r' hv
            obtain ⟨p, e, hp⟩ := (decVarint_iff _ _ _).1 hv
            split at h
            · rename_i hl
              rw [if_pos hl]
              exact ih _ _ h k' (by rw [e, List.length_append] at hk; simp; omega)
            · cases h
          · cases h
        · split at h
          · rename_i hl
            rw [if_pos hl]
            exact ih _ _ h k' (by omega)
          · cases h
        · split at h
          · cases h
          · rename_i m'
            exact h
          · rename_i m' stack' hne
            split at h
            · rename_i hm
              match stack', hne, h with
              | [], hne, _ => exact absurd rfl hne
              | a :: s, _, h =>
                rw [if_pos hm]
                exact ih _ _ h k' (by omega)
            · cases h
        · split at h
          · rename_i hl
            rw [if_pos hl]
            exact ih _ _ h k' (by simp; omega)
          · cases h
        · cases h

theorem skipGroup_tag (k m : Nat) (stack : List Nat) (t tail : Bytes) (num wt : Nat) (hT : IsTag 2147483648 t num wt) :
    skipGroup (k + 1) (m :: stack) (t ++ tail) =
      match (generalizing := false) wt with
      | 0 => match decVarint tail with
        | some (_, r) => skipGroup k (m :: stack) r
        | none => none
      | 1 => if 8 ≤ tail.length then skipGroup k (m :: stack) (tail.drop 8) else none
      | 2 => match decVarint tail with
        | some (n, r) => if n ≤ r.length then skipGroup k (m :: stack) (r.drop n) else none
        | none => none
      | 3 => if (m :: stack).length ≤ 10000 then skipGroup k (num :: m :: stack) tail else none
      | 4 => match m :: stack with
        | [] => none
        | [m] => if m = num then some tail else none
        | m :: stack' => if m = num then skipGroup k stack' tail else none
      | 5 => if 4 ≤ tail.length then skipGroup k (m :: stack) (tail.drop 4) else none
      | _ => none := by
  rw [skipGroup, (decTagIn_iff _ _ _ _).2 ⟨t, rfl, hT⟩]
  rfl

theorem inside_skip (d : Nat) (body : Bytes) (h : Inside d body) (m : Nat) (stack : List Nat)
    (hd : d + stack.length ≤ 10000) (k : Nat) (tail r : Bytes) (hs : skipGroup k (m :: stack) tail = some r) :
    ∃ k', skipGroup k' (m :: stack) (body ++ tail) = some r := by
  revert m stack k tail r
  refine Inside.rec
    (motive_1 := fun d num wt p _ _ => ∀ (m : Nat) (stack : List Nat), d + stack.length ≤ 10000 → ∀ t : Bytes,
      IsTag 2147483648 t num wt → ∀ (k : Nat) (tail r : Bytes), skipGroup k (m :: stack) tail = some r →
      ∃ k', skipGroup k' (m :: stack) (t ++ p ++ tail) = some r)
    (motive_2 := fun d body _ => ∀ (m : Nat) (stack : List Nat), d + stack.length ≤ 10000 → ∀ (k : Nat) (tail r : Bytes),
      skipGroup k (m :: stack) tail = some r → ∃ k', skipGroup k' (m :: stack) (body ++ tail) = some r)
    ?_ ?_ ?_ ?_ ?_ ?_ ?_ h
  · intro _ num n p hv m stack hd t hT k tail r hs
    refine ⟨k + 1, ?_⟩
    rw [List.append_assoc, skipGroup_tag _ _ _ _ _ _ _ hT]
    simp only [(decVarint_iff _ _ _).2 ⟨p, rfl, hv⟩, hs]
  · intro _ num p hl m stack hd t hT k tail r hs
    refine ⟨k + 1, ?_⟩
    rw [List.append_assoc, skipGroup_tag _ _ _ _ _ _ _ hT]
    simp only [List.length_append]
    rw [if_pos (by omega), ← hl, List.drop_left, hs]
  · intro _ num size bs hv m stack hd t hT k tail r hs
    refine ⟨k + 1, ?_⟩
    rw [List.append_assoc, skipGroup_tag _ _ _ _ _ _ _ hT]
    simp only [List.append_assoc, (decVarint_iff _ _ _).2 ⟨size, rfl, hv⟩, List.length_append]
    rw [if_pos (by omega), List.drop_left, hs]
  · intro d num body e hin he ih m stack hd t hT k tail r hs
    have h1 : skipGroup (k + 1) (num :: m :: stack) (e ++ tail) = some r := by
      rw [skipGroup_tag _ _ _ _ _ _ _ he]
      simp [hs]
    obtain ⟨k', hk'⟩ := ih num (m :: stack) (by simp only [List.length_cons]; omega) _ _ _ h1
    refine ⟨k' + 1, ?_⟩
    rw [List.append_assoc, skipGroup_tag _ _ _ _ _ _ _ hT]
    simp only [List.length_cons]
    rw [if_pos (by omega), List.append_assoc, hk']
  · intro _ num p hl m stack hd t hT k tail r hs
    refine ⟨k + 1, ?_⟩
    rw [List.append_assoc, skipGroup_tag _ _ _ _ _ _ _ hT]
    simp only [List.length_append]
    rw [if_pos (by omega), ← hl, List.drop_left, hs]
  · intro _ m stack hd k tail r hs
    exact ⟨k, hs⟩
  · intro d num wt t p rest v hT hp hin ihp ihr m stack hd k tail r hs
    obtain ⟨k1, h1⟩ := ihr m stack hd k tail r hs
    obtain ⟨k2, h2⟩ := ihp m stack hd t hT k1 _ r h1
    exact ⟨k2, by rw [List.append_assoc]; exact h2⟩

/-- A value is read exactly when the input starts with one of the given wire type. -/
theorem decVal_iff (num wt : Nat) (bs : Bytes) (v : Val) (rest : Bytes) (hw : wt < 8) :
    decVal num wt bs = some (v, rest) ↔ ∃ p, bs = p ++ rest ∧ Payload 10001 num wt p v := by
  constructor
  · intro h
    unfold decVal at h
    split at h
    · split at h
      · rename_i n r' hv
        cases h
        obtain ⟨p, e, hp⟩ := (decVarint_iff _ _ _).1 hv
        exact ⟨p, e, .varint _ _ n p hp⟩
      · cases h
    · split at h
      · rename_i hl
        cases h
        exact ⟨bs.take 8, by simp, .fixed64 _ _ _ (by simp; omega)⟩
      · cases h
    · split at h
      · rename_i n r' hv
        obtain ⟨p, e, hp⟩ := (decVarint_iff _ _ _).1 hv
        split at h
        · rename_i hl
          cases h
          have hlen : (r'.take n).length = n := by simp; omega
          exact ⟨p ++ r'.take n, by simp [e], .len _ _ p (r'.take n) (by rw [hlen]; exact hp)⟩
        · cases h
      · cases h
    · split at h
      · rename_i r' hs
        cases h
        obtain ⟨body, e, rest', rfl, hin, he, hor⟩ := skipGroup_sound _ _ _ _ _ hs
        rcases hor with ⟨_, rfl⟩ | ⟨hne, _⟩
        · exact ⟨body ++ e, rfl, .group _ num body e hin he⟩
        · exact absurd rfl hne
      · cases h
    · split at h
      · rename_i hl
        cases h
        exact ⟨bs.take 4, by simp, .fixed32 _ _ _ (by simp; omega)⟩
      · cases h
    · cases h
  · rintro ⟨p, rfl, hp⟩
    cases hp with
    | varint _ _ n _ hv => simp only [decVal, (decVarint_iff _ _ _).2 ⟨p, rfl, hv⟩]
    | fixed64 _ _ _ hl =>
      simp only [decVal, List.length_append]
      rw [if_pos (by omega), ← hl, List.drop_left, List.take_left]
    | len _ _ size bs hv =>
      simp only [decVal, List.append_assoc, (decVarint_iff _ _ _).2 ⟨size, rfl, hv⟩, List.length_append]
      rw [if_pos (by omega), List.drop_left, List.take_left]
    | group _ _ body e hin he =>
      have h1 : skipGroup 1 [num] (e ++ rest) = some rest := by
        rw [skipGroup_tag _ _ _ _ _ _ _ he]
        simp
      obtain ⟨k', hk'⟩ := inside_skip 10000 body hin num [] (by simp) _ _ _ h1
      simp only [decVal, List.append_assoc]
      rw [skipGroup_fuel _ _ _ _ hk' _ (by omega)]
    | fixed32 _ _ _ hl =>
      simp only [decVal, List.length_append]
      rw [if_pos (by omega), ← hl, List.drop_left, List.take_left]

theorem parseN_iff (k : Nat) (bs : Bytes) (fs : List Field) (hk : bs.length ≤ k) :
    parseN k bs = some fs ↔ Fields bs fs := by
  induction k generalizing bs fs with
  | zero =>
    have : bs = [] := List.length_eq_zero_iff.1 (by omega)
    subst this
    simp only [parseN, Option.some.injEq]
    constructor
    · rintro rfl; exact .nil
    · intro h
      generalize e : ([] : Bytes) = bs at h
      cases h with
      | nil => rfl
      | cons num wt t p rest v fs hT _ _ =>
        have := hT.length_pos
        have e := congrArg List.length e
        simp at e
        omega
  | succ k ih =>
    cases bs with
    | nil =>
      simp only [parseN, Option.some.injEq]
      constructor
      · rintro rfl; exact .nil
      · intro h
        generalize e : ([] : Bytes) = bs at h
        cases h with
        | nil => rfl
        | cons num wt t p rest v fs hT _ _ =>
          have := hT.length_pos
          have e := congrArg List.length e
          simp at e
          omega
    | cons b bs =>
      rw [parseN]
      constructor
      · intro h
        split at h
        · cases h
        · rename_i num wt rest ht
          obtain ⟨t, e, hT⟩ := (decTag_iff _ _ _ _).1 ht
          split at h
          · cases h
          · rename_i v rest' hv
            obtain ⟨p, rfl, hp⟩ := (decVal_iff _ _ _ _ _ hT.2.1).1 hv
            split at h
            · cases h
            · rename_i gs hg
              cases h
              have hpos := hT.length_pos
              have hl := congrArg List.length e
              simp only [List.length_append, List.length_cons] at hl hk
              have := (ih rest' gs (by omega)).1 hg
              rw [e, ← List.append_assoc]
              exact .cons num wt t p rest' v gs hT hp this
      · intro h
        generalize e : b :: bs = cs at h
        cases h with
        | nil => cases e
        | cons num wt t p rest v fs hT hp hr =>
          have hpos := hT.length_pos
          have hl := congrArg List.length e
          simp only [List.length_append, List.length_cons] at hl hk
          rw [List.append_assoc, (decTag_iff _ _ _ _).2 ⟨t, rfl, hT⟩]
          dsimp only
          rw [(decVal_iff _ _ _ _ _ hT.2.1).2 ⟨p, rfl, hp⟩]
          dsimp only
          rw [(ih rest fs (by omega)).2 hr]

/-- The wire-level parser accepts exactly the grammar. -/
theorem parseFields_iff (bs : Bytes) (fs : List Field) : parseFields bs = some fs ↔ Fields bs fs :=
  parseN_iff _ bs fs (Nat.le_refl _)

end Verif.Grammar
