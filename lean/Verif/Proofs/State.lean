import Verif.Model.Cipher

/-!
Lemmas about session states: looking up and updating receiving chains, the skip loop, and inversion of the message
cipher.
-/

namespace Verif

/-! ## Lists -/

/-- The last `n` elements. -/
def lastN {α} (n : Nat) (l : List α) : List α := l.drop (l.length - n)

theorem lastN_length {α} (n : Nat) (l : List α) : (lastN n l).length = min n l.length := by
  simp [lastN]; omega

theorem lastN_of_le {α} {n : Nat} {l : List α} (h : l.length ≤ n) : lastN n l = l := by
  have : l.length - n = 0 := by omega
  simp [lastN, this]

theorem lastN_append {α} (n : Nat) (a b : List α) : lastN n (lastN n a ++ b) = lastN n (a ++ b) := by
  unfold lastN
  by_cases h : a.length ≤ n
  · have : a.length - n = 0 := by omega
    simp [this]
  · have h1 : (a.length - n) ≤ a.length := by omega
    have h2 : (a.drop (a.length - n) ++ b) = (a ++ b).drop (a.length - n) := by
      rw [List.drop_append_of_le_length h1]
    rw [h2, List.drop_drop]
    congr 1
    simp only [List.length_drop, List.length_append]
    omega

theorem lastN_mem {α} {n : Nat} {l : List α} {x : α} (h : x ∈ lastN n l) : x ∈ l := List.mem_of_mem_drop h

/-- Appending one entry and dropping the oldest when there are too many keeps the most recent ones. -/
theorem push_eq_lastN {α} {n : Nat} {l : List α} (x : α) (h : l.length ≤ n) :
    (if (l ++ [x]).length > n then (l ++ [x]).drop 1 else l ++ [x]) = lastN n (l ++ [x]) := by
  unfold lastN
  have hl : (l ++ [x]).length = l.length + 1 := by simp
  rw [hl]
  split
  · have : l.length + 1 - n = 1 := by omega
    rw [this]
  · have : l.length + 1 - n = 0 := by omega
    rw [this]; simp

theorem set_getElem? {α} {l : List α} {i : Nat} {x : α} (h : l[i]? = some x) : l.set i x = l := by
  obtain ⟨hi, rfl⟩ := List.getElem?_eq_some_iff.mp h
  exact List.set_getElem_self hi

/-! ## Chains -/

/-- `n` steps along a chain. -/
def chainIter (C : Crypto) (ck : ChainKey) : Nat → ChainKey
  | 0 => ck
  | n + 1 => (chainIter C ck n).next C

theorem chainIter_next (C : Crypto) (ck : ChainKey) (n : Nat) : chainIter C (ck.next C) n = chainIter C ck (n + 1) := by
  induction n with
  | zero => rfl
  | succ n ih => simp only [chainIter] at ih ⊢; rw [ih]

theorem chainIter_add (C : Crypto) (ck : ChainKey) (m n : Nat) :
    chainIter C (chainIter C ck m) n = chainIter C ck (m + n) := by
  induction n with
  | zero => rfl
  | succ n ih =>
    show (chainIter C (chainIter C ck m) n).next C = (chainIter C ck (m + n)).next C
    rw [ih]

theorem chainIter_index (C : Crypto) (ck : ChainKey) (n : Nat) : (chainIter C ck n).index = ck.index + UInt32.ofNat n := by
  induction n with
  | zero => simp [chainIter]
  | succ n ih =>
    have e : UInt32.ofNat (n + 1) = UInt32.ofNat n + 1 := UInt32.ofNat_add n 1
    simp only [chainIter, next_index, ih, e]
    rw [UInt32.add_assoc]

theorem chainIter_key_len (C : Crypto) (ck : ChainKey) (h : ck.key.length = 32) (n : Nat) :
    (chainIter C ck n).key.length = 32 := by
  cases n with
  | zero => exact h
  | succ n => simp [chainIter]

/-- The stored form of message keys (protocol/session/state.go:249-254). -/
def MessageKeys.toPB (mk : MessageKeys) : PBMessageKey :=
  { index := mk.counter, cipherKey := mk.cipherKey, macKey := mk.macKey, iv := mk.iv }

/-- The stored form of a chain key (protocol/session/state.go:161-164). -/
def ChainKey.toPB (ck : ChainKey) : PBChainKey := { index := ck.index, key := ck.key }

/-! ## Looking up chains -/

namespace SState

theorem findChain_some {key : Bytes} {l : List PBChain} {i j : Nat} {c : PBChain} (h : findChain key l i = some (j, c)) :
    i ≤ j ∧ l[j - i]? = some c ∧ c.senderRatchetKey = key ∧ ∀ m, m < j - i → ∀ d, l[m]? = some d → d.senderRatchetKey ≠ key := by
  induction l generalizing i with
  | nil => simp [findChain] at h
  | cons x l ih =>
    simp only [findChain] at h
    split at h
    · rename_i hx
      simp only [Option.some.injEq, Prod.mk.injEq] at h
      obtain ⟨rfl, rfl⟩ := h
      refine ⟨Nat.le_refl _, by simp, hx, ?_⟩
      intro m hm
      omega
    · rename_i hx
      obtain ⟨h1, h2, h3, h4⟩ := ih h
      have e : j - i = (j - (i + 1)) + 1 := by omega
      refine ⟨by omega, by rw [e]; simpa using h2, h3, ?_⟩
      intro m hm d hd
      cases m with
      | zero => simp at hd; subst hd; exact hx
      | succ m => exact h4 m (by omega) d (by simpa using hd)

theorem findChain_none {key : Bytes} {l : List PBChain} {i : Nat} :
    findChain key l i = none ↔ ∀ c ∈ l, c.senderRatchetKey ≠ key := by
  induction l generalizing i with
  | nil => simp [findChain]
  | cons x l ih =>
    simp only [findChain]
    split
    · rename_i hx; simp [hx]
    · rename_i hx; simp [hx, ih]

theorem findChain_exists {key : Bytes} {l : List PBChain} {c : PBChain} (i : Nat) (hc : c ∈ l) (hk : c.senderRatchetKey = key) :
    ∃ j d, findChain key l i = some (j, d) := by
  cases h : findChain key l i with
  | none => exact absurd hk (findChain_none.mp h c hc)
  | some x => exact ⟨x.1, x.2, rfl⟩

theorem receiverChain_some {s : SState} {k : PubKey} {i : Nat} {c : PBChain} (h : s.receiverChain k = some (i, c)) :
    s.receiverChains[i]? = some c ∧ c.senderRatchetKey = k.bytes := by
  obtain ⟨_, h2, h3, _⟩ := findChain_some h
  exact ⟨by simpa using h2, h3⟩

theorem receiverChain_mem {s : SState} {k : PubKey} {i : Nat} {c : PBChain} (h : s.receiverChain k = some (i, c)) :
    c ∈ s.receiverChains := List.mem_of_getElem? (receiverChain_some h).1

theorem findChain_set {key : Bytes} {l : List PBChain} {i j : Nat} {c c' : PBChain} (h : findChain key l i = some (j, c))
    (hk : c'.senderRatchetKey = c.senderRatchetKey) : findChain key (l.set (j - i) c') i = some (j, c') := by
  induction l generalizing i with
  | nil => simp [findChain] at h
  | cons x l ih =>
    simp only [findChain] at h
    split at h
    · rename_i hx
      simp only [Option.some.injEq, Prod.mk.injEq] at h
      obtain ⟨rfl, rfl⟩ := h
      simp [findChain, hk, hx]
    · rename_i hx
      obtain ⟨h1, _⟩ := findChain_some h
      have e : j - i = (j - (i + 1)) + 1 := by omega
      rw [e, List.set_cons_succ]
      simp only [findChain, hx, if_false]
      exact ih h

/-- Replacing the found chain by one with the same ratchet key: it is found again. -/
theorem receiverChain_set {s : SState} {k : PubKey} {i : Nat} {c c' : PBChain} (h : s.receiverChain k = some (i, c))
    (hk : c'.senderRatchetKey = c.senderRatchetKey) :
    receiverChain { s with receiverChains := s.receiverChains.set i c' } k = some (i, c') :=
  findChain_set h hk

theorem findChain_set_ne {key : Bytes} {l : List PBChain} {i j : Nat} {c c' : PBChain} (h : l[j]? = some c)
    (hk : c'.senderRatchetKey = c.senderRatchetKey) (hne : c.senderRatchetKey ≠ key) :
    findChain key (l.set j c') i = findChain key l i := by
  induction l generalizing i j with
  | nil => simp [findChain]
  | cons x l ih =>
    cases j with
    | zero => simp at h; subst h; simp [findChain, hk, hne]
    | succ j =>
      rw [List.set_cons_succ]
      simp only [findChain]
      split
      · rfl
      · exact ih (by simpa using h)

theorem receiverChain_set_ne {s : SState} {k k' : PubKey} {i : Nat} {c c' : PBChain} (h : s.receiverChain k = some (i, c))
    (hk : c'.senderRatchetKey = c.senderRatchetKey) (hne : k' ≠ k) :
    receiverChain { s with receiverChains := s.receiverChains.set i c' } k' = s.receiverChain k' := by
  obtain ⟨h1, h2⟩ := receiverChain_some h
  refine findChain_set_ne h1 hk ?_
  rw [h2]
  intro e
  exact hne (PubKey.bytes_inj e).symm

end SState

/-- A chain with the given message keys stored. -/
def PBChain.withKeys (c : PBChain) (ks : List PBMessageKey) : PBChain := { c with messageKeys := ks }

/-- The keys the skip loop stores: positions `ck.index, …` of the chain. -/
def skipped (C : Crypto) (ck : ChainKey) (n : Nat) : List PBMessageKey :=
  (List.range n).map fun i => ((chainIter C ck i).messageKeys C).toPB

theorem skipped_succ (C : Crypto) (ck : ChainKey) (n : Nat) :
    skipped C ck (n + 1) = (ck.messageKeys C).toPB :: skipped C (ck.next C) n := by
  simp only [skipped, List.range_succ_eq_map, List.map_cons, List.map_map]
  congr 1
  apply List.map_congr_left
  intro i _
  simp only [Function.comp, chainIter_next]

@[simp] theorem skipped_length (C : Crypto) (ck : ChainKey) (n : Nat) : (skipped C ck n).length = n := by simp [skipped]

attribute [local irreducible] maxMessageKeys in
/-- The skip loop runs exactly to the counter and stores the passed keys, keeping the most recent 2000. -/
theorem skipLoop_spec (C : Crypto) (eph : PubKey) (counter : UInt32) :
    ∀ (n : Nat) (ck : ChainKey) (s : SState) (i : Nat) (c : PBChain),
      s.receiverChain eph = some (i, c) → c.messageKeys.length ≤ maxMessageKeys → ck.index.toNat + n = counter.toNat →
      skipLoop C eph counter n ck s = .ok (chainIter C ck n,
        { s with receiverChains := s.receiverChains.set i (c.withKeys (lastN maxMessageKeys (c.messageKeys ++ skipped C ck n))) }) := by
  intro n
  induction n with
  | zero =>
    intro ck s i c hc hl hn
    have e : c.withKeys (lastN maxMessageKeys (c.messageKeys ++ skipped C ck 0)) = c := by
      simp [skipped, lastN_of_le hl, PBChain.withKeys]
    rw [e]
    have h1 := (SState.receiverChain_some hc).1
    simp only [skipLoop, chainIter]
    rw [set_getElem? h1]
  | succ n ih =>
    intro ck s i c hc hl hn
    have hlt : ck.index < counter := by rw [UInt32.lt_iff_toNat_lt]; omega
    simp only [skipLoop, hlt, if_true]
    have hset : s.setMessageKeys eph (ck.messageKeys C) = .ok
        { s with receiverChains := s.receiverChains.set i (c.withKeys (lastN maxMessageKeys (c.messageKeys ++ [(ck.messageKeys C).toPB]))) } := by
      simp only [SState.setMessageKeys, hc]
      congr 3
      simp only [PBChain.withKeys]
      congr 1
      exact push_eq_lastN _ hl
    rw [hset, Res.bind_ok]
    have hnx : (ck.next C).index.toNat + n = counter.toNat := by
      have := counter.toNat_lt
      rw [next_index, UInt32.toNat_add]
      have : (1 : UInt32).toNat = 1 := rfl
      omega
    have hc' := SState.receiverChain_set (c' := c.withKeys (lastN maxMessageKeys (c.messageKeys ++ [(ck.messageKeys C).toPB]))) hc rfl
    rw [ih (ck.next C) _ i _ hc' (by simp only [PBChain.withKeys, lastN_length]; exact Nat.min_le_left _ _) hnx, chainIter_next]
    congr 3
    simp only [List.set_set]
    congr 1
    simp only [PBChain.withKeys]
    congr 1
    rw [lastN_append, List.append_assoc, skipped_succ, List.singleton_append]

end Verif
