import Verif.Spec.Standards
import Verif.Proofs.Sha2
import Mathlib.Tactic.Ring
import Mathlib.Data.Nat.ModEq

namespace Verif

open Doc

theorem root_eq {k x n : Nat} (hk : k ≠ 0) (h1 : n ^ k ≤ x) (h2 : x < (n + 1) ^ k) : root k x = n := by
  unfold root
  rw [Nat.findGreatest_eq_iff]
  refine ⟨Nat.le_trans (Nat.le_self_pow hk n) h1, fun _ => h1, ?_⟩
  intro m hm _ hx
  exact absurd (Nat.lt_of_le_of_lt hx h2) (by
    rw [Nat.not_lt]
    exact Nat.pow_le_pow_left hm k)

/-- `c` is made of the first `w` bits behind the point of the `k`-th root of `p`. -/
def rootCheck (w k p c : Nat) : Bool :=
  let q := ((List.range 8).filter fun q => decide (q ^ k ≤ p)).length - 1
  let n := q * 2 ^ w + c
  decide (n ^ k ≤ p * 2 ^ (k * w)) && decide (p * 2 ^ (k * w) < (n + 1) ^ k) && decide (c < 2 ^ w)

theorem rootBits_of_check {w k p c : Nat} (hk : k ≠ 0) (h : rootCheck w k p c = true) : (rootBits w k p).toNat = c := by
  simp only [rootCheck, Bool.and_eq_true, decide_eq_true_eq] at h
  unfold rootBits
  rw [root_eq hk h.1.1 h.1.2, BitVec.toNat_ofNat, Nat.mul_add_mod_of_lt h.2]

/-! ## SHA-2 -/

/-- The working variables as numbers. -/
def Doc.Sha.Vars.nums {w : Nat} (v : Sha.Vars w) : List Nat := [v.a.toNat, v.b.toNat, v.c.toNat, v.d.toNat, v.e.toNat, v.f.toNat, v.g.toNat, v.h.toNat]

/-- The parameters of the model are those of the standard. -/
structure Sha2.Follows (H : Sha2) {w : Nat} (S : Sha w) : Prop where
  pos : 0 < H.bytes
  width : w = 8 * H.bytes
  sum0 : ∀ x : BitVec w, (S.Sum0 x).toNat = H.bigSigma H.big0 x.toNat
  sum1 : ∀ x : BitVec w, (S.Sum1 x).toNat = H.bigSigma H.big1 x.toNat
  sigma0 : ∀ x : BitVec w, (S.sigma0 x).toNat = H.smallSigma H.small0 x.toNat
  sigma1 : ∀ x : BitVec w, (S.sigma1 x).toNat = H.smallSigma H.small1 x.toNat
  k : H.k = (List.range' 0 S.rounds).map fun t => (Sha.K t : BitVec w).toNat
  init : H.init = (Sha.initial : Sha.Vars w).nums

section

variable {H : Sha2} {w : Nat} {S : Sha w} (F : H.Follows S)
include F

theorem Sha2.Follows.modulus : H.modulus = 2 ^ w := by rw [Sha2.modulus, ← F.width]

theorem Sha2.Follows.not (x : BitVec w) : x.toNat ^^^ (H.modulus - 1) = (~~~x).toNat := by
  rw [F.modulus, ← BitVec.toNat_allOnes, ← BitVec.toNat_xor]
  simp

theorem Sha2.Follows.round (v : Sha.Vars w) (k x : BitVec w) : H.round v.nums (k.toNat + x.toNat) =
    (⟨v.h + S.Sum1 v.e + Sha.Ch v.e v.f v.g + k + x + (S.Sum0 v.a + Sha.Maj v.a v.b v.c), v.a, v.b, v.c,
      v.d + (v.h + S.Sum1 v.e + Sha.Ch v.e v.f v.g + k + x), v.e, v.f, v.g⟩ : Sha.Vars w).nums := by
  simp only [Sha2.round, Sha.Vars.nums, F.not, ← F.sum0, ← F.sum1]
  simp only [Sha.Ch, Sha.Maj, BitVec.toNat_add, BitVec.toNat_xor, BitVec.toNat_and, F.modulus,
    Nat.add_mod_mod, Nat.mod_add_mod, Nat.add_assoc]

theorem Sha2.Follows.rounds (M : Nat → BitVec w) (v : Sha.Vars w) : ∀ n t, H.rounds ((List.range' t n).map fun t => (Sha.K t : BitVec w).toNat)
    ((List.range' t 16).map fun j => (S.W M j).toNat) (S.vars M v t).nums = (S.vars M v (t + n)).nums := by
  intro n
  induction n with
  | zero => intro t; rfl
  | succ n ih =>
    intro t
    have hw : ((List.range' t 16).map fun j => (S.W M j).toNat).drop 1 ++ [H.nextWord ((List.range' t 16).map fun j => (S.W M j).toNat)] =
        (List.range' (t + 1) 16).map fun j => (S.W M j).toNat := by
      have : H.nextWord ((List.range' t 16).map fun j => (S.W M j).toNat) = (S.W M (t + 16)).toNat := by
        rw [Sha.W, dif_neg (by omega)]
        simp only [Sha2.nextWord, List.range', List.map, List.getD_cons_succ, List.getD_cons_zero, BitVec.toNat_add, ← F.sigma0, ← F.sigma1,
          Nat.add_assoc, Nat.reduceAdd, F.modulus, Nat.mod_add_mod, Nat.add_sub_cancel]
        rfl
      rw [this]
      rfl
    have hh : ((List.range' t 16).map fun j => (S.W M j).toNat).getD 0 0 = (S.W M t).toNat := rfl
    rw [List.range'_succ, List.map_cons, Sha2.rounds, hw, hh, F.round]
    have := ih (t + 1)
    rw [Nat.add_right_comm t 1 n] at this
    exact this

omit F in
theorem foldl_be (bs : Bytes) (n : Nat) : bs.foldl (fun a b => a * 256 + b.toNat) n = n * 256 ^ bs.length + beNat bs := by
  unfold beNat
  induction bs generalizing n with
  | nil => simp
  | cons b bs ih =>
    simp only [List.foldl_cons, List.length_cons]
    rw [ih, ih (0 * 256 + b.toNat), Nat.pow_succ]
    ring

omit F in
theorem beNat_lt (bs : Bytes) : beNat bs < 256 ^ bs.length := by
  induction bs with
  | nil => simp [beNat]
  | cons b bs ih =>
    have : beNat (b :: bs) = b.toNat * 256 ^ bs.length + beNat bs := by
      have h := foldl_be bs b.toNat
      simp only [beNat, List.foldl_cons, Nat.zero_mul, Nat.zero_add] at h ⊢
      exact h
    have hb : b.toNat + 1 ≤ 256 := b.toNat_lt
    rw [this, List.length_cons, Nat.pow_succ]
    calc _ < b.toNat * 256 ^ bs.length + 256 ^ bs.length := by omega
      _ = (b.toNat + 1) * 256 ^ bs.length := by ring
      _ ≤ 256 * 256 ^ bs.length := Nat.mul_le_mul_right _ hb
      _ = _ := Nat.mul_comm _ _

theorem Sha2.Follows.bytes : w / 8 = H.bytes := by rw [F.width, Nat.mul_div_cancel_left _ (by decide)]

theorem Sha2.Follows.word (p : Bytes) (i t : Nat) :
    (Sha.word p i t : BitVec w).toNat = beNat ((p.drop (H.bytes * (16 * i + t))).take H.bytes) := by
  rw [Sha.word, BitVec.toNat_ofNat, F.bytes, Nat.mod_eq_of_lt]
  have h := beNat_lt ((p.drop (H.bytes * (16 * i + t))).take H.bytes)
  refine Nat.lt_of_lt_of_le h ?_
  rw [show (256 : Nat) = 2 ^ 8 by rfl, ← Nat.pow_mul, F.width]
  exact Nat.pow_le_pow_right (by decide) (Nat.mul_le_mul_left 8 (by rw [List.length_take]; exact Nat.min_le_left _ _))

omit F in
theorem Sha2.words_eq (H : Sha2) (n : Nat) : ∀ (p : Bytes) (t : Nat),
    H.words n (p.drop (H.bytes * t)) = (List.range' t n).map fun j => beNat ((p.drop (H.bytes * j)).take H.bytes) := by
  induction n with
  | zero => intro p t; rfl
  | succ n ih =>
    intro p t
    rw [Sha2.words, List.range'_succ, List.map_cons, List.drop_drop, ← ih p (t + 1), Nat.mul_succ]

theorem Sha2.Follows.words (p : Bytes) (i : Nat) :
    H.words 16 (p.drop (16 * H.bytes * i)) = (List.range' 0 16).map fun j => (S.W (Sha.word p i) j).toNat := by
  have h := H.words_eq 16 p (16 * i)
  rw [show 16 * H.bytes * i = H.bytes * (16 * i) by ring, h]
  have hW : ∀ j ∈ List.range' 0 16, (S.W (Sha.word p i) j).toNat = beNat ((p.drop (H.bytes * (16 * i + j))).take H.bytes) := by
    intro j hj
    rw [Sha.W, dif_pos (by simpa using hj), F.word]
  rw [List.map_congr_left hW]
  rfl

theorem Sha2.Follows.block (p : Bytes) (i : Nat) (v : Sha.Vars w) :
    List.zipWith (fun x y => (x + y) % H.modulus) v.nums (H.rounds H.k (H.words 16 (p.drop (16 * H.bytes * i))) v.nums) = (S.next (Sha.word p i) v).nums := by
  have h := F.rounds (Sha.word p i) v S.rounds 0
  rw [F.words, F.k]
  rw [show (S.vars (Sha.word p i) v 0) = v from rfl] at h
  rw [h, Nat.zero_add, F.modulus]
  simp only [Sha.Vars.nums, List.zipWith_cons_cons, List.zipWith_nil_left, Sha.next, BitVec.toNat_add]
  simp only [Nat.add_comm]

theorem Sha2.Follows.blocks (p : Bytes) : ∀ n i, H.blocks n (p.drop (16 * H.bytes * i)) (S.value p i).nums = (S.value p (i + n)).nums := by
  intro n
  induction n with
  | zero => intro i; rfl
  | succ n ih =>
    intro i
    rw [Sha2.blocks, F.block, List.drop_drop]
    have := ih (i + 1)
    rw [Nat.add_right_comm i 1 n] at this
    rw [← Nat.mul_succ]
    exact this

omit F in
theorem leBytes_reverse (n x : Nat) : (leBytes n x).reverse = (List.range n).map fun j => UInt8.ofNat (x / 256 ^ (n - 1 - j)) := by
  induction n generalizing x with
  | zero => rfl
  | succ n ih =>
    rw [leBytes, List.reverse_cons, ih, List.range_succ, List.map_append]
    congr 1
    · apply List.map_congr_left
      intro j hj
      have hj : j < n := by simpa using hj
      rw [Nat.div_div_eq_div_mul, ← Nat.pow_succ', show (n - 1 - j).succ = n + 1 - 1 - j by omega]
    · simp only [List.map_cons, List.map_nil, Nat.add_sub_cancel, Nat.sub_self, Nat.pow_zero, Nat.div_one, List.cons.injEq, and_true]
      apply UInt8.toNat_inj.mp
      simp

theorem Sha2.Follows.out (x : BitVec w) : H.wordBytes x.toNat = Sha.out x := by
  rw [Sha2.wordBytes, leBytes_reverse, Sha.out, F.bytes]

theorem Sha2.Follows.digest (p : Bytes) : (H.blocks (p.length / (16 * H.bytes)) p H.init).flatMap H.wordBytes = S.digest p := by
  have h := F.blocks p (p.length / (16 * H.bytes)) 0
  rw [Nat.mul_zero, List.drop_zero, Nat.zero_add] at h
  rw [F.init]
  rw [show (S.value p 0) = Sha.initial from rfl] at h
  rw [h]
  have e : 2 * w = 16 * H.bytes := by rw [F.width]; ring
  simp only [Sha.Vars.nums, List.flatMap_cons, List.flatMap_nil, F.out, Sha.digest, e, List.append_assoc, List.append_nil]

theorem Sha2.Follows.pad (m : Bytes) : Filled w m (H.pad m) := by
  have e : 2 * w = 16 * H.bytes := by rw [F.width]; ring
  have e4 : w / 4 = 2 * H.bytes := by rw [F.width, show 8 * H.bytes = 4 * (2 * H.bytes) by ring, Nat.mul_div_cancel_left _ (by decide)]
  have hp := F.pos
  refine ⟨(16 * H.bytes - (m.length + 1 + 2 * H.bytes) % (16 * H.bytes)) % (16 * H.bytes), ?_, ?_, ?_⟩
  · rw [e]; exact Nat.mod_lt _ (by omega)
  · rw [Sha2.pad, leBytes_reverse, e4]
  · rw [e, Sha2.pad]
    simp only [List.length_append, List.length_cons, List.length_nil, List.length_replicate, List.length_reverse, leBytes_length]
    generalize m.length = l
    generalize hB : 16 * H.bytes = B
    have hB' : 0 < B := by omega
    generalize 2 * H.bytes = z
    have h1 : (l + 1 + z) % B < B := Nat.mod_lt _ hB'
    rw [show l + (0 + 1) + (B - (l + 1 + z) % B) % B + z = (l + 1 + z) + (B - (l + 1 + z) % B) % B by omega, Nat.add_mod_mod,
      ← Nat.mod_add_mod, Nat.add_sub_cancel' (Nat.le_of_lt h1), Nat.mod_self]

/-- The model computes the digest of the standard. -/
theorem Sha2.Follows.hash (m d : Bytes) : IsSha S m d ↔ d = H.hash m := by
  constructor
  · rintro ⟨p, ⟨z, hz, rfl, hl⟩, rfl⟩
    obtain ⟨z', hz', hp, hl'⟩ := F.pad m
    have : z = z' := by
      rw [hp] at hl'
      simp only [List.length_append, List.length_replicate] at hl hl'
      generalize m.length + [128].length = A at hl hl'
      generalize ((List.range (w / 4)).map fun j => UInt8.ofNat (8 * m.length / 256 ^ (w / 4 - 1 - j))).length = B at hl hl'
      have h1 : z ≡ z' [MOD 2 * w] := by
        have : A + z + B ≡ A + z' + B [MOD 2 * w] := by rw [Nat.ModEq, hl, hl']
        exact Nat.ModEq.add_left_cancel' A (Nat.ModEq.add_right_cancel' B this)
      rw [Nat.ModEq, Nat.mod_eq_of_lt hz, Nat.mod_eq_of_lt hz'] at h1
      exact h1
    subst this
    rw [← hp, ← F.digest]
    rfl
  · rintro rfl
    exact ⟨_, F.pad m, F.digest _⟩

end


theorem map_eq_getD (f : Nat → Nat) (l : List Nat) (n : Nat) (hl : l.length = n) (h : ∀ t < n, f t = l.getD t 0) : l = (List.range' 0 n).map f := by
  apply List.ext_getElem
  · simp [hl]
  · intro i h1 h2
    simp only [List.getElem_map, List.getElem_range', Nat.zero_add, Nat.one_mul]
    rw [h i (by omega), List.getD_eq_getElem?_getD, List.getElem?_eq_getElem h1]
    rfl

theorem rotr_eq {w : Nat} (H : Sha2) (hw : w = 8 * H.bytes) (x : BitVec w) (n : Nat) (hn : n < w) : (x.rotateRight n).toNat = H.rotr n x.toNat := by
  rw [BitVec.toNat_rotateRight, Nat.mod_eq_of_lt hn, Sha2.rotr, Sha2.modulus, ← hw]

theorem sha256_follows : sha256P.Follows sha256Functions where
  pos := by decide
  width := rfl
  sum0 x := by simp only [sha256Functions, BitVec.toNat_xor, Sha2.bigSigma]; rfl
  sum1 x := by simp only [sha256Functions, BitVec.toNat_xor, Sha2.bigSigma]; rfl
  sigma0 x := by simp only [sha256Functions, BitVec.toNat_xor, BitVec.toNat_ushiftRight, Sha2.smallSigma]; rfl
  sigma1 x := by simp only [sha256Functions, BitVec.toNat_xor, BitVec.toNat_ushiftRight, Sha2.smallSigma]; rfl
  k := by
    refine map_eq_getD _ _ 64 rfl fun t ht => rootBits_of_check (by decide) ?_
    have : ∀ t : Fin 64, rootCheck 32 3 (primes.getD t.1 0) (sha256P.k.getD t.1 0) = true := by decide +kernel
    exact this ⟨t, ht⟩
  init := by
    simp only [Sha.Vars.nums, Sha.initial]
    rw [rootBits_of_check (c := 0x6a09e667), rootBits_of_check (c := 0xbb67ae85), rootBits_of_check (c := 0x3c6ef372), rootBits_of_check (c := 0xa54ff53a),
      rootBits_of_check (c := 0x510e527f), rootBits_of_check (c := 0x9b05688c), rootBits_of_check (c := 0x1f83d9ab), rootBits_of_check (c := 0x5be0cd19)]
    all_goals decide +kernel

theorem sha512_follows : sha512P.Follows sha512Functions where
  pos := by decide
  width := rfl
  sum0 x := by simp only [sha512Functions, BitVec.toNat_xor, Sha2.bigSigma]; rfl
  sum1 x := by simp only [sha512Functions, BitVec.toNat_xor, Sha2.bigSigma]; rfl
  sigma0 x := by simp only [sha512Functions, BitVec.toNat_xor, BitVec.toNat_ushiftRight, Sha2.smallSigma]; rfl
  sigma1 x := by simp only [sha512Functions, BitVec.toNat_xor, BitVec.toNat_ushiftRight, Sha2.smallSigma]; rfl
  k := by
    refine map_eq_getD _ _ 80 rfl fun t ht => rootBits_of_check (by decide) ?_
    have : ∀ t : Fin 80, rootCheck 64 3 (primes.getD t.1 0) (sha512P.k.getD t.1 0) = true := by decide +kernel
    exact this ⟨t, ht⟩
  init := by
    simp only [Sha.Vars.nums, Sha.initial]
    rw [rootBits_of_check (c := 0x6a09e667f3bcc908), rootBits_of_check (c := 0xbb67ae8584caa73b), rootBits_of_check (c := 0x3c6ef372fe94f82b), rootBits_of_check (c := 0xa54ff53a5f1d36f1),
      rootBits_of_check (c := 0x510e527fade682d1), rootBits_of_check (c := 0x9b05688c2b3e6c1f), rootBits_of_check (c := 0x1f83d9abfb41bd6b), rootBits_of_check (c := 0x5be0cd19137e2179)]
    all_goals decide +kernel

/-! ## HMAC and HKDF -/

theorem hmac256_eq (key text d : Bytes) : IsHmac sha256 key text d ↔ d = hmac256 key text := by
  have zeros : ∀ z : Bytes, (∀ b ∈ z, b = 0) → z = List.replicate z.length 0 := fun z h => List.eq_replicate_iff.mpr ⟨rfl, h⟩
  have comm : ∀ (c : UInt8) (l : Bytes), l.map (c ^^^ ·) = l.map (· ^^^ c) := fun c l => by
    apply List.map_congr_left
    intro x _
    exact UInt8.xor_comm c x
  constructor
  · rintro ⟨k, z, h1, h2, h3, rfl⟩
    have hk : k = (if key.length > 64 then sha256 key else key) ++ List.replicate (64 - (if key.length > 64 then sha256 key else key).length) 0 := by
      rcases h1 with ⟨h, rfl⟩ | ⟨h, rfl⟩
      · rw [if_neg (by omega)]
        rw [List.length_append] at h3
        rw [zeros z h2, show z.length = 64 - key.length by omega]
      · rw [if_pos h]
        rw [List.length_append] at h3
        rw [zeros z h2, show z.length = 64 - (sha256 key).length by omega]
    rw [comm, comm, hmac256, ← hk]
  · rintro rfl
    by_cases h : key.length > 64
    · refine ⟨_, List.replicate (64 - (sha256 key).length) 0, .inr ⟨h, rfl⟩, fun b hb => List.eq_of_mem_replicate hb, by simp [sha256_length], ?_⟩
      rw [comm, comm, hmac256, if_pos h]
    · refine ⟨_, List.replicate (64 - key.length) 0, .inl ⟨by omega, rfl⟩, fun b hb => List.eq_of_mem_replicate hb, by simp; omega, ?_⟩
      rw [comm, comm, hmac256, if_neg h]

theorem hkdfBlocks_eq (prk info : Bytes) (n : Nat) : ∀ i, hkdfBlocks prk info n (i + 1) (hkdfT hmac256 prk info i) =
    ((List.range' i n).map fun j => hkdfT hmac256 prk info (j + 1)).flatten := by
  induction n with
  | zero => intro i; rfl
  | succ n ih =>
    intro i
    rw [hkdfBlocks, List.range'_succ, List.map_cons, List.flatten_cons]
    have := ih (i + 1)
    simp only [hkdfT] at this ⊢
    rw [this]

theorem flatten_take (f : Nat → Bytes) (hf : ∀ i, (f i).length = 32) (n a b : Nat) (ha : n ≤ 32 * a) (hb : n ≤ 32 * b) :
    (((List.range a).map f).flatten).take n = (((List.range b).map f).flatten).take n := by
  have key : ∀ a b : Nat, n ≤ 32 * a → a ≤ b → (((List.range b).map f).flatten).take n = (((List.range a).map f).flatten).take n := by
    intro a b ha hab
    have hl : (((List.range a).map f).flatten).length = 32 * a := by
      rw [List.length_flatten]
      have : ((List.range a).map f).map List.length = List.replicate a 32 := by
        rw [List.eq_replicate_iff]
        simp [hf]
      rw [this]
      simp [Nat.mul_comm]
    obtain ⟨c, rfl⟩ := Nat.exists_eq_add_of_le hab
    rw [List.range_add, List.map_append, List.flatten_append, List.take_append_of_le_length (by omega)]
  rcases Nat.le_total a b with h | h
  · exact (key a b ha h).symm
  · exact key b a hb h

theorem hmac256_salt (s : Bytes) : hmac256 (List.replicate 32 0) s = hmac256 [] s := rfl

theorem hkdf256_eq (secret salt info : Bytes) (n : Nat) (okm : Bytes) : IsHkdf hmac256 secret salt info n okm ↔ okm = hkdf256 secret salt info n := by
  have hprk : hmac256 (if salt = [] then List.replicate 32 0 else salt) secret = hmac256 salt secret := by
    split
    · rename_i h; rw [h, hmac256_salt]
    · rfl
  have hb : hkdf256 secret salt info n =
      (((List.range ((n + 31) / 32)).map fun i => hkdfT hmac256 (hmac256 salt secret) info (i + 1)).flatten).take n := by
    rw [hkdf256]
    have := hkdfBlocks_eq (hmac256 salt secret) info ((n + 31) / 32) 0
    rw [← List.range_eq_range'] at this
    rw [← this]
    rfl
  have hT : ∀ i, (hkdfT hmac256 (hmac256 salt secret) info (i + 1)).length = 32 := fun i => hmac256_length _ _
  unfold IsHkdf
  simp only [hprk]
  constructor
  · rintro ⟨b, rfl, hl⟩
    rw [hb]
    refine flatten_take (fun i => hkdfT hmac256 (hmac256 salt secret) info (i + 1)) hT n b _ ?_ (by omega)
    rw [List.length_take, List.length_flatten] at hl
    have : ((List.range b).map fun i => hkdfT hmac256 (hmac256 salt secret) info (i + 1)).map List.length = List.replicate b 32 := by
      rw [List.eq_replicate_iff]
      simp [hT]
    rw [this] at hl
    simp at hl
    omega
  · rintro rfl
    exact ⟨_, hb, hkdf256_length _ _ _ _⟩

end Verif
