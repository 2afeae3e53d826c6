import Mathlib.NumberTheory.LucasPrimality
import Mathlib.Tactic.NormNum.Prime

/-!
Two numbers are prime: `2^255 - 19` and the order of the base point of curve25519. Each factor of a predecessor is
proved prime in turn, down to numbers `norm_num` settles.
-/

namespace Verif

/-- `b ^ e % n`, by repeated squaring; `fuel` bounds the number of binary digits of `e`. -/
def powMod (n : Nat) : Nat → Nat → Nat → Nat
  | 0, _, _ => 1 % n
  | fuel + 1, b, e =>
    if e = 0 then 1 % n
    else
      let h := powMod n fuel (b * b % n) (e / 2)
      if e % 2 = 1 then b * h % n else h

theorem powMod_eq (n fuel b e : Nat) (h : e < 2 ^ fuel) : powMod n fuel b e = b ^ e % n := by
  induction fuel generalizing b e with
  | zero =>
    have : e = 0 := by simpa using h
    subst this; simp [powMod]
  | succ fuel ih =>
    rw [powMod]
    by_cases h0 : e = 0
    · subst h0; simp
    rw [if_neg h0]
    have h2 : e / 2 < 2 ^ fuel := by rw [Nat.pow_succ] at h; omega
    have key : (b * b % n) ^ (e / 2) % n = b ^ (2 * (e / 2)) % n := by rw [← Nat.pow_mod, pow_mul, sq]
    simp only [ih _ _ h2, key]
    split
    · rename_i h1
      have : e = 2 * (e / 2) + 1 := by omega
      conv_rhs => rw [this, pow_succ, mul_comm]
      rw [Nat.mul_mod, Nat.mod_mod, ← Nat.mul_mod]
    · rename_i h1
      have : e = 2 * (e / 2) := by omega
      conv_rhs => rw [this]

/-- A primality certificate: the factors of `n - 1` and a generator of the multiplicative group. -/
theorem prime_of_certificate (n a : Nat) (fs : List Nat) (hp : ∀ f ∈ fs, f.Prime) (hn : 1 < n) (hs : n < 2 ^ 256)
    (hprod : fs.prod = n - 1) (h1 : powMod n 256 a (n - 1) = 1)
    (h2 : (fs.all fun f => powMod n 256 a ((n - 1) / f) != 1) = true) : n.Prime := by
  have cast : ∀ e, e < 2 ^ 256 → ((a : ZMod n) ^ e = 1 ↔ powMod n 256 a e = 1) := by
    intro e he
    rw [powMod_eq n 256 a e he]
    have : (a : ZMod n) ^ e = ((a ^ e : Nat) : ZMod n) := by push_cast; rfl
    rw [this, ← Nat.cast_one, ZMod.natCast_eq_natCast_iff, Nat.ModEq, Nat.mod_eq_of_lt hn]
  refine lucas_primality n a ((cast _ (by omega)).2 h1) fun q hq hd => ?_
  rw [← hprod] at hd
  obtain ⟨f, hf, hqf⟩ := (Nat.Prime.prime hq).dvd_prod_iff.1 hd
  have : q = f := (Nat.prime_dvd_prime_iff_eq hq (hp f hf)).1 hqf
  subst this
  intro hc
  have := List.all_eq_true.1 h2 q hf
  rw [(cast _ (lt_of_le_of_lt (Nat.div_le_self _ _) (by omega))).1 hc] at this
  simp at this

theorem prime_2773320623 :
    Nat.Prime 2773320623 := by
  refine prime_of_certificate _ 5
    [2, 2437, 569003] ?_ (by decide +kernel) (by decide +kernel)
    (by decide +kernel) (by decide +kernel) (by decide +kernel)
  simp only [List.forall_mem_cons]
  refine ⟨by norm_num, by norm_num, by norm_num, by simp⟩

theorem prime_72106336199 :
    Nat.Prime 72106336199 := by
  refine prime_of_certificate _ 7
    [2, 13, 2773320623] ?_ (by decide +kernel) (by decide +kernel)
    (by decide +kernel) (by decide +kernel) (by decide +kernel)
  simp only [List.forall_mem_cons]
  refine ⟨by norm_num, by norm_num, prime_2773320623, by simp⟩

theorem prime_8574133 :
    Nat.Prime 8574133 := by
  refine prime_of_certificate _ 2
    [2, 2, 3, 7, 103, 991] ?_ (by decide +kernel) (by decide +kernel)
    (by decide +kernel) (by decide +kernel) (by decide +kernel)
  simp only [List.forall_mem_cons]
  refine ⟨by norm_num, by norm_num, by norm_num, by norm_num, by norm_num, by norm_num, by simp⟩

theorem prime_1919519569386763 :
    Nat.Prime 1919519569386763 := by
  refine prime_of_certificate _ 2
    [2, 3, 7, 19, 47, 47, 127, 8574133] ?_ (by decide +kernel) (by decide +kernel)
    (by decide +kernel) (by decide +kernel) (by decide +kernel)
  simp only [List.forall_mem_cons]
  refine ⟨by norm_num, by norm_num, by norm_num, by norm_num, by norm_num, by norm_num, by norm_num, prime_8574133, by simp⟩

theorem prime_75445702479781427272750846543864801 :
    Nat.Prime 75445702479781427272750846543864801 := by
  refine prime_of_certificate _ 7
    [2, 2, 2, 2, 2, 3, 3, 5, 5, 75707, 72106336199, 1919519569386763] ?_ (by decide +kernel) (by decide +kernel)
    (by decide +kernel) (by decide +kernel) (by decide +kernel)
  simp only [List.forall_mem_cons]
  refine ⟨by norm_num, by norm_num, by norm_num, by norm_num, by norm_num, by norm_num, by norm_num, by norm_num, by norm_num, by norm_num, prime_72106336199, prime_1919519569386763, by simp⟩

theorem prime_31757755568855353 :
    Nat.Prime 31757755568855353 := by
  refine prime_of_certificate _ 10
    [2, 2, 2, 3, 31, 107, 223, 4153, 430751] ?_ (by decide +kernel) (by decide +kernel)
    (by decide +kernel) (by decide +kernel) (by decide +kernel)
  simp only [List.forall_mem_cons]
  refine ⟨by norm_num, by norm_num, by norm_num, by norm_num, by norm_num, by norm_num, by norm_num, by norm_num, by norm_num, by simp⟩

theorem prime_1923133 :
    Nat.Prime 1923133 := by
  refine prime_of_certificate _ 2
    [2, 2, 3, 43, 3727] ?_ (by decide +kernel) (by decide +kernel)
    (by decide +kernel) (by decide +kernel) (by decide +kernel)
  simp only [List.forall_mem_cons]
  refine ⟨by norm_num, by norm_num, by norm_num, by norm_num, by norm_num, by simp⟩

theorem prime_74058212732561358302231226437062788676166966415465897661863160754340907 :
    Nat.Prime 74058212732561358302231226437062788676166966415465897661863160754340907 := by
  refine prime_of_certificate _ 2
    [2, 3, 353, 57467, 132049, 1923133, 31757755568855353, 75445702479781427272750846543864801] ?_ (by decide +kernel) (by decide +kernel)
    (by decide +kernel) (by decide +kernel) (by decide +kernel)
  simp only [List.forall_mem_cons]
  refine ⟨by norm_num, by norm_num, by norm_num, by norm_num, by norm_num, prime_1923133, prime_31757755568855353, prime_75445702479781427272750846543864801, by simp⟩

theorem prime_57896044618658097711785492504343953926634992332820282019728792003956564819949 :
    Nat.Prime 57896044618658097711785492504343953926634992332820282019728792003956564819949 := by
  refine prime_of_certificate _ 2
    [2, 2, 3, 65147, 74058212732561358302231226437062788676166966415465897661863160754340907] ?_ (by decide +kernel) (by decide +kernel)
    (by decide +kernel) (by decide +kernel) (by decide +kernel)
  simp only [List.forall_mem_cons]
  refine ⟨by norm_num, by norm_num, by norm_num, by norm_num, prime_74058212732561358302231226437062788676166966415465897661863160754340907, by simp⟩

theorem prime_1224481 :
    Nat.Prime 1224481 := by
  refine prime_of_certificate _ 13
    [2, 2, 2, 2, 2, 3, 5, 2551] ?_ (by decide +kernel) (by decide +kernel)
    (by decide +kernel) (by decide +kernel) (by decide +kernel)
  simp only [List.forall_mem_cons]
  refine ⟨by norm_num, by norm_num, by norm_num, by norm_num, by norm_num, by norm_num, by norm_num, by norm_num, by simp⟩

theorem prime_1257559732178653 :
    Nat.Prime 1257559732178653 := by
  refine prime_of_certificate _ 2
    [2, 2, 3, 7, 23, 531581, 1224481] ?_ (by decide +kernel) (by decide +kernel)
    (by decide +kernel) (by decide +kernel) (by decide +kernel)
  simp only [List.forall_mem_cons]
  refine ⟨by norm_num, by norm_num, by norm_num, by norm_num, by norm_num, by norm_num, prime_1224481, by simp⟩

theorem prime_4434155615661930479 :
    Nat.Prime 4434155615661930479 := by
  refine prime_of_certificate _ 17
    [2, 41, 43, 1257559732178653] ?_ (by decide +kernel) (by decide +kernel)
    (by decide +kernel) (by decide +kernel) (by decide +kernel)
  simp only [List.forall_mem_cons]
  refine ⟨by norm_num, by norm_num, by norm_num, prime_1257559732178653, by simp⟩

theorem prime_172054593956031949258510691 :
    Nat.Prime 172054593956031949258510691 := by
  refine prime_of_certificate _ 2
    [2, 5, 1361, 2851, 4434155615661930479] ?_ (by decide +kernel) (by decide +kernel)
    (by decide +kernel) (by decide +kernel) (by decide +kernel)
  simp only [List.forall_mem_cons]
  refine ⟨by norm_num, by norm_num, by norm_num, by norm_num, prime_4434155615661930479, by simp⟩

theorem prime_292386187 :
    Nat.Prime 292386187 := by
  refine prime_of_certificate _ 2
    [2, 3, 3, 3, 3, 307, 5879] ?_ (by decide +kernel) (by decide +kernel)
    (by decide +kernel) (by decide +kernel) (by decide +kernel)
  simp only [List.forall_mem_cons]
  refine ⟨by norm_num, by norm_num, by norm_num, by norm_num, by norm_num, by norm_num, by norm_num, by simp⟩

theorem prime_213441916511 :
    Nat.Prime 213441916511 := by
  refine prime_of_certificate _ 13
    [2, 5, 73, 292386187] ?_ (by decide +kernel) (by decide +kernel)
    (by decide +kernel) (by decide +kernel) (by decide +kernel)
  simp only [List.forall_mem_cons]
  refine ⟨by norm_num, by norm_num, by norm_num, prime_292386187, by simp⟩

theorem prime_19757330305831588566944191468367130476339 :
    Nat.Prime 19757330305831588566944191468367130476339 := by
  refine prime_of_certificate _ 2
    [2, 269, 213441916511, 172054593956031949258510691] ?_ (by decide +kernel) (by decide +kernel)
    (by decide +kernel) (by decide +kernel) (by decide +kernel)
  simp only [List.forall_mem_cons]
  refine ⟨by norm_num, by norm_num, prime_213441916511, prime_172054593956031949258510691, by simp⟩

theorem prime_276602624281642239937218680557139826668747 :
    Nat.Prime 276602624281642239937218680557139826668747 := by
  refine prime_of_certificate _ 2
    [2, 7, 19757330305831588566944191468367130476339] ?_ (by decide +kernel) (by decide +kernel)
    (by decide +kernel) (by decide +kernel) (by decide +kernel)
  simp only [List.forall_mem_cons]
  refine ⟨by norm_num, by norm_num, prime_19757330305831588566944191468367130476339, by simp⟩

theorem prime_14741173 :
    Nat.Prime 14741173 := by
  refine prime_of_certificate _ 2
    [2, 2, 3, 3, 409477] ?_ (by decide +kernel) (by decide +kernel)
    (by decide +kernel) (by decide +kernel) (by decide +kernel)
  simp only [List.forall_mem_cons]
  refine ⟨by norm_num, by norm_num, by norm_num, by norm_num, by norm_num, by simp⟩

theorem prime_58964693 :
    Nat.Prime 58964693 := by
  refine prime_of_certificate _ 2
    [2, 2, 14741173] ?_ (by decide +kernel) (by decide +kernel)
    (by decide +kernel) (by decide +kernel) (by decide +kernel)
  simp only [List.forall_mem_cons]
  refine ⟨by norm_num, by norm_num, prime_14741173, by simp⟩

theorem prime_3044861653679985063343 :
    Nat.Prime 3044861653679985063343 := by
  refine prime_of_certificate _ 5
    [2, 3, 11, 30703, 82163, 132667, 137849] ?_ (by decide +kernel) (by decide +kernel)
    (by decide +kernel) (by decide +kernel) (by decide +kernel)
  simp only [List.forall_mem_cons]
  refine ⟨by norm_num, by norm_num, by norm_num, by norm_num, by norm_num, by norm_num, by norm_num, by simp⟩

theorem prime_198211423230930754013084525763697 :
    Nat.Prime 198211423230930754013084525763697 := by
  refine prime_of_certificate _ 5
    [2, 2, 2, 2, 3, 23, 58964693, 3044861653679985063343] ?_ (by decide +kernel) (by decide +kernel)
    (by decide +kernel) (by decide +kernel) (by decide +kernel)
  simp only [List.forall_mem_cons]
  refine ⟨by norm_num, by norm_num, by norm_num, by norm_num, by norm_num, by norm_num, prime_58964693, prime_3044861653679985063343, by simp⟩

theorem prime_7237005577332262213973186563042994240857116359379907606001950938285454250989 :
    Nat.Prime 7237005577332262213973186563042994240857116359379907606001950938285454250989 := by
  refine prime_of_certificate _ 2
    [2, 2, 3, 11, 198211423230930754013084525763697, 276602624281642239937218680557139826668747] ?_ (by decide +kernel) (by decide +kernel)
    (by decide +kernel) (by decide +kernel) (by decide +kernel)
  simp only [List.forall_mem_cons]
  refine ⟨by norm_num, by norm_num, by norm_num, by norm_num, prime_198211423230930754013084525763697, prime_276602624281642239937218680557139826668747, by simp⟩

end Verif
