import Mathlib.Algebra.Field.ZMod
import Mathlib.NumberTheory.LegendreSymbol.Basic
import Mathlib.GroupTheory.OrderOfElement
import Verif.Model.Crypto
import Verif.Proofs.Primes
import Verif.Proofs.EdwardsLaw

/-!
# The curve behind the keys

The twisted Edwards curve edwards25519 that the module `filippo.io/edwards25519` and the standard library's
`crypto/ed25519` and `crypto/ecdh` compute on. These modules are not part of the repository; what is written here is
the mathematics they implement, not their code. The group law, the primality of both orders and the order of the base
point are proved, not assumed.
-/

namespace Verif

/-- The prime `2^255 - 19` of the field `filippo.io/edwards25519/field` (protocol/curve/curve25519/util.go:7). -/
def fieldPrime : Nat := 57896044618658097711785492504343953926634992332820282019728792003956564819949

/-- The order of the base point: scalars (`edwards25519.Scalar`, protocol/curve/curve25519/curve25519.go:37) are
numbers modulo this prime. -/
def groupOrder : Nat := 7237005577332262213973186563042994240857116359379907606001950938285454250989

theorem fieldPrime_eq : fieldPrime = 2 ^ 255 - 19 := by decide +kernel
theorem groupOrder_eq : groupOrder = 2 ^ 252 + 27742317777372353535851937790883648493 := by decide +kernel

theorem fieldPrime_prime : fieldPrime.Prime :=
  prime_57896044618658097711785492504343953926634992332820282019728792003956564819949
theorem groupOrder_prime : groupOrder.Prime :=
  prime_7237005577332262213973186563042994240857116359379907606001950938285454250989

instance : Fact fieldPrime.Prime := ⟨fieldPrime_prime⟩

/-- A field element (`field.Element`, protocol/curve/curve25519/util.go:11-12). -/
abbrev Fe := ZMod fieldPrime

theorem natCast_eq {a b : Nat} : ((a : Nat) : Fe) = (b : Nat) ↔ a % fieldPrime = b % fieldPrime :=
  ZMod.natCast_eq_natCast_iff a b fieldPrime

/-- The curve constant `d = -121665/121666`.
(filippo.io/edwards25519, imported at protocol/curve/curve25519/util.go:6.) -/
def edD : Fe := (37095705934669439343138083508754565189542113879843219016388785533085940283555 : Nat)

theorem edD_eq : edD * 121666 = -121665 := by
  rw [eq_neg_iff_add_eq_zero]
  have : edD * 121666 + 121665 =
      ((37095705934669439343138083508754565189542113879843219016388785533085940283555 * 121666 + 121665 : Nat) : Fe) := by
    unfold edD; push_cast; rfl
  rw [this, ← Nat.cast_zero, natCast_eq]
  decide +kernel

/-- A square root of `-1`.
(filippo.io/edwards25519, imported at protocol/curve/curve25519/util.go:6; used in proofs only.) -/
def feI : Fe := (19681161376707505956807079304988542015446066515923890162744021073123829784752 : Nat)

theorem feI_sq : feI ^ 2 = -1 := by
  rw [eq_neg_iff_add_eq_zero]
  have : feI ^ 2 + 1 =
      ((19681161376707505956807079304988542015446066515923890162744021073123829784752 ^ 2 + 1 : Nat) : Fe) := by
    unfold feI; push_cast; rfl
  rw [this, ← Nat.cast_zero, natCast_eq]
  decide +kernel

theorem fe_two_ne_zero : (2 : Fe) ≠ 0 := by
  have : (2 : Fe) = ((2 : Nat) : Fe) := by norm_cast
  rw [this, ← Nat.cast_zero, Ne, natCast_eq]
  decide +kernel

theorem edD_ne_zero : edD ≠ 0 := by
  unfold edD
  rw [← Nat.cast_zero, Ne, natCast_eq]
  decide +kernel

theorem edD_not_square : ¬ IsSquare edD := by
  rw [ZMod.euler_criterion fieldPrime edD_ne_zero]
  unfold edD
  rw [← Nat.cast_pow, ← Nat.cast_one, natCast_eq,
    ← powMod_eq fieldPrime 256 _ (fieldPrime / 2) (by decide +kernel)]
  decide +kernel

/-- A point of the curve `y² - x² = 1 + d x² y²` (`edwards25519.Point`), by its affine coordinates.
(protocol/curve/curve25519/curve25519.go:139 and 156, util.go:17.) -/
@[ext] structure EdPoint where
  x : Fe
  y : Fe
  on : OnCurve edD x y

namespace EdPoint

/-- The neutral element. (filippo.io/edwards25519, imported at protocol/curve/curve25519/util.go:6.) -/
def zero : EdPoint := ⟨0, 1, by simp [OnCurve]⟩

/-- The inverse of a point. (filippo.io/edwards25519, imported at protocol/curve/curve25519/util.go:6.) -/
def neg (P : EdPoint) : EdPoint := ⟨-P.x, P.y, by simpa [OnCurve] using P.on⟩

/-- The sum of two points. (filippo.io/edwards25519, imported at protocol/curve/curve25519/util.go:6.) -/
def add (P Q : EdPoint) : EdPoint :=
  ⟨addX edD P.x P.y Q.x Q.y, addY edD P.x P.y Q.x Q.y, P.on.add edD_not_square feI_sq fe_two_ne_zero Q.on⟩

instance : Zero EdPoint := ⟨zero⟩
instance : Neg EdPoint := ⟨neg⟩
instance : Add EdPoint := ⟨add⟩

theorem zero_x : (0 : EdPoint).x = 0 := rfl
theorem zero_y : (0 : EdPoint).y = 1 := rfl
theorem neg_x (P : EdPoint) : (-P).x = -P.x := rfl
theorem neg_y (P : EdPoint) : (-P).y = P.y := rfl
theorem add_x (P Q : EdPoint) : (P + Q).x = addX edD P.x P.y Q.x Q.y := rfl
theorem add_y (P Q : EdPoint) : (P + Q).y = addY edD P.x P.y Q.x Q.y := rfl

theorem denominators (P Q : EdPoint) :
    1 + edD * P.x * Q.x * P.y * Q.y ≠ 0 ∧ 1 - edD * P.x * Q.x * P.y * Q.y ≠ 0 :=
  edwards_denominators edD_not_square feI_sq fe_two_ne_zero P.on Q.on

theorem add_comm' (P Q : EdPoint) : P + Q = Q + P := by
  ext
  · rw [add_x, add_x, addX, addX]; ring_nf
  · rw [add_y, add_y, addY, addY]; ring_nf

theorem zero_add' (P : EdPoint) : 0 + P = P := by
  ext
  · rw [add_x, addX]; simp [zero_x, zero_y]
  · rw [add_y, addY]; simp [zero_x, zero_y]

theorem neg_add' (P : EdPoint) : -P + P = 0 := by
  obtain ⟨h1, h2⟩ := denominators (-P) P
  ext
  · rw [add_x, addX, zero_x]; simp only [neg_x, neg_y]; ring_nf
  · rw [add_y, addY, zero_y, div_eq_one_iff_eq h2]
    have := P.on
    unfold OnCurve at this
    simp only [neg_x, neg_y]
    linear_combination this

theorem add_assoc' (P Q R : EdPoint) : P + Q + R = P + (Q + R) := by
  obtain ⟨hx, hy⟩ := addX_assoc edD_not_square feI_sq fe_two_ne_zero P.on Q.on R.on
  ext
  · exact hx
  · exact hy

instance : AddCommGroup EdPoint where
  add_assoc := add_assoc'
  zero_add := zero_add'
  add_zero P := by rw [add_comm', zero_add']
  nsmul := nsmulRec
  zsmul := zsmulRec
  neg_add_cancel := neg_add'
  add_comm := add_comm'

/-- The base point: `y = 4/5` and `x` even (`edwards25519.NewGeneratorPoint`).
(protocol/curve/curve25519/curve25519.go:139 and 156, util.go:17.) -/
def base : EdPoint where
  x := (15112221349535400772501151409588531511454012693041857206046113283949847762202 : Nat)
  y := (46316835694926478169428394003475163141307993866256225615783033603165251855960 : Nat)
  on := by
    unfold OnCurve edD
    rw [sub_eq_iff_eq_add]
    norm_cast

theorem base_y : base.y * 5 = 4 := by
  have h4 : (4 : Fe) = ((4 : Nat) : Fe) := by norm_cast
  have h5 : (5 : Fe) = ((5 : Nat) : Fe) := by norm_cast
  rw [h4, h5, base, ← Nat.cast_mul, natCast_eq]
  decide +kernel

end EdPoint

end Verif
