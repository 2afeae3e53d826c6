import Verif.Model.Keys

/-!
# The public keys of small order

The list that is published with Curve25519: the coordinates of the points of order one, two, four and eight of the curve and of its
twist. A public key stands for one of them if its number, the top bit not counted and modulo `2^255 - 19`, is in the list.
-/

namespace Verif

/-- The five numbers. -/
def smallOrder : List Nat :=
  [0, 1,
   325606250916557431795983626356110631294008115727848805560023387167927233504,
   39382357235489614581723060781553021112529911719440698176882885853963445705823,
   2 ^ 255 - 19 - 1]

/-- The number a public key stands for. -/
def PubKey.number (p : PubKey) : Nat := leNat p.key % 2 ^ 255 % (2 ^ 255 - 19)

end Verif
