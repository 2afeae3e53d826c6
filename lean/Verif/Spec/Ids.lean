import Verif.Model.Uuid
import Verif.Spec.Protocol

/-!
# Which texts denote a distribution id

Written without the parser; only the type of ids is shared with the model.
-/

namespace Verif

open Doc

/-- The character `c` is the hexadecimal digit `v`, in either case. -/
def IsHex (c : UInt8) (v : Nat) : Prop := (ascii "0123456789abcdef")[v]? = some c ∨ (ascii "0123456789ABCDEF")[v]? = some c

/-- Two hexadecimal digits for every byte. -/
inductive HexText : Bytes → Bytes → Prop
  | nil : HexText [] []
  | cons {a b : UInt8} {x y : Nat} {t xs : Bytes} (ha : IsHex a x) (hb : IsHex b y) (h : HexText t xs) :
      HexText (a :: b :: t) (UInt8.ofNat (16 * x + y) :: xs)

/-- 8, 4, 4, 4 and 12 hexadecimal digits with hyphens between them. -/
def Hyphenated (t : Bytes) (d : DistId) : Prop :=
  ∃ t1 t2 t3 t4 t5 x1 x2 x3 x4 x5, t = t1 ++ ascii "-" ++ t2 ++ ascii "-" ++ t3 ++ ascii "-" ++ t4 ++ ascii "-" ++ t5 ∧
    HexText t1 x1 ∧ HexText t2 x2 ∧ HexText t3 x3 ∧ HexText t4 x4 ∧ HexText t5 x5 ∧
    x1.length = 4 ∧ x2.length = 2 ∧ x3.length = 2 ∧ x4.length = 2 ∧ x5.length = 6 ∧ d.id = x1 ++ x2 ++ x3 ++ x4 ++ x5

/-- The same text up to the case of letters. -/
def SameButCase (t u : Bytes) : Prop :=
  t.length = u.length ∧ ∀ (i : Nat) (c : UInt8), u[i]? = some c → t[i]? = some c ∨ (97 ≤ c ∧ c ≤ 122 ∧ t[i]? = some (c - 32))

/-- The forms in which an id may be written. -/
inductive Writes (d : DistId) : Bytes → Prop
  | plain {t : Bytes} (h : Hyphenated t d) : Writes d t
  | urn {p t : Bytes} (hp : SameButCase p (ascii "urn:uuid:")) (h : Hyphenated t d) : Writes d (p ++ t)
  /-- braces are meant, but any two bytes will do -/
  | braced (x y : UInt8) {t : Bytes} (h : Hyphenated t d) : Writes d (x :: t ++ [y])
  | digits {t : Bytes} (h : HexText t d.id) : Writes d t

end Verif
