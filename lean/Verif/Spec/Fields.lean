import Verif.Model.Wire

/-!
# The protobuf wire format, as a grammar

What a serialised protobuf message is, stated as the format documentation does: which byte strings are a varint, a
tag, a field, a group. Nothing here computes; the parsers of the model are compared with it.
-/

namespace Verif.Grammar

open Wire (Field Val)

/-- Base-128 digits, least significant first; every byte but the last has its top bit set. -/
inductive Digits : Bytes → Nat → Prop
  | last (b : UInt8) : b.toNat < 128 → Digits [b] b.toNat
  | more (b : UInt8) (bs : Bytes) (n : Nat) : 128 ≤ b.toNat → Digits bs n → Digits (b :: bs) (b.toNat - 128 + 128 * n)

/-- A varint: at most ten bytes, and the number fits 64 bits. It need not be the shortest form. -/
def IsVarint (bs : Bytes) (n : Nat) : Prop := Digits bs n ∧ bs.length ≤ 10 ∧ n < 2 ^ 64

/-- The tag of a field: a varint that holds the number of the field (below `limit`) and the wire type. -/
def IsTag (limit : Nat) (bs : Bytes) (num wtype : Nat) : Prop :=
  IsVarint bs (num * 8 + wtype) ∧ wtype < 8 ∧ 1 ≤ num ∧ num < limit

mutual

/-- The bytes behind the tag of a field with the given number and wire type, and the value they stand for. Groups
are nested at most `depth` deep. -/
inductive Payload : (depth num wtype : Nat) → Bytes → Val → Prop
  | varint (depth num n : Nat) (bs : Bytes) : IsVarint bs n → Payload depth num 0 bs (.varint n)
  | fixed64 (depth num : Nat) (bs : Bytes) : bs.length = 8 → Payload depth num 1 bs (.fixed64 bs)
  | len (depth num : Nat) (size bs : Bytes) : IsVarint size bs.length → Payload depth num 2 (size ++ bs) (.len bs)
  | group (depth num : Nat) (body endTag : Bytes) : Inside depth body → IsTag 2147483648 endTag num 4 →
      Payload (depth + 1) num 3 (body ++ endTag) .group
  | fixed32 (depth num : Nat) (bs : Bytes) : bs.length = 4 → Payload depth num 5 bs (.fixed32 bs)

/-- The inside of a group: fields, one after the other. -/
inductive Inside : (depth : Nat) → Bytes → Prop
  | nil (depth : Nat) : Inside depth []
  | cons (depth num wtype : Nat) (tag payload rest : Bytes) (v : Val) : IsTag 2147483648 tag num wtype →
      Payload depth num wtype payload v → Inside depth rest → Inside depth (tag ++ payload ++ rest)

end

/-- A serialised message: fields, one after the other. Field numbers are below 2^29, and groups are nested at most
10001 deep. -/
inductive Fields : Bytes → List Field → Prop
  | nil : Fields [] []
  | cons (num wtype : Nat) (tag payload rest : Bytes) (v : Val) (fs : List Field) : IsTag 536870912 tag num wtype →
      Payload 10001 num wtype payload v → Fields rest fs → Fields (tag ++ payload ++ rest) (⟨num, v⟩ :: fs)

/-- The byte string a message gives for field `num`: the last one of that number with that type. -/
def lastBytes (num : Nat) (fs : List Field) : Option Bytes :=
  (fs.filterMap fun f => match f.val with
    | .len b => if f.num = num then some b else none
    | _ => none).getLast?

/-- The number a message gives for field `num`: the last one of that number with that type, as 32 bits. -/
def lastNumber (num : Nat) (fs : List Field) : Option UInt32 :=
  (fs.filterMap fun f => match f.val with
    | .varint n => if f.num = num then some (UInt32.ofNat n) else none
    | _ => none).getLast?

end Verif.Grammar
