import Verif.Model.Basic

/-!
# Protobuf wire format

The library serialises with `google.golang.org/protobuf` (`proto.Marshal` / `proto.Unmarshal`). This file
models that library's wire level: varints, tags, length-delimited and fixed-width values, groups.
A message is first split into its fields (`parseFields`); each message type then interprets the list.

Simplification: `Unmarshal` interleaves splitting and interpreting. Both orders fail on the same inputs, and the
code base never looks at the partial result of a failed `Unmarshal`.
-/

namespace Verif.Wire

/-- Payload of one field, by wire type (0 varint, 1 fixed 64, 2 length-delimited, 3/4 group, 5 fixed 32).
(google.golang.org/protobuf, called at protocol/message/signal.go:43 and 86 and the like.) -/
inductive Val where
  | varint (n : Nat)
  | fixed64 (b : Bytes)
  | len (b : Bytes)
  | group
  | fixed32 (b : Bytes)
deriving DecidableEq, Repr

/-- One field as it appears on the wire.
(google.golang.org/protobuf, called at protocol/message/signal.go:43 and 86 and the like.) -/
structure Field where
  num : Nat
  val : Val
deriving DecidableEq, Repr

/-- protowire.AppendVarint (google.golang.org/protobuf/encoding/protowire). At most ten bytes; the first
argument is the number of bytes still allowed. -/
def encVarintN : Nat → Nat → Bytes
  | 0, _ => []
  | k + 1, n => if n < 128 then [UInt8.ofNat n] else UInt8.ofNat (n % 128 + 128) :: encVarintN k (n / 128)

/-- protowire.AppendVarint on a `uint64`.
(google.golang.org/protobuf, called at protocol/message/signal.go:43 and 86 and the like.) -/
def encVarint (n : Nat) : Bytes := encVarintN 10 n

/-- protowire.ConsumeVarint: at most ten bytes, and the tenth must be 0 or 1.
(google.golang.org/protobuf, called at protocol/message/signal.go:43 and 86 and the like.) -/
def decVarintN : Nat → Bytes → Option (Nat × Bytes)
  | 0, _ => none
  | _ + 1, [] => none
  | 1, b :: bs => if b.toNat < 2 then some (b.toNat, bs) else none
  | k + 2, b :: bs =>
    if b.toNat < 128 then some (b.toNat, bs)
    else match decVarintN (k + 1) bs with
      | some (v, rest) => some (b.toNat - 128 + 128 * v, rest)
      | none => none

/-- protowire.ConsumeVarint.
(google.golang.org/protobuf, called at protocol/message/signal.go:43 and 86 and the like.) -/
def decVarint (bs : Bytes) : Option (Nat × Bytes) := decVarintN 10 bs

/-- Wire type number of a payload.
(google.golang.org/protobuf, called at protocol/message/signal.go:43 and 86 and the like.) -/
def Val.wtype : Val → Nat
  | .varint _ => 0
  | .fixed64 _ => 1
  | .len _ => 2
  | .group => 3
  | .fixed32 _ => 5

/-- protowire.AppendTag followed by the payload. Groups are never emitted by the library's messages.
(google.golang.org/protobuf, called at protocol/message/signal.go:43 and 86 and the like.) -/
def encField (f : Field) : Bytes :=
  encVarint (f.num * 8 + f.val.wtype) ++
    match f.val with
    | .varint n => encVarint n
    | .fixed64 b => b
    | .len b => encVarint b.length ++ b
    | .group => []
    | .fixed32 b => b

/-- Concatenation of the fields, in the given order.
(google.golang.org/protobuf, called at protocol/message/signal.go:43 and 86 and the like.) -/
def encFields (fs : List Field) : Bytes := (fs.map encField).flatten

/-- Read a tag: field number (1 .. 2^29-1) and wire type. proto.Unmarshal (internal/impl/decode.go,
`unmarshalPointer`): numbers outside the range are an error. -/
def decTag (bs : Bytes) : Option (Nat × Nat × Bytes) :=
  match decVarint bs with
  | none => none
  | some (t, rest) =>
    let num := t / 8
    if 1 ≤ num ∧ num < 536870912 then some (num, t % 8, rest) else none

/-- Read a tag inside a group: protowire.ConsumeTag accepts the numbers 1 .. 2^31-1 there.
(google.golang.org/protobuf, called at protocol/message/signal.go:43 and 86 and the like.) -/
def decTagIn (bs : Bytes) : Option (Nat × Nat × Bytes) :=
  match decVarint bs with
  | none => none
  | some (t, rest) =>
    let num := t / 8
    if 1 ≤ num ∧ num < 2147483648 then some (num, t % 8, rest) else none

/-- protowire.ConsumeFieldValue on a group: skip fields until the matching end-group tag. The first argument
bounds the work (one unit per tag, the input length always suffices), `stack` is the list of open group numbers.
At most 10001 groups may be open (protowire.DefaultRecursionLimit below the outermost one).
(google.golang.org/protobuf, called at protocol/message/signal.go:43 and 86 and the like.) -/
def skipGroup : Nat → List Nat → Bytes → Option Bytes
  | 0, _, _ => none
  | k + 1, stack, bs =>
    match decTagIn bs with
    | none => none
    | some (num, wt, rest) =>
      match wt with
      | 0 => match decVarint rest with
        | some (_, r) => skipGroup k stack r
        | none => none
      | 1 => if 8 ≤ rest.length then skipGroup k stack (rest.drop 8) else none
      | 2 => match decVarint rest with
        | some (n, r) => if n ≤ r.length then skipGroup k stack (r.drop n) else none
        | none => none
      | 3 => if stack.length ≤ 10000 then skipGroup k (num :: stack) rest else none
      | 4 => match stack with
        | [] => none
        | [m] => if m = num then some rest else none
        | m :: stack' => if m = num then skipGroup k stack' rest else none
      | 5 => if 4 ≤ rest.length then skipGroup k stack (rest.drop 4) else none
      | _ => none

/-- Read the payload of a field with number `num` and wire type `wt` (protowire.ConsumeFieldValue). An
end-group tag (4) outside a group and the reserved types 6, 7 are errors.
(google.golang.org/protobuf, called at protocol/message/signal.go:43 and 86 and the like.) -/
def decVal (num wt : Nat) (bs : Bytes) : Option (Val × Bytes) :=
  match wt with
  | 0 => match decVarint bs with
    | some (n, r) => some (.varint n, r)
    | none => none
  | 1 => if 8 ≤ bs.length then some (.fixed64 (bs.take 8), bs.drop 8) else none
  | 2 => match decVarint bs with
    | some (n, r) => if n ≤ r.length then some (.len (r.take n), r.drop n) else none
    | none => none
  | 3 => match skipGroup (bs.length + 1) [num] bs with
    | some r => some (.group, r)
    | none => none
  | 5 => if 4 ≤ bs.length then some (.fixed32 (bs.take 4), bs.drop 4) else none
  | _ => none

/-- Split a serialised message into fields. The first argument bounds the number of fields; every field takes
at least one byte, so the input length suffices.
(google.golang.org/protobuf, called at protocol/message/signal.go:43 and 86 and the like.) -/
def parseN : Nat → Bytes → Option (List Field)
  | _, [] => some []
  | 0, _ :: _ => none
  | k + 1, b :: bs =>
    match decTag (b :: bs) with
    | none => none
    | some (num, wt, rest) =>
      match decVal num wt rest with
      | none => none
      | some (v, rest') =>
        match parseN k rest' with
        | none => none
        | some fs => some (⟨num, v⟩ :: fs)

/-- Split a whole serialised message.
(google.golang.org/protobuf, called at protocol/message/signal.go:43 and 86 and the like.) -/
def parseFields (bs : Bytes) : Option (List Field) := parseN bs.length bs

/-! ## Round trip -/

theorem encVarintN_ne_nil (k n : Nat) : encVarintN (k + 1) n ≠ [] := by
  unfold encVarintN; split <;> simp

theorem encVarint_ne_nil (n : Nat) : encVarint n ≠ [] := encVarintN_ne_nil 9 n

theorem decVarintN_enc (k n : Nat) (rest : Bytes) (h : n < 2 ^ (7 * k + 1)) :
    decVarintN (k + 1) (encVarintN (k + 1) n ++ rest) = some (n, rest) := by
  induction k generalizing n with
  | zero =>
    have h' : n < 2 := by simpa using h
    have : n < 128 := by omega
    have h2 : (UInt8.ofNat n).toNat = n := by rw [UInt8.toNat_ofNat']; omega
    simp [encVarintN, decVarintN, this, h2, h']
  | succ k ih =>
    by_cases hn : n < 128
    · have h2 : (UInt8.ofNat n).toNat = n := by rw [UInt8.toNat_ofNat']; omega
      simp [encVarintN, decVarintN, hn, h2]
    · have h2 : (UInt8.ofNat (n % 128 + 128)).toNat = n % 128 + 128 := by
        rw [UInt8.toNat_ofNat']; omega
      have h3 : n / 128 < 2 ^ (7 * k + 1) := by
        have : 2 ^ (7 * (k + 1) + 1) = 128 * 2 ^ (7 * k + 1) := by
          rw [show 7 * (k + 1) + 1 = 7 + (7 * k + 1) by omega, Nat.pow_add]
        exact Nat.div_lt_of_lt_mul (by omega)
      rw [encVarintN, if_neg hn, List.cons_append, decVarintN, h2, if_neg (by omega), ih _ h3]
      simp only [Option.some.injEq, Prod.mk.injEq, and_true]
      omega

theorem decVarint_enc (n : Nat) (rest : Bytes) (h : n < 2 ^ 64) :
    decVarint (encVarint n ++ rest) = some (n, rest) := decVarintN_enc 9 n rest h

/-- Fields the library emits: number in range, varint or length-delimited, values that fit 64 bits.
(google.golang.org/protobuf, called at protocol/message/signal.go:43 and 86 and the like.) -/
def Field.Ok (f : Field) : Prop :=
  1 ≤ f.num ∧ f.num < 536870912 ∧
    match f.val with
    | .varint n => n < 2 ^ 64
    | .len b => b.length < 2 ^ 64
    | _ => False

theorem decTag_enc (num wt : Nat) (rest : Bytes) (h1 : 1 ≤ num) (h2 : num < 536870912) (h3 : wt < 8) :
    decTag (encVarint (num * 8 + wt) ++ rest) = some (num, wt, rest) := by
  have hlt : num * 8 + wt < 2 ^ 64 := by
    have : (2:Nat)^64 = 18446744073709551616 := by decide
    omega
  rw [decTag, decVarint_enc _ _ hlt]
  have e1 : (num * 8 + wt) / 8 = num := by omega
  have e2 : (num * 8 + wt) % 8 = wt := by omega
  simp [e1, e2, h1, h2]

theorem decVal_enc (f : Field) (hf : f.Ok) (rest : Bytes) :
    ∃ tail, encField f ++ rest = encVarint (f.num * 8 + f.val.wtype) ++ (tail ++ rest) ∧
      decVal f.num f.val.wtype (tail ++ rest) = some (f.val, rest) := by
  obtain ⟨num, val⟩ := f
  obtain ⟨_, _, hv⟩ := hf
  cases val with
  | varint n =>
    refine ⟨encVarint n, by simp [encField], ?_⟩
    simp only at hv
    simp [decVal, Val.wtype, decVarint_enc _ _ hv]
  | len b =>
    refine ⟨encVarint b.length ++ b, by simp [encField], ?_⟩
    simp only at hv
    simp [decVal, Val.wtype, decVarint_enc _ _ hv]
  | fixed64 b => exact hv.elim
  | group => exact hv.elim
  | fixed32 b => exact hv.elim

theorem encField_length_pos (f : Field) : 1 ≤ (encField f).length := by
  have := encVarint_ne_nil (f.num * 8 + f.val.wtype)
  have h : 0 < (encVarint (f.num * 8 + f.val.wtype)).length := List.length_pos_iff.mpr this
  simp only [encField, List.length_append]
  omega

theorem parseN_enc (fs : List Field) (hfs : ∀ f ∈ fs, f.Ok) (k : Nat) (hk : (encFields fs).length ≤ k) :
    parseN k (encFields fs) = some fs := by
  induction fs generalizing k with
  | nil => cases k <;> simp [encFields, parseN]
  | cons f fs ih =>
    have hf := hfs f (by simp)
    obtain ⟨h1, h2, _⟩ := id hf
    have hpos := encField_length_pos f
    have e : encFields (f :: fs) = encField f ++ encFields fs := by simp [encFields]
    rw [e] at hk ⊢
    rw [List.length_append] at hk
    obtain ⟨tail, et, hd⟩ := decVal_enc f hf (encFields fs)
    have hwt : f.val.wtype < 8 := by cases f.val <;> simp [Val.wtype]
    have htag := decTag_enc f.num f.val.wtype (tail ++ encFields fs) h1 h2 hwt
    rw [← et] at htag
    match k, hk with
    | 0, hk => omega
    | k + 1, hk =>
      have hr := ih (fun g hg => hfs g (by simp [hg])) k (by omega)
      match hb : encField f ++ encFields fs with
      | [] =>
        have h0 : (encField f ++ encFields fs).length = 0 := by rw [hb]; rfl
        rw [List.length_append] at h0
        omega
      | b :: bs =>
        rw [hb] at htag
        simp only [parseN, htag, hd, hr]

/-- Splitting what was concatenated gives the fields back. -/
theorem parseFields_enc (fs : List Field) (hfs : ∀ f ∈ fs, f.Ok) :
    parseFields (encFields fs) = some fs := parseN_enc fs hfs _ (Nat.le_refl _)

end Verif.Wire
