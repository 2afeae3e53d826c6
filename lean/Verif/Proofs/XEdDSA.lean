import Verif.Model.XEdDSA
import Verif.Proofs.Edwards
import Verif.Proofs.Montgomery

/-!
Facts behind the signature properties: encodings of field elements and points, and the agreement of `xtou` and `utoy`.
-/

namespace Verif

/-! ## Bytes -/

theorem leBytes_getElem? (n v i : Nat) (h : i < n) : (leBytes n v)[i]? = some (UInt8.ofNat (v / 256 ^ i % 256)) := by
  induction n generalizing v i with
  | zero => omega
  | succ n ih =>
    cases i with
    | zero => simp [leBytes]
    | succ i =>
      rw [leBytes, List.getElem?_cons_succ, ih _ _ (by omega), Nat.div_div_eq_div_mul, Nat.pow_succ, Nat.mul_comm 256]

theorem modifyAt_congr {l : Bytes} {i : Nat} {f g : UInt8 → UInt8} {b : UInt8} (hb : l[i]? = some b) (h : f b = g b) :
    modifyAt l i f = modifyAt l i g := by
  apply List.ext_getElem?
  intro j
  simp only [modifyAt, List.getElem?_modify]
  by_cases hj : i = j
  · subst hj; rw [hb]; simp [h]
  · simp [hj]

theorem modifyAt_same {l : Bytes} {i : Nat} {f : UInt8 → UInt8} {b : UInt8} (hb : l[i]? = some b) (h : f b = b) :
    modifyAt l i f = l := by
  apply List.ext_getElem?
  intro j
  simp only [modifyAt, List.getElem?_modify]
  by_cases hj : i = j
  · subst hj; rw [hb]; simp [h]
  · simp [hj]

theorem modifyAt_modifyAt (l : Bytes) (i : Nat) (f g : UInt8 → UInt8) :
    modifyAt (modifyAt l i f) i g = modifyAt l i (fun b => g (f b)) := by
  apply List.ext_getElem?
  intro j
  simp only [modifyAt, List.getElem?_modify]
  by_cases hj : i = j
  · subst hj; cases l[i]? <;> simp
  · simp [hj]

theorem modifyAt_append_right (l r : Bytes) (i : Nat) (f : UInt8 → UInt8) :
    modifyAt (l ++ r) (l.length + i) f = l ++ modifyAt r i f := by
  apply List.ext_getElem?
  intro j
  simp only [modifyAt, List.getElem?_modify, List.getElem?_append]
  by_cases hj : j < l.length
  · have : ¬ l.length + i = j := by omega
    simp [hj, this]
  · by_cases h2 : l.length + i = j
    · subst h2
      simp
    · have : ¬ i = j - l.length := by omega
      simp [hj, h2, this]

theorem modifyAt_getElem? (l : Bytes) (i : Nat) (f : UInt8 → UInt8) : (modifyAt l i f)[i]? = l[i]?.map f := by
  simp [modifyAt, List.getElem?_modify]

theorem forall_u8 {p : UInt8 → Prop} (h : ∀ n : Fin 256, p (UInt8.ofNat n.1)) (b : UInt8) : p b := by
  have := h ⟨b.toNat, b.toNat_lt⟩
  simpa using this

theorem u8_mask (b : UInt8) : b.toNat < 128 → ∀ s : UInt8, (s = 0 ∨ s = 128) → (b ||| s) &&& 127 = b := by
  revert b
  refine forall_u8 ?_
  rintro n hn s (rfl | rfl)
  · revert n; decide +kernel
  · revert n; decide +kernel

theorem u8_and (b : UInt8) : b.toNat < 128 → b &&& 127 = b := by
  revert b
  exact forall_u8 (by decide +kernel)

theorem u8_xor (b : UInt8) : b.toNat < 128 → ∀ s : UInt8, (s = 0 ∨ s = 128) → b ^^^ s = b ||| s := by
  revert b
  refine forall_u8 ?_
  rintro n hn s (rfl | rfl)
  · revert n; decide +kernel
  · revert n; decide +kernel

theorem u8_sign (b : UInt8) : b.toNat < 128 → ∀ s : UInt8, (s = 0 ∨ s = 128) → (b ||| s) &&& 128 = s ∧
    (b ||| s).toNat / 128 = s.toNat / 128 := by
  revert b
  refine forall_u8 ?_
  rintro n hn s (rfl | rfl)
  · revert n; decide +kernel
  · revert n; decide +kernel

/-! ## Field elements -/

theorem fe_val_lt (x : Fe) : x.val < fieldPrime := ZMod.val_lt x

theorem top_byte {v : Nat} (h : v < 2 ^ 255) : ∃ b : UInt8, (leBytes 32 v)[31]? = some b ∧ b.toNat < 128 := by
  refine ⟨_, leBytes_getElem? 32 v 31 (by omega), ?_⟩
  have h1 : v / 256 ^ 31 < 128 := Nat.div_lt_of_lt_mul (by norm_num at h ⊢; exact h)
  generalize v / 256 ^ 31 = q at h1
  rw [UInt8.toNat_ofNat']
  omega

theorem fe_top (x : Fe) : ∃ b : UInt8, (feBytes x)[31]? = some b ∧ b.toNat < 128 :=
  top_byte (lt_trans (fe_val_lt x) (by decide +kernel))

@[simp] theorem feBytes_length (x : Fe) : (feBytes x).length = 32 := by simp [feBytes]

theorem fe_of_sign (x : Fe) (s : UInt8) (hs : s = 0 ∨ s = 128) : feOfBytes (modifyAt (feBytes x) 31 (· ||| s)) = x := by
  obtain ⟨b, hb, hlt⟩ := fe_top x
  unfold feOfBytes
  rw [modifyAt_modifyAt, modifyAt_same hb (u8_mask b hlt s hs), feBytes, leNat_leBytes]
  · exact ZMod.natCast_zmod_val x
  · exact lt_trans (fe_val_lt x) (by decide +kernel)

theorem fe_ofBytes_bytes (x : Fe) : feOfBytes (feBytes x) = x := by
  obtain ⟨b, hb, hlt⟩ := fe_top x
  unfold feOfBytes
  rw [modifyAt_same hb (u8_and b hlt), feBytes, leNat_leBytes]
  · exact ZMod.natCast_zmod_val x
  · exact lt_trans (fe_val_lt x) (by decide +kernel)

theorem feBytes_inj {x y : Fe} (h : feBytes x = feBytes y) : x = y := by
  rw [← fe_ofBytes_bytes x, h, fe_ofBytes_bytes]

/-! ## Points -/

namespace EdPoint

/-- The sign bit of a point. -/
def sign (P : EdPoint) : UInt8 := if P.x.val % 2 = 1 then 128 else 0

theorem sign_cases (P : EdPoint) : P.sign = 0 ∨ P.sign = 128 := by
  unfold sign; split <;> simp

theorem bytes_eq (P : EdPoint) : P.bytes = modifyAt (feBytes P.y) 31 (· ||| P.sign) := rfl

@[simp] theorem bytes_length (P : EdPoint) : P.bytes.length = 32 := by simp [bytes]
@[simp] theorem bytesMontgomery_length (P : EdPoint) : P.bytesMontgomery.length = 32 := by simp [bytesMontgomery]

theorem bytes_sign (P : EdPoint) : P.bytes.getD 31 0 &&& 0x80 = P.sign := by
  obtain ⟨b, hb, hlt⟩ := fe_top P.y
  rw [List.getD_eq_getElem?_getD, bytes_eq, modifyAt_getElem?, hb]
  exact (u8_sign b hlt _ P.sign_cases).1

theorem encoded_bytes (P : EdPoint) : Encoded P.bytes P := by
  refine ⟨(fe_of_sign P.y _ P.sign_cases).symm, .inr ?_⟩
  obtain ⟨b, hb, hlt⟩ := fe_top P.y
  rw [List.getD_eq_getElem?_getD, bytes_eq, modifyAt_getElem?, hb]
  simp only [Option.map_some, Option.getD_some]
  rw [(u8_sign b hlt _ P.sign_cases).2]
  unfold sign
  split
  · rename_i h; rw [h]; rfl
  · rename_i h
    have : P.x.val % 2 = 0 := by omega
    rw [this]; rfl

theorem neg_parity {x : Fe} (h : x ≠ 0) : (-x).val % 2 ≠ x.val % 2 := by
  have : NeZero x := ⟨h⟩
  rw [ZMod.val_neg_of_ne_zero]
  have hlt := fe_val_lt x
  have hodd : fieldPrime % 2 = 1 := by decide +kernel
  omega

theorem encoded_unique {b : Bytes} {P Q : EdPoint} (hP : Encoded b P) (hQ : Encoded b Q) : P = Q := by
  rcases eq_or_eq_neg (hP.1.trans hQ.1.symm) with h | h
  · exact h
  by_cases h0 : Q.x = 0
  · rw [h]; ext
    · rw [neg_x, h0, neg_zero]
    · rfl
  · exfalso
    have hx : P.x = -Q.x := by rw [h, neg_x]
    have hp := hP.2.resolve_left (by rw [hx]; simpa using h0)
    have hq := hQ.2.resolve_left h0
    rw [hx] at hp
    exact neg_parity h0 (hp.trans hq.symm)

/-- Decoding the encoding of a point gives the point. -/
theorem ofBytes_bytes (P : EdPoint) : ofBytes P.bytes = some P := by
  have h : ∃ Q, Encoded P.bytes Q := ⟨P, P.encoded_bytes⟩
  unfold ofBytes
  rw [if_neg (by simp), dif_pos h]
  exact congrArg some (encoded_unique h.choose_spec P.encoded_bytes)

theorem bytes_inj {P Q : EdPoint} (h : P.bytes = Q.bytes) : P = Q := by
  have := ofBytes_bytes P
  rw [h, ofBytes_bytes] at this
  exact (Option.some.inj this).symm

/-! ## From `y` to `u` and back -/

theorem y_of_u {P : EdPoint} (h : P.y ≠ 1) : P.u ≠ -1 ∧ (P.u - 1) * (P.u + 1)⁻¹ = P.y := by
  have h1 : 1 - P.y ≠ 0 := sub_ne_zero.2 (Ne.symm h)
  have hu : P.u + 1 = 2 * (1 - P.y)⁻¹ := by
    unfold u; field_simp; ring
  have hv : P.u - 1 = 2 * P.y * (1 - P.y)⁻¹ := by
    unfold u; field_simp; ring
  have h2 := fe_two_ne_zero
  constructor
  · intro hc
    rw [hc] at hu
    have : 2 * (1 - P.y)⁻¹ = 0 := by rw [← hu]; ring
    exact mul_ne_zero h2 (inv_ne_zero h1) this
  · rw [hu, hv]
    field_simp

end EdPoint

theorem utoy_bytesMontgomery {P : EdPoint} (h : P ≠ 0) :
    utoy P.bytesMontgomery (P.sign == 0) = .ok P.bytes := by
  obtain ⟨h1, h2⟩ := EdPoint.y_of_u (P := P) fun hy => h (EdPoint.eq_zero_of_y hy)
  unfold utoy
  have e : feOfBytes P.bytesMontgomery = P.u := fe_ofBytes_bytes P.u
  simp only [EdPoint.bytesMontgomery_length, ne_eq, not_true_eq_false, if_false, e, h1, h2]
  rw [EdPoint.bytes_eq]
  obtain ⟨b, hb, hlt⟩ := fe_top P.y
  refine congrArg Res.ok (modifyAt_congr hb ?_)
  rcases P.sign_cases with hs | hs
  · rw [hs]; simp
  · rw [hs]; simpa using u8_xor b hlt 128 (.inr rfl)

/-! ## Scalars -/

theorem leNat_clamp {key : Bytes} (h : key.length = 32) :
    ∃ m, leNat (clamp key) = 8 * m ∧ 0 < m ∧ m < 2 ^ 252 := by
  match key, h with
  | b0 :: rest, h =>
    have hr : rest.length = 31 := by simpa using h
    have h30 : 30 < rest.length := by omega
    have hsplit : rest = rest.take 30 ++ [rest[30]] := by
      have := List.take_append_getElem h30
      have e : rest.take (30 + 1) = rest := List.take_of_length_le (by omega)
      rw [e] at this
      exact this.symm
    obtain ⟨t, ht⟩ : ∃ t, t = rest.take 30 := ⟨_, rfl⟩
    obtain ⟨b, hbb⟩ : ∃ b, b = rest[30] := ⟨_, rfl⟩
    have htl : t.length = 30 := by rw [ht]; simp [hr]
    rw [← ht, ← hbb] at hsplit
    have hc : clamp (b0 :: rest) = (b0 &&& 248) :: (t ++ [(b &&& 63) ||| 64]) := by
      rw [hsplit, clamp, modifyAt_modifyAt]
      have e0 : modifyAt (b0 :: (t ++ [b])) 0 (· &&& 248) = (b0 &&& 248) :: (t ++ [b]) := by simp [modifyAt]
      rw [e0]
      have := modifyAt_append_right ((b0 &&& 248) :: t) [b] 0 (fun b => b &&& 63 ||| 64)
      simpa [htl, modifyAt] using this
    have happ : ∀ (l r : Bytes), leNat (l ++ r) = leNat l + 256 ^ l.length * leNat r := by
      intro l r
      induction l with
      | nil => simp [leNat]
      | cons x l ih => simp only [List.cons_append, leNat, ih, List.length_cons, Nat.pow_succ]; ring
    have h8 : (b0 &&& 248).toNat % 8 = 0 :=
      forall_u8 (p := fun b0 => (b0 &&& 248).toNat % 8 = 0) (by decide +kernel) b0
    have hb8 : (b0 &&& 248).toNat < 256 := (b0 &&& 248).toNat_lt
    have h64 : 64 ≤ (b &&& 63 ||| 64).toNat ∧ (b &&& 63 ||| 64).toNat < 128 :=
      forall_u8 (p := fun b => 64 ≤ (b &&& 63 ||| 64).toNat ∧ (b &&& 63 ||| 64).toNat < 128) (by decide +kernel) b
    have htlt := leNat_lt t
    rw [htl] at htlt
    rw [hc, leNat, happ, htl]
    simp only [leNat, Nat.mul_zero, Nat.add_zero]
    generalize (b0 &&& 248).toNat = p at *
    generalize (b &&& 63 ||| 64).toNat = q at *
    generalize leNat t = w at *
    refine ⟨p / 8 + 32 * (w + 256 ^ 30 * q), ?_, ?_, ?_⟩
    · omega
    · have : 0 < 256 ^ 30 * q := Nat.mul_pos (by norm_num) (by omega)
      omega
    · norm_num at htlt ⊢
      omega

/-- A clamped key is not a multiple of the group order. -/
theorem clamp_not_dvd {key : Bytes} (h : key.length = 32) : ¬ groupOrder ∣ leNat (clamp key) := by
  obtain ⟨m, hm, h0, hlt⟩ := leNat_clamp h
  rw [hm]
  intro hd
  rcases (Nat.Prime.dvd_mul groupOrder_prime).1 hd with h8 | h8
  · exact absurd (Nat.le_of_dvd (by omega) h8) (by decide +kernel)
  · have := Nat.le_of_dvd h0 h8
    have h3 : 2 ^ 252 < groupOrder := by decide +kernel
    omega

theorem scalarKey_smul (key : Bytes) : scalarKey key • EdPoint.base = leNat (clamp key) • EdPoint.base :=
  EdPoint.smul_base_mod _

theorem scalarKey_ne_zero {key : Bytes} (h : key.length = 32) : scalarKey key • EdPoint.base ≠ 0 := by
  rw [scalarKey_smul, Ne, EdPoint.smul_base_eq_zero]
  exact clamp_not_dvd h

theorem writeAll_eq (acc : Bytes) (messages : List Bytes) : writeAll acc messages = acc ++ messages.flatten := by
  unfold writeAll
  induction messages generalizing acc with
  | nil => simp
  | cons m ms ih => rw [List.foldl_cons, ih]; simp

/-! ## Signing and verifying -/

theorem s_top (n : Nat) : ∃ b : UInt8, (leBytes 32 (n % groupOrder))[31]? = some b ∧ b.toNat < 128 :=
  top_byte (lt_trans (Nat.mod_lt _ groupOrder_prime.pos) (by decide +kernel))

theorem leNat_s (n : Nat) : leNat (leBytes 32 (n % groupOrder)) = n % groupOrder :=
  leNat_leBytes _ _ (lt_trans (Nat.mod_lt _ groupOrder_prime.pos) (by decide +kernel))

theorem signWith_length (H : Bytes → Bytes) (key z : Bytes) (messages : List Bytes) :
    (signWith H key z messages).length = 64 := by
  simp [signWith]

theorem curveVerify_sign (H : Bytes → Bytes) {key : Bytes} (hk : key.length = 32) (z : Bytes) (messages : List Bytes) :
    curveVerify H (curvePublic key) (signWith H key z messages) messages = .ok true := by
  obtain ⟨a, ha⟩ : ∃ a, a = scalarKey key := ⟨_, rfl⟩
  obtain ⟨A, hA⟩ : ∃ A, A = a • EdPoint.base := ⟨_, rfl⟩
  have hA0 : A ≠ 0 := by rw [hA, ha]; exact scalarKey_ne_zero hk
  obtain ⟨r, hr⟩ : ∃ r, r = leNat (H (writeAll (hashPrefix ++ leBytes 32 a) messages ++ z)) % groupOrder := ⟨_, rfl⟩
  obtain ⟨R, hR⟩ : ∃ R, R = r • EdPoint.base := ⟨_, rfl⟩
  obtain ⟨h, hh⟩ : ∃ h, h = leNat (H (writeAll (R.bytes ++ A.bytes) messages)) % groupOrder := ⟨_, rfl⟩
  obtain ⟨s, hs⟩ : ∃ s, s = leBytes 32 ((a * h + r) % groupOrder) := ⟨_, rfl⟩
  obtain ⟨b, hb, hlt⟩ := s_top (a * h + r)
  rw [← hs] at hb
  have hsl : s.length = 32 := by rw [hs]; simp
  have hRl : R.bytes.length = 32 := R.bytes_length
  have hsig : signWith H key z messages = R.bytes ++ modifyAt s 31 (· ||| A.sign) := by
    unfold signWith
    simp only [← ha, ← hA, ← hr, ← hR, ← hh, ← hs]
    rw [modifyAt_modifyAt, A.bytes_sign]
    have := modifyAt_append_right R.bytes s 31 (fun b => b &&& 127 ||| A.sign)
    rw [hRl] at this
    rw [this]
    refine congrArg (R.bytes ++ ·) (modifyAt_congr hb ?_)
    rw [u8_and b hlt]
  have hlast : (signWith H key z messages)[63]? = some (b ||| A.sign) := by
    rw [hsig, List.getElem?_append_right (by omega), hRl, modifyAt_getElem?, hb]; rfl
  have hmask : modifyAt ((signWith H key z messages).take 64) 63 (· &&& 0x7F) = R.bytes ++ s := by
    rw [List.take_of_length_le (by simp [signWith_length]), hsig]
    have := modifyAt_append_right R.bytes (modifyAt s 31 (· ||| A.sign)) 31 (· &&& 0x7F)
    rw [hRl] at this
    rw [this, modifyAt_modifyAt, modifyAt_same hb (u8_mask b hlt _ A.sign_cases)]
  have hpub : curvePublic key = A.bytesMontgomery := by rw [hA, ha]; rfl
  have hut : utoy (curvePublic key) ((b ||| A.sign) &&& 0x80 == 0) = .ok A.bytes := by
    rw [(u8_sign b hlt _ A.sign_cases).1, hpub]
    exact utoy_bytesMontgomery hA0
  unfold curveVerify
  simp only [hlast, hut, hmask, Res.bind_ok]
  unfold ed25519Verify
  rw [if_neg (by simp), if_neg (by simp [hRl, hsl]), EdPoint.ofBytes_bytes]
  have ht : (R.bytes ++ s).take 32 = R.bytes := by rw [List.take_append_of_le_length (by omega), List.take_of_length_le (by omega)]
  have hd : (R.bytes ++ s).drop 32 = s := by
    have := List.drop_left (l₁ := R.bytes) (l₂ := s)
    rwa [hRl] at this
  have hS : leNat s = (a * h + r) % groupOrder := by rw [hs]; exact leNat_s _
  have hk : leNat (H (R.bytes ++ A.bytes ++ writeAll [] messages)) % groupOrder = h := by
    rw [hh, writeAll_eq, writeAll_eq, List.nil_append]
  simp only [ht, hd, hS, hk]
  rw [if_neg (by have := Nat.mod_lt (a * h + r) groupOrder_prime.pos; omega)]
  have hR' : h • (-A) + ((a * h + r) % groupOrder) • EdPoint.base = R := by
    rw [EdPoint.smul_base_mod, add_nsmul, hA, hR, mul_nsmul, smul_neg, neg_add_cancel_left]
  rw [hR']
  simp

theorem utoy_cases {montU : Bytes} (h : montU.length = 32) (positive : Bool) :
    utoy montU positive = .err .invalidUPoint ∨ ∃ y, utoy montU positive = .ok y ∧ y.length = 32 := by
  unfold utoy
  rw [if_neg (by simp [h])]
  simp only
  by_cases hu : feOfBytes montU = -1
  · left; rw [if_pos hu]
  · right; rw [if_neg hu]; exact ⟨_, rfl, by simp⟩

theorem ed25519Verify_cases (H : Bytes → Bytes) {y : Bytes} (h : y.length = 32) (msg sig : Bytes) :
    ∃ b, ed25519Verify H y msg sig = .ok b := by
  unfold ed25519Verify
  rw [if_neg (by simp [h])]
  split
  · exact ⟨_, rfl⟩
  · split
    · exact ⟨_, rfl⟩
    · simp only
      split <;> exact ⟨_, rfl⟩

theorem curveVerify_cases (H : Bytes → Bytes) (p : PubKey) {sig : Bytes} (hl : sig.length = 64) (ms : List Bytes) :
    (∃ b, curveVerify H p.key sig ms = .ok b) ∨ curveVerify H p.key sig ms = .err .invalidUPoint := by
  unfold curveVerify
  rw [List.getElem?_eq_getElem (show 63 < sig.length by omega)]
  simp only
  rcases utoy_cases p.len (sig[63] &&& 0x80 == 0) with h | ⟨y, h, hy⟩
  · right; rw [h]; rfl
  · left; rw [h]; exact ed25519Verify_cases H hy _ _

/-! ## What is accepted -/

/-- The sign bit as a byte. -/
def signByte (neg : Bool) : UInt8 := if neg then 128 else 0

theorem signByte_cases (neg : Bool) : signByte neg = 0 ∨ signByte neg = 128 := by cases neg <;> simp [signByte]

theorem EdPoint.ofBytes_eq {b : Bytes} (h : b.length = 32) (A : EdPoint) : EdPoint.ofBytes b = some A ↔ EdPoint.Encoded b A := by
  unfold EdPoint.ofBytes
  rw [if_neg (by simp [h])]
  constructor
  · intro ho
    split at ho
    · rename_i he
      simp only [Option.some.injEq] at ho
      rw [← ho]; exact he.choose_spec
    · simp at ho
  · intro he
    have hex : ∃ P, EdPoint.Encoded b P := ⟨A, he⟩
    rw [dif_pos hex]
    exact congrArg some (EdPoint.encoded_unique hex.choose_spec he)

/-- The encoding of `y` with a sign bit encodes exactly the points with that coordinate and sign. -/
theorem EdPoint.encoded_signed (y : Fe) (neg : Bool) (A : EdPoint) :
    EdPoint.Encoded (modifyAt (feBytes y) 31 (· ||| signByte neg)) A ↔
      A.y = y ∧ (A.x = 0 ∨ (A.x.val % 2 = 1 ↔ neg = true)) := by
  unfold EdPoint.Encoded
  rw [fe_of_sign y _ (signByte_cases neg)]
  obtain ⟨b, hb, hlt⟩ := fe_top y
  rw [List.getD_eq_getElem?_getD, modifyAt_getElem?, hb]
  simp only [Option.map_some, Option.getD_some]
  rw [(u8_sign b hlt _ (signByte_cases neg)).2]
  have : A.x.val % 2 < 2 := Nat.mod_lt _ (by omega)
  cases neg
  · simp [signByte]
  · simp only [signByte, if_true]
    have e : UInt8.toNat 128 / 128 = 1 := by decide
    rw [e]; simp

theorem u_of_y {u : Fe} (h : u ≠ -1) {A : EdPoint} (hy : A.y = (u - 1) * (u + 1)⁻¹) : A.u = u ∧ A.y ≠ 1 := by
  have h1 : u + 1 ≠ 0 := fun h0 => h (eq_neg_of_add_eq_zero_left h0)
  have h2 := fe_two_ne_zero
  have e1 : 1 - A.y = 2 * (u + 1)⁻¹ := by rw [hy]; field_simp; ring
  have e2 : 1 + A.y = 2 * u * (u + 1)⁻¹ := by rw [hy]; field_simp; ring
  have h3 : 1 - A.y ≠ 0 := by rw [e1]; exact mul_ne_zero h2 (inv_ne_zero h1)
  constructor
  · unfold EdPoint.u
    rw [e1, e2]; field_simp
  · intro hc; rw [hc] at h3; simp at h3

/-- `curveVerify` on a 64-byte signature given by its parts. -/
theorem curveVerify_parts (H : Bytes → Bytes) (p : PubKey) (R T : Bytes) (neg : Bool) (hR : R.length = 32) (hT : T.length = 32)
    {b : UInt8} (hb : T[31]? = some b) (hlt : b.toNat < 128) (ms : List Bytes) (hu : feOfBytes p.key ≠ -1) :
    curveVerify H p.key (R ++ modifyAt T 31 (· ||| signByte neg)) ms =
      ed25519Verify H (modifyAt (feBytes ((feOfBytes p.key - 1) * (feOfBytes p.key + 1)⁻¹)) 31 (· ||| signByte neg))
        ms.flatten (R ++ T) := by
  have hlast : (R ++ modifyAt T 31 (· ||| signByte neg))[63]? = some (b ||| signByte neg) := by
    rw [List.getElem?_append_right (by omega), hR, modifyAt_getElem?, hb]; rfl
  have hmask : modifyAt ((R ++ modifyAt T 31 (· ||| signByte neg)).take 64) 63 (· &&& 0x7F) = R ++ T := by
    rw [List.take_of_length_le (by simp [hR, hT])]
    have := modifyAt_append_right R (modifyAt T 31 (· ||| signByte neg)) 31 (· &&& 0x7F)
    rw [hR] at this
    rw [this, modifyAt_modifyAt, modifyAt_same hb (u8_mask b hlt _ (signByte_cases neg))]
  have hut : utoy p.key ((b ||| signByte neg) &&& 0x80 == 0) =
      .ok (modifyAt (feBytes ((feOfBytes p.key - 1) * (feOfBytes p.key + 1)⁻¹)) 31 (· ||| signByte neg)) := by
    rw [(u8_sign b hlt _ (signByte_cases neg)).1]
    unfold utoy
    rw [if_neg (by simp [p.len])]
    simp only
    rw [if_neg hu]
    obtain ⟨c, hc, hclt⟩ := fe_top ((feOfBytes p.key - 1) * (feOfBytes p.key + 1)⁻¹)
    refine congrArg Res.ok (modifyAt_congr hc ?_)
    cases neg
    · simp [signByte]
    · simpa [signByte] using u8_xor c hclt 128 (.inr rfl)
  unfold curveVerify
  simp only [hlast, hut, hmask, Res.bind_ok, writeAll_eq, List.nil_append]

theorem sig_parts {sig : Bytes} (h : sig.length = 64) :
    ∃ R T b neg, sig = R ++ modifyAt T 31 (· ||| signByte neg) ∧ R.length = 32 ∧ T.length = 32 ∧ T[31]? = some b ∧ b.toNat < 128 := by
  have h63 : (sig.drop 32)[31]? = some sig[63] := by
    rw [List.getElem?_drop]; exact List.getElem?_eq_getElem (by omega)
  have hm : ∀ b : UInt8, (b &&& 127).toNat < 128 ∧ b &&& 127 ||| signByte (128 ≤ b.toNat) = b :=
    forall_u8 (by unfold signByte; decide +kernel)
  refine ⟨sig.take 32, modifyAt (sig.drop 32) 31 (· &&& 127), sig[63] &&& 127, decide (128 ≤ sig[63].toNat), ?_, by simp [h],
    by simp [h], ?_, (hm _).1⟩
  · rw [modifyAt_modifyAt, modifyAt_same h63 (hm _).2, List.take_append_drop]
  · rw [modifyAt_getElem?, h63]; rfl

/-! ## Diffie-Hellman -/

namespace EdPoint

theorem u_zero : (0 : EdPoint).u = 0 := by simp [u, zero_y]

theorem u_neg (P : EdPoint) : (-P).u = P.u := by simp [u, neg_y]

theorem eq_zero_of_u {P : EdPoint} (h : P.u = 0) : 2 • P = 0 := by
  by_cases h1 : P.y = 1
  · rw [eq_zero_of_y h1, nsmul_zero]
  · have := (y_of_u h1).2
    rw [h] at this
    exact two_smul_of_y (by rw [← this]; simp)

theorem eq_of_u {P Q : EdPoint} (h : P.u = Q.u) : P = Q ∨ P = -Q ∨ (2 • P = 0 ∧ 2 • Q = 0) := by
  by_cases hp : P.y = 1
  · have h0 : P.u = 0 := by rw [eq_zero_of_y hp, u_zero]
    exact .inr (.inr ⟨eq_zero_of_u h0, eq_zero_of_u (h ▸ h0)⟩)
  · by_cases hq : Q.y = 1
    · have h0 : Q.u = 0 := by rw [eq_zero_of_y hq, u_zero]
      exact .inr (.inr ⟨eq_zero_of_u (h.trans h0), eq_zero_of_u h0⟩)
    · have hy : P.y = Q.y := by rw [← (y_of_u hp).2, ← (y_of_u hq).2, h]
      rcases eq_or_eq_neg hy with h | h
      · exact .inl h
      · exact .inr (.inl h)

theorem u_smul {P Q : EdPoint} (h : P.u = Q.u) (n : Nat) : ((2 * n) • P).u = ((2 * n) • Q).u := by
  rcases eq_of_u h with h | h | ⟨h1, h2⟩
  · rw [h]
  · rw [h, smul_neg, u_neg]
  · rw [mul_nsmul, mul_nsmul, h1, h2]

end EdPoint

theorem clamped_even {a : Bytes} (hl : a.length = 32) (hc : clamp a = a) : ∃ n, leNat a = 2 * n := by
  obtain ⟨m, hm, _⟩ := leNat_clamp hl
  rw [hc] at hm
  exact ⟨4 * m, by rw [hm]; ring⟩

/-- X25519 multiplies the point whose coordinate it is given. -/
theorem x25519_of_u {a point : Bytes} (hl : a.length = 32) {P : EdPoint} (h : P.u = feOfBytes point) :
    x25519 a point = (leNat (clamp a) • P).bytesMontgomery := by
  obtain ⟨m, hm, _, hlt⟩ := leNat_clamp hl
  unfold x25519
  simp only
  rw [← h, EdPoint.bytesMontgomery]
  congr 1
  by_cases h0 : P.u = 0
  · rw [h0, (ladder_zero 255 _).1, inv_zero, mul_zero, hm]
    have h2 := EdPoint.eq_zero_of_u h0
    have : 8 * m = 2 * (4 * m) := by ring
    rw [this, mul_nsmul, h2, nsmul_zero, EdPoint.u_zero]
  · refine (EdPoint.Mont.ladder h0 255 _ ?_).1.value
    rw [hm]
    have : 2 ^ 255 = 8 * 2 ^ 252 := by decide
    omega

@[simp] theorem x25519_length (a point : Bytes) : (x25519 a point).length = 32 := by
  simp [x25519]

theorem x25519_point {a : Bytes} (hl : a.length = 32) (hc : clamp a = a) (P : EdPoint) :
    x25519 a P.bytesMontgomery = (leNat a • P).bytesMontgomery := by
  have h : P.u = feOfBytes P.bytesMontgomery := (fe_ofBytes_bytes P.u).symm
  rw [x25519_of_u hl h, hc]

theorem feBytes_zero : (feBytes 0) = List.replicate 32 0 := by
  unfold feBytes
  rw [ZMod.val_zero]
  decide

theorem feBytes_all_zero {x : Fe} (h : (feBytes x).all (· == 0) = true) : x = 0 := by
  apply feBytes_inj
  rw [feBytes_zero, List.eq_replicate_iff]
  refine ⟨by simp, fun b hb => ?_⟩
  simpa using List.all_eq_true.1 h b hb

theorem curvePublic_clamped {a : Bytes} (hc : clamp a = a) : curvePublic a = (leNat a • EdPoint.base).bytesMontgomery := by
  unfold curvePublic xtou
  rw [scalarKey_smul, hc]

theorem x25519_public {a b : Bytes} (ha : a.length = 32) (hca : clamp a = a)
    (hcb : clamp b = b) : x25519 a (curvePublic b) = ((leNat b * leNat a) • EdPoint.base).bytesMontgomery := by
  rw [curvePublic_clamped hcb, x25519_point ha hca, mul_nsmul]

theorem x25519_public_ne_zero {a b : Bytes} (ha : a.length = 32) (hb : b.length = 32)
    (hca : clamp a = a) (hcb : clamp b = b) : (x25519 a (curvePublic b)).all (· == 0) = false := by
  rw [x25519_public ha hca hcb]
  cases hz : ((leNat b * leNat a) • EdPoint.base).bytesMontgomery.all (· == 0) with
  | false => rfl
  | true =>
    exfalso
    have h2 := EdPoint.eq_zero_of_u (feBytes_all_zero hz)
    rw [← mul_nsmul, EdPoint.smul_base_eq_zero, Nat.Prime.dvd_mul groupOrder_prime,
      Nat.Prime.dvd_mul groupOrder_prime] at h2
    rcases h2 with (h | h) | h
    · exact clamp_not_dvd hb (by rw [hcb]; exact h)
    · exact clamp_not_dvd ha (by rw [hca]; exact h)
    · exact absurd (Nat.le_of_dvd (by omega) h) (by decide +kernel)

end Verif
