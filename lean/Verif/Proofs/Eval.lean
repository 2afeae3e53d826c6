import Verif.Model.Standard

/-!
# Computing keys and shared secrets

Public keys and shared secrets computed with natural numbers, so that the kernel can evaluate them, and the theorems that
these are the values of the model.
-/

namespace Verif

/-- `xDbl` on natural numbers. -/
def xDblN (r : Nat × Nat) : Nat × Nat :=
  let p := fieldPrime
  let a := r.1 + r.2
  let b := r.1 + (p - r.2 % p)
  let aa := a * a % p
  let bb := b * b % p
  let e := aa + (p - bb % p)
  (aa * bb % p, e * (bb + 121666 * e) % p)

/-- `xAdd` on natural numbers. -/
def xAddN (u : Nat) (r s : Nat × Nat) : Nat × Nat :=
  let p := fieldPrime
  let da := (s.1 + (p - s.2 % p)) * (r.1 + r.2) % p
  let cb := (s.1 + s.2) * (r.1 + (p - r.2 % p)) % p
  let x := da + cb
  let z := da + (p - cb % p)
  (x * x % p, u * (z * z % p) % p)

/-- `ladder` on natural numbers. -/
def ladderN (u : Nat) : Nat → Nat → (Nat × Nat) × (Nat × Nat)
  | 0, _ => ((1, 0), (u, 1))
  | n + 1, k =>
    let r := ladderN u n (k / 2)
    if k % 2 = 1 then (xAddN u r.1 r.2, xDblN r.2) else (xDblN r.1, xAddN u r.1 r.2)

/-- The field elements two numbers stand for. -/
def castPair (r : Nat × Nat) : Fe × Fe := ((r.1 : Fe), (r.2 : Fe))

theorem cast_sub_mod (e : Nat) : ((fieldPrime - e % fieldPrime : Nat) : Fe) = -(e : Fe) := by
  rw [EdPoint.cast_neg (Nat.le_of_lt (Nat.mod_lt _ fieldPrime_prime.pos)), EdPoint.cast_mod]

theorem castPair_xDbl (r : Nat × Nat) : castPair (xDblN r) = xDbl (castPair r) := by
  ext
  · simp only [castPair, xDblN, xDbl, Nat.cast_add, Nat.cast_mul, EdPoint.cast_mod, cast_sub_mod]
    ring
  · simp only [castPair, xDblN, xDbl, Nat.cast_add, Nat.cast_mul, EdPoint.cast_mod, cast_sub_mod, Nat.cast_ofNat]
    ring

theorem castPair_xAdd (u : Nat) (r s : Nat × Nat) : castPair (xAddN u r s) = xAdd u (castPair r) (castPair s) := by
  ext
  · simp only [castPair, xAddN, xAdd, Nat.cast_add, Nat.cast_mul, EdPoint.cast_mod, cast_sub_mod]
    ring
  · simp only [castPair, xAddN, xAdd, Nat.cast_add, Nat.cast_mul, EdPoint.cast_mod, cast_sub_mod]
    ring

theorem castPair_ladder (u n k : Nat) :
    castPair (ladderN u n k).1 = (ladder u n k).1 ∧ castPair (ladderN u n k).2 = (ladder u n k).2 := by
  induction n generalizing k with
  | zero => simp [ladderN, ladder, castPair]
  | succ n ih =>
    obtain ⟨h1, h2⟩ := ih (k / 2)
    unfold ladderN ladder
    simp only
    split
    · exact ⟨by rw [castPair_xAdd, h1, h2], by rw [castPair_xDbl, h2]⟩
    · exact ⟨by rw [castPair_xDbl, h1], by rw [castPair_xAdd, h1, h2]⟩

/-- Is `v` the result of X25519? -/
def x25519Check (key point : Bytes) (v : Nat) : Bool :=
  let r := (ladderN (leNat (modifyAt point 31 (· &&& 127))) 255 (leNat (clamp key))).1
  v < fieldPrime && r.2 % fieldPrime != 0 && v * r.2 % fieldPrime == r.1 % fieldPrime

theorem feBytes_cast {v : Nat} (h : v < fieldPrime) : feBytes (v : Fe) = leBytes 32 v := by
  unfold feBytes
  rw [ZMod.val_natCast, Nat.mod_eq_of_lt h]

theorem x25519_eval {key point : Bytes} (out : Bytes) (h : x25519Check key point (leNat out) = true) (hl : out.length = 32) :
    x25519 key point = out := by
  unfold x25519Check at h
  simp only [Bool.and_eq_true, decide_eq_true_eq, bne_iff_ne, beq_iff_eq] at h
  obtain ⟨⟨hv, hz⟩, he⟩ := h
  have hc := (castPair_ladder (leNat (modifyAt point 31 (· &&& 127))) 255 (leNat (clamp key))).1
  unfold x25519
  simp only
  unfold feOfBytes
  rw [← hc]
  have hz' : (castPair (ladderN (leNat (modifyAt point 31 (· &&& 127))) 255 (leNat (clamp key))).1).2 ≠ 0 := by
    simp only [castPair]
    rw [← Nat.cast_zero, Ne, natCast_eq, Nat.zero_mod]
    exact hz
  have he' : ((leNat out : Nat) : Fe) * (castPair (ladderN (leNat (modifyAt point 31 (· &&& 127))) 255 (leNat (clamp key))).1).2 =
      (castPair (ladderN (leNat (modifyAt point 31 (· &&& 127))) 255 (leNat (clamp key))).1).1 := by
    simp only [castPair]
    rw [← Nat.cast_mul, natCast_eq]
    exact he
  rw [← he', mul_assoc, mul_inv_cancel₀ hz', mul_one, feBytes_cast hv, ← hl, leBytes_leNat]

/-- Is `v` the public key of `key`? -/
def publicCheck (key : Bytes) (v : Nat) : Bool :=
  let t := EdPoint.pmul 253 EdPoint.pbase (scalarKey key)
  let z := t.2.2 + (fieldPrime - t.2.1 % fieldPrime)
  v < fieldPrime && z % fieldPrime != 0 && v * z % fieldPrime == (t.2.2 + t.2.1) % fieldPrime

theorem curvePublic_eval {key : Bytes} (out : Bytes) (h : publicCheck key (leNat out) = true) (hl : out.length = 32) :
    curvePublic key = out := by
  unfold publicCheck at h
  simp only [Bool.and_eq_true, decide_eq_true_eq, bne_iff_ne, beq_iff_eq] at h
  obtain ⟨⟨hv, hz⟩, he⟩ := h
  have hr := EdPoint.Rep.base.mul (fuel := 253) (n := scalarKey key)
    (lt_trans (Nat.mod_lt _ groupOrder_prime.pos) (by decide +kernel))
  generalize EdPoint.pmul 253 EdPoint.pbase (scalarKey key) = t at *
  obtain ⟨ht, _, hy⟩ := hr
  unfold curvePublic xtou EdPoint.bytesMontgomery EdPoint.u
  generalize (scalarKey key • EdPoint.base).y = y at *
  have hz' : (1 - y) * (t.2.2 : Fe) ≠ 0 := by
    intro h0
    have : ((t.2.2 + (fieldPrime - t.2.1 % fieldPrime) : Nat) : Fe) = ((0 : Nat) : Fe) := by
      rw [Nat.cast_add, cast_sub_mod, ← hy, Nat.cast_zero]
      linear_combination h0
    rw [natCast_eq, Nat.zero_mod] at this
    exact hz this
  have he' : ((leNat out : Nat) : Fe) * ((1 - y) * (t.2.2 : Fe)) = (1 + y) * (t.2.2 : Fe) := by
    have : ((leNat out * (t.2.2 + (fieldPrime - t.2.1 % fieldPrime)) : Nat) : Fe) = ((t.2.2 + t.2.1 : Nat) : Fe) := by
      rw [natCast_eq]; exact he
    rw [Nat.cast_mul, Nat.cast_add, cast_sub_mod, Nat.cast_add, ← hy] at this
    linear_combination this
  have h1 : (1 - y) ≠ 0 := left_ne_zero_of_mul hz'
  have e : (1 + y) * (1 - y)⁻¹ = ((leNat out : Nat) : Fe) := by
    have h2 : ((leNat out : Nat) : Fe) * (1 - y) = 1 + y := by
      apply mul_right_cancel₀ ht
      linear_combination he'
    rw [← h2, mul_assoc, mul_inv_cancel₀ h1, mul_one]
  rw [e, feBytes_cast hv, ← hl, leBytes_leNat]

/-- Does `(x, y)` equal the point with projective coordinates `t`? -/
def affineCheck (t : EdPoint.Proj) (x y : Nat) : Bool :=
  x < fieldPrime && y < fieldPrime && x * t.2.2 % fieldPrime == t.1 % fieldPrime &&
    y * t.2.2 % fieldPrime == t.2.1 % fieldPrime

theorem EdPoint.Rep.affine {P : EdPoint} {t : EdPoint.Proj} (h : EdPoint.Rep P t) {x y : Nat} (hc : affineCheck t x y = true) :
    P.x = (x : Fe) ∧ P.y = (y : Fe) ∧ x < fieldPrime ∧ y < fieldPrime := by
  unfold affineCheck at hc
  simp only [Bool.and_eq_true, decide_eq_true_eq, beq_iff_eq] at hc
  obtain ⟨⟨⟨hx, hy⟩, h1⟩, h2⟩ := hc
  obtain ⟨h0, hX, hY⟩ := h
  refine ⟨?_, ?_, hx, hy⟩
  · apply mul_right_cancel₀ h0
    rw [hX, ← Nat.cast_mul, natCast_eq]
    exact h1.symm
  · apply mul_right_cancel₀ h0
    rw [hY, ← Nat.cast_mul, natCast_eq]
    exact h2.symm

/-- The encoding of a point with known coordinates. -/
def affineBytes (x y : Nat) : Bytes := modifyAt (leBytes 32 y) 31 (· ||| (if x % 2 = 1 then 128 else 0))

theorem EdPoint.Rep.bytes {P : EdPoint} {t : EdPoint.Proj} (h : EdPoint.Rep P t) {x y : Nat} (hc : affineCheck t x y = true) :
    P.bytes = affineBytes x y := by
  obtain ⟨hx, hy, hxl, hyl⟩ := h.affine hc
  unfold EdPoint.bytes affineBytes
  rw [hx, hy, feBytes_cast hyl, ZMod.val_natCast, Nat.mod_eq_of_lt hxl]

/-- The point with the given coordinates. -/
def EdPoint.ofNat (x y : Nat)
    (h : y * y % fieldPrime = (1 + 37095705934669439343138083508754565189542113879843219016388785533085940283555 * (x * x * (y * y)) + x * x) % fieldPrime) :
    EdPoint where
  x := x
  y := y
  on := by
    unfold OnCurve
    have hd : ((37095705934669439343138083508754565189542113879843219016388785533085940283555 : Nat) : Fe) = edD := rfl
    have := natCast_eq.2 h
    push_cast at this
    rw [← hd]
    push_cast
    linear_combination this

theorem EdPoint.Rep.ofNat (x y : Nat) (h) : EdPoint.Rep (EdPoint.ofNat x y h) (x, y, 1) := by
  simp [EdPoint.Rep, EdPoint.ofNat]

theorem EdPoint.Rep.neg {P : EdPoint} {t : EdPoint.Proj} (h : EdPoint.Rep P t) :
    EdPoint.Rep (-P) (fieldPrime - t.1 % fieldPrime, t.2.1, t.2.2) := by
  obtain ⟨h0, hX, hY⟩ := h
  refine ⟨h0, ?_, hY⟩
  rw [EdPoint.neg_x]
  show -P.x * (t.2.2 : Fe) = ((fieldPrime - t.1 % fieldPrime : Nat) : Fe)
  rw [cast_sub_mod, ← hX]
  ring

/-- Does `(x, y)` equal the combination of `A` and the base point that `ed25519.Verify` computes? -/
def verifyCheck (ax ay k S x y : Nat) : Bool :=
  affineCheck (EdPoint.padd (EdPoint.pmul 253 (fieldPrime - ax % fieldPrime, ay, 1) k) (EdPoint.pmul 253 EdPoint.pbase S)) x y

theorem verify_eval {ax ay k S x y : Nat} (ha) (hk : k < 2 ^ 253) (hS : S < 2 ^ 253) (h : verifyCheck ax ay k S x y = true) :
    (k • (-(EdPoint.ofNat ax ay ha)) + S • EdPoint.base).bytes = affineBytes x y :=
  (EdPoint.Rep.add ((EdPoint.Rep.ofNat ax ay ha).neg.mul hk) (EdPoint.Rep.base.mul hS)).bytes h

/-- The bytes of a number `y` of which `y (u + 1) = u - 1` is known, the value of `utoy` for a positive sign. -/
theorem utoy_eval {pub : Bytes} {y : Nat} (hl : pub.length = 32) (hy : y < fieldPrime)
    (h0 : (leNat (modifyAt pub 31 (· &&& 127)) + 1) % fieldPrime ≠ 0)
    (h : (y * (leNat (modifyAt pub 31 (· &&& 127)) + 1) + 1) % fieldPrime = leNat (modifyAt pub 31 (· &&& 127)) % fieldPrime)
    (positive : Bool) : utoy pub positive = .ok (modifyAt (leBytes 32 y) 31 (· ^^^ (if positive then 0 else 0x80))) := by
  unfold utoy
  rw [if_neg (by simp [hl])]
  simp only
  unfold feOfBytes
  generalize leNat (modifyAt pub 31 (· &&& 127)) = u at *
  have hu : ((u : Nat) : Fe) + 1 ≠ 0 := by
    intro e
    apply h0
    have : ((u + 1 : Nat) : Fe) = ((0 : Nat) : Fe) := by push_cast; exact e
    rw [natCast_eq, Nat.zero_mod] at this
    exact this
  rw [if_neg (by intro e; exact hu (by rw [e]; ring))]
  have e : ((u : Fe) - 1) * ((u : Fe) + 1)⁻¹ = (y : Fe) := by
    have := natCast_eq.2 h
    push_cast at this
    have h2 : (u : Fe) - 1 = (y : Fe) * ((u : Fe) + 1) := by linear_combination -this
    rw [h2, mul_assoc, mul_inv_cancel₀ hu, mul_one]
  rw [e, feBytes_cast hy]

/-- The encoding of `(x, y)` that `VerifySignature` works out. -/
def signerBytes (sig : Bytes) (y : Nat) : Bytes :=
  modifyAt (leBytes 32 y) 31 (· ^^^ (if (sig[63]?.getD 0 &&& 0x80 == 0) = true then 0 else 0x80))

/-- A signature is valid: `(x, y)` is the point of the public key, `k` the hash, `S` the response and `(qx, qy)` the
point computed. -/
def signatureCheck (pub sig msg : Bytes) (x y k S qx qy : Nat) : Bool :=
  let u := leNat (modifyAt pub 31 (· &&& 127))
  let s := modifyAt (sig.take 64) 63 (· &&& 0x7F)
  let a := signerBytes sig y
  pub.length == 32 && sig.length == 64 && decide (y < fieldPrime) && decide (x < fieldPrime) && (u + 1) % fieldPrime != 0 &&
    (y * (u + 1) + 1) % fieldPrime == u % fieldPrime &&
    leNat (modifyAt a 31 (· &&& 127)) % fieldPrime == y % fieldPrime &&
    x % 2 == (a.getD 31 0).toNat / 128 &&
    decide (S < groupOrder) && S == leNat (s.drop 32) && k == leNat (sha512 (s.take 32 ++ a ++ msg)) % groupOrder &&
    verifyCheck x y k S qx qy &&
    affineBytes qx qy == s.take 32

theorem curveVerify_eval {pub sig msg : Bytes} {x y k S qx qy : Nat}
    (hp : y * y % fieldPrime = (1 + 37095705934669439343138083508754565189542113879843219016388785533085940283555 * (x * x * (y * y)) + x * x) % fieldPrime)
    (h : signatureCheck pub sig msg x y k S qx qy = true) : curveVerify sha512 pub sig [msg] = .ok true := by
  unfold signatureCheck at h
  simp only [Bool.and_eq_true, decide_eq_true_eq, bne_iff_ne, beq_iff_eq] at h
  obtain ⟨⟨⟨⟨⟨⟨⟨⟨⟨⟨⟨⟨hl, hs⟩, hy⟩, hx⟩, hu⟩, he⟩, ha⟩, hxs⟩, hS⟩, rfl⟩, rfl⟩, hc⟩, hb⟩ := h
  have hS' : leNat ((modifyAt (sig.take 64) 63 (· &&& 0x7F)).drop 32) < 2 ^ 253 := lt_trans hS (by decide +kernel)
  have hk' : leNat (sha512 ((modifyAt (sig.take 64) 63 (· &&& 0x7F)).take 32 ++ signerBytes sig y ++ msg)) % groupOrder < 2 ^ 253 :=
    lt_trans (Nat.mod_lt _ groupOrder_prime.pos) (by decide +kernel)
  have hv := verify_eval hp hk' hS' hc
  have hsl : (modifyAt (sig.take 64) 63 (· &&& 0x7F)).length = 64 := by simp [hs]
  have hal : (signerBytes sig y).length = 32 := by simp [signerBytes]
  have hut := utoy_eval hl hy hu he (sig[63]?.getD 0 &&& 0x80 == 0)
  have h63 : sig[63]? = some (sig[63]?.getD 0) := by
    rw [List.getElem?_eq_getElem (by omega)]; rfl
  unfold curveVerify
  generalize sig[63]?.getD 0 = last at h63 hut
  rw [h63]
  simp only
  rw [hut, Res.bind_ok]
  have hsb : modifyAt (leBytes 32 y) 31 (· ^^^ (if (last &&& 0x80 == 0) = true then 0 else 0x80)) = signerBytes sig y := by
    unfold signerBytes; rw [h63]; rfl
  have hw : writeAll [] [msg] = msg := by simp [writeAll]
  rw [hsb, hw]
  generalize modifyAt (sig.take 64) 63 (· &&& 0x7F) = s at *
  generalize signerBytes sig y = a at *
  unfold ed25519Verify
  have henc : EdPoint.ofBytes a = some (EdPoint.ofNat x y hp) := by
    rw [EdPoint.ofBytes_eq hal]
    refine ⟨?_, .inr ?_⟩
    · show ((y : Nat) : Fe) = ((leNat (modifyAt a 31 (· &&& 127)) : Nat) : Fe)
      rw [natCast_eq, ha]
    · show ((x : Nat) : Fe).val % 2 = _
      rw [ZMod.val_natCast, Nat.mod_eq_of_lt hx, hxs]
  rw [if_neg (by simp [hal]), if_neg (by simp [hsl]), henc]
  simp only
  rw [if_neg (by omega), hv, hb]
  simp

end Verif
