import Verif.Props.Signatures

/-!
# C78, C79: what is signed, and with whom a secret is agreed

Like the statements about signatures, these are about the code itself, on the curve, with an arbitrary function `H` in place of
SHA-512.
-/

namespace Verif

/-- The hash from which `Sign` takes its secret nonce: of the prefix that XEdDSA prescribes, the secret scalar, the message and 64 random
bytes. -/
def nonceHash (H : Bytes → Bytes) (k : PrivKey) (message z : Bytes) : Nat :=
  leNat (H ((254 :: List.replicate 31 255) ++ leBytes 32 (leNat k.key % groupOrder) ++ message ++ z)) % groupOrder

theorem signWith_eq (H : Bytes → Bytes) (k : PrivKey) (z : Bytes) (messages : List Bytes) :
    signWith H k.key z messages =
      (nonceHash H k messages.flatten z • EdPoint.base).bytes ++
        withSign (decide ((scalarKey k.key • EdPoint.base).x.val % 2 = 1)) (leBytes 32 ((nonceHash H k messages.flatten z +
          leNat (H ((nonceHash H k messages.flatten z • EdPoint.base).bytes ++ (scalarKey k.key • EdPoint.base).bytes ++ messages.flatten)) *
            scalarKey k.key) % groupOrder)) := by
  obtain ⟨a, ha⟩ : ∃ a, a = scalarKey k.key := ⟨_, rfl⟩
  obtain ⟨A, hA⟩ : ∃ A, A = a • EdPoint.base := ⟨_, rfl⟩
  have ha' : leNat k.key % groupOrder = a := by rw [ha, scalarKey, k.clamped]
  obtain ⟨r, hr⟩ : ∃ r, r = leNat (H (writeAll (hashPrefix ++ leBytes 32 a) messages ++ z)) % groupOrder := ⟨_, rfl⟩
  have hr' : nonceHash H k messages.flatten z = r := by rw [hr, nonceHash, ha', writeAll_eq]; rfl
  obtain ⟨R, hR⟩ : ∃ R, R = r • EdPoint.base := ⟨_, rfl⟩
  obtain ⟨h, hh⟩ : ∃ h, h = leNat (H (writeAll (R.bytes ++ A.bytes) messages)) % groupOrder := ⟨_, rfl⟩
  obtain ⟨s, hs⟩ : ∃ s, s = leBytes 32 ((a * h + r) % groupOrder) := ⟨_, rfl⟩
  obtain ⟨b, hb, hlt⟩ := s_top (a * h + r)
  rw [← hs] at hb
  have hRl : R.bytes.length = 32 := R.bytes_length
  have hsig : signWith H k.key z messages = R.bytes ++ modifyAt s 31 (· ||| A.sign) := by
    unfold signWith
    simp only [← ha, ← hA, ← hr, ← hR, ← hh, ← hs]
    rw [modifyAt_modifyAt, A.bytes_sign]
    have := modifyAt_append_right R.bytes s 31 (fun b => b &&& 127 ||| A.sign)
    rw [hRl] at this
    rw [this]
    refine congrArg (R.bytes ++ ·) (modifyAt_congr hb ?_)
    rw [u8_and b hlt]
  rw [hsig, hr', ← ha, ← hA, ← hR]
  have hS : (r + leNat (H (R.bytes ++ A.bytes ++ messages.flatten)) * a) % groupOrder = (a * h + r) % groupOrder := by
    rw [hh, writeAll_eq, Nat.add_comm, Nat.mul_comm a]
    exact Nat.ModEq.add_right _ (Nat.ModEq.mul_right _ (Nat.mod_modEq _ _).symm)
  rw [hS, ← hs]
  have : (fun b : UInt8 => b ||| A.sign) = fun b => b ||| if decide (A.x.val % 2 = 1) = true then 128 else 0 := by
    funext b
    simp only [EdPoint.sign, decide_eq_true_eq]
  rw [withSign, this]

/-- **C78.** A signature is exactly the one that XEdDSA prescribes (in the variant of Signal, which keeps the sign of the public point in
the top bit): `R ‖ S` with `R = r B` and `S = r + h a`, where `a` is the secret scalar, `r` is the hash of the prefix, `a`, the
concatenated messages and 64 random bytes, and `h` is the hash of `R`, of the public point and of the messages. -/
theorem C78_signature_is_prescribed (H : Bytes → Bytes) (k : PrivKey) (messages : List Bytes) (rand : Bytes) (hr : 64 ≤ rand.length) :
    let a := leNat k.key % groupOrder
    let A := a • EdPoint.base
    let r := leNat (H ((254 :: List.replicate 31 255) ++ leBytes 32 a ++ messages.flatten ++ rand.take 64)) % groupOrder
    let R := r • EdPoint.base
    let S := (r + leNat (H (R.bytes ++ A.bytes ++ messages.flatten)) * a) % groupOrder
    k.curveSign H messages rand = (.ok (R.bytes ++ withSign (decide (A.x.val % 2 = 1)) (leBytes 32 S)), rand.drop 64) := by
  have h := signWith_eq H k (rand.take 64) messages
  have ha : scalarKey k.key = leNat k.key % groupOrder := by rw [scalarKey, k.clamped]
  rw [ha] at h
  unfold PrivKey.curveSign
  rw [M.bind_run, readFull_ok 64 rand hr]
  show (Res.ok (signWith H k.key (rand.take 64) messages), rand.drop 64) = _
  rw [h]
  rfl

/-- a concrete signature: with the identity as hash function, any key and any 64 random bytes -/
example (k : PrivKey) : ∃ sig, k.curveSign id [[1], [2]] (List.replicate 64 7) = (.ok sig, []) :=
  ⟨_, C78_signature_is_prescribed id k [[1], [2]] (List.replicate 64 7) (by simp)⟩

/-- **C78.** Two signatures have the same first half, that is the same secret nonce, only if the hashes of key, messages and random bytes
agree modulo the group order. (With the same nonce, two signatures of different messages give away the key.) -/
theorem C78_nonce_repeats_only_with_the_hash (H : Bytes → Bytes) (k k' : PrivKey) (ms ms' : List Bytes) (rand rand' sig sig' : Bytes)
    (h : (k.curveSign H ms rand).1 = .ok sig) (h' : (k'.curveSign H ms' rand').1 = .ok sig') (hs : sig.take 32 = sig'.take 32) :
    leNat (H ((254 :: List.replicate 31 255) ++ leBytes 32 (leNat k.key % groupOrder) ++ ms.flatten ++ rand.take 64)) % groupOrder =
    leNat (H ((254 :: List.replicate 31 255) ++ leBytes 32 (leNat k'.key % groupOrder) ++ ms'.flatten ++ rand'.take 64)) % groupOrder := by
  have key : ∀ (k : PrivKey) (ms : List Bytes) (rand sig : Bytes), (k.curveSign H ms rand).1 = .ok sig →
      sig.take 32 = (nonceHash H k ms.flatten (rand.take 64) • EdPoint.base).bytes := by
    intro k ms rand sig h
    by_cases hl : 64 ≤ rand.length
    · unfold PrivKey.curveSign at h
      rw [M.bind_run, readFull_ok 64 rand hl] at h
      have h : signWith H k.key (rand.take 64) ms = sig := by
        have h : Res.ok (signWith H k.key (rand.take 64) ms) = Res.ok sig := h
        simpa using h
      rw [← h, signWith_eq, ← EdPoint.bytes_length (nonceHash H k ms.flatten (rand.take 64) • EdPoint.base)]
      exact List.take_left
    · rw [(C31_signatures_verify H k ms rand).2 (by omega)] at h
      simp at h
  have he := EdPoint.bytes_inj ((key k ms rand sig h).symm.trans (hs.trans (key k' ms' rand' sig' h')))
  have hlt : ∀ (k : PrivKey) (m z : Bytes), nonceHash H k m z < groupOrder := fun k m z => Nat.mod_lt _ groupOrder_prime.pos
  have inj : ∀ x y, x < groupOrder → y < groupOrder → x ≤ y → x • EdPoint.base = y • EdPoint.base → x = y := by
    intro x y hx hy hxy he
    have : (y - x) • EdPoint.base = 0 := by
      have h2 : (x + (y - x)) • EdPoint.base = y • EdPoint.base := by congr 1; omega
      rw [add_nsmul, ← he] at h2
      exact add_eq_left.mp h2
    rw [EdPoint.smul_base_eq_zero] at this
    have := Nat.eq_zero_of_dvd_of_lt this (by omega)
    omega
  show nonceHash H k ms.flatten (rand.take 64) = nonceHash H k' ms'.flatten (rand'.take 64)
  rcases Nat.le_total (nonceHash H k ms.flatten (rand.take 64)) (nonceHash H k' ms'.flatten (rand'.take 64)) with hle | hle
  · exact inj _ _ (hlt ..) (hlt ..) hle he
  · exact (inj _ _ (hlt ..) (hlt ..) hle he.symm).symm

/-- the hypotheses are met, e.g. by the same message signed twice with the same random bytes -/
example (k : PrivKey) : ∃ sig, (k.curveSign id [[1]] (List.replicate 64 7)).1 = .ok sig ∧ (k.curveSign id [[1], []] (List.replicate 64 7)).1 = .ok sig := by
  obtain h := C78_signature_is_prescribed id k [[1]] (List.replicate 64 7) (by simp)
  obtain h' := C78_signature_is_prescribed id k [[1], []] (List.replicate 64 7) (by simp)
  exact ⟨_, by rw [h], by rw [h']; rfl⟩

/-- Zero has the coordinate zero, and so has every point of order two. -/
theorem EdPoint.u_eq_zero {P : EdPoint} (h : 2 • P = 0) : P.u = 0 := by
  have hx : P = -P := by
    rw [two_nsmul] at h
    exact eq_neg_of_add_eq_zero_left h
  have hx0 : P.x = 0 := by
    have h1 : P.x = -P.x := by rw [← EdPoint.neg_x, ← hx]
    by_contra h0
    exact EdPoint.neg_parity h0 (by rw [← h1])
  have hy := P.on
  unfold OnCurve at hy
  rw [hx0] at hy
  have : (P.y - 1) * (P.y + 1) = 0 := by linear_combination hy
  rcases mul_eq_zero.1 this with h1 | h1
  · simp [EdPoint.u, sub_eq_zero.1 h1]
  · rw [EdPoint.u, add_comm, h1, zero_mul]

/-- **C79.** Two users get the same shared secret from their own private and the other's public key: the product of both scalars times the
base point. It is never refused. -/
theorem C79_both_agree (C : Crypto) (a b : PrivKey) :
    a.agreement C.onCurve b.curvePub = .ok ((leNat a.key * leNat b.key) • EdPoint.base).bytesMontgomery ∧
    b.agreement C.onCurve a.curvePub = .ok ((leNat a.key * leNat b.key) • EdPoint.base).bytesMontgomery := by
  have key : ∀ a b : PrivKey, a.agreement C.onCurve b.curvePub =
      .ok ((leNat b.key * leNat a.key) • EdPoint.base).bytesMontgomery := by
    intro a b
    show Res.ofOption .lowOrderPoint (curveDh a.key (curvePublic b.key)) = _
    unfold curveDh
    simp only [x25519_public_ne_zero a.len b.len a.clamped b.clamped]
    rw [x25519_public a.len a.clamped b.clamped]
    rfl
  exact ⟨by rw [key, Nat.mul_comm], key b a⟩

/-- **C79.** Whatever bytes the peer sends as its public key, `Agreement` does not panic, and it never returns the all-zero secret that
anyone could know: it returns 32 bytes that are not all zero, or an error. -/
theorem C79_never_zero (C : Crypto) (k : PrivKey) (p : PubKey) :
    k.agreement C.onCurve p = .err .lowOrderPoint ∨
    ∃ s, k.agreement C.onCurve p = .ok s ∧ s.length = 32 ∧ s ≠ List.replicate 32 0 := by
  have e : k.agreement C.onCurve p = Res.ofOption .lowOrderPoint (curveDh k.key p.key) := rfl
  cases h : curveDh k.key p.key with
  | none => exact .inl (by rw [e, h]; rfl)
  | some s =>
    refine .inr ⟨s, by rw [e, h]; rfl, agreement_length C.onCurve k p s (by rw [e, h]; rfl), ?_⟩
    rintro rfl
    unfold curveDh at h
    simp only at h
    split at h
    · simp at h
    · rename_i hz
      simp only [Option.some.injEq] at h
      rw [h] at hz
      exact hz (by decide)

/-- **C79.** For every public key that is the coordinate of a point `P` of the curve, `Agreement` returns the coordinate of the multiple of
`P` by the private key, or, exactly if that multiple is zero or of order two, an error. -/
theorem C79_multiplies (C : Crypto) (k : PrivKey) (p : PubKey) (P : EdPoint) (hP : P.u = feOfBytes p.key) :
    (2 • leNat k.key • P = 0 → k.agreement C.onCurve p = .err .lowOrderPoint) ∧
    (2 • leNat k.key • P ≠ 0 → k.agreement C.onCurve p = .ok (leNat k.key • P).bytesMontgomery) := by
  have hx : x25519 k.key p.key = (leNat k.key • P).bytesMontgomery := by
    rw [x25519_of_u k.len hP, k.clamped]
  have e : k.agreement C.onCurve p = Res.ofOption .lowOrderPoint (curveDh k.key p.key) := rfl
  rw [e]
  unfold curveDh
  simp only [hx]
  constructor
  · intro h
    have : (leNat k.key • P).bytesMontgomery.all (· == 0) = true := by
      rw [EdPoint.bytesMontgomery, EdPoint.u_eq_zero h, feBytes_zero]
      decide
    rw [if_pos this]
    rfl
  · intro h
    have : ¬ (leNat k.key • P).bytesMontgomery.all (· == 0) = true := fun hz => h (EdPoint.eq_zero_of_u (feBytes_all_zero hz))
    rw [if_neg this]
    rfl

/-- **C79.** A public key of small order (one that eight times is zero), which would make the secret known to anyone, is refused, whatever
the private key. -/
theorem C79_small_order_refused (C : Crypto) (k : PrivKey) (p : PubKey) (P : EdPoint)
    (hP : P.u = feOfBytes p.key) (h8 : 8 • P = 0) : k.agreement C.onCurve p = .err .lowOrderPoint := by
  refine (C79_multiplies C k p P hP).1 ?_
  obtain ⟨m, hm, _⟩ := leNat_clamp k.len
  rw [k.clamped] at hm
  rw [hm, mul_nsmul, h8, nsmul_zero, nsmul_zero]

/-- such keys exist: 32 zero bytes -/
example (C : Crypto) (k : PrivKey) :
    k.agreement C.onCurve ⟨List.replicate 32 0, by simp⟩ = .err .lowOrderPoint := by
  refine C79_small_order_refused C k _ 0 ?_ (nsmul_zero _)
  have h := fe_ofBytes_bytes 0
  rw [feBytes_zero] at h
  exact EdPoint.u_zero.trans h.symm

/-- the point `(√-1, 0)`, of order four -/
def EdPoint.quarter : EdPoint where
  x := feI
  y := 0
  on := by
    unfold OnCurve
    rw [feI_sq]
    ring

/-- and a public key that starts with a one, the coordinate of a point of order four -/
example (C : Crypto) (k : PrivKey) :
    k.agreement C.onCurve ⟨1 :: List.replicate 31 0, by simp⟩ = .err .lowOrderPoint := by
  refine C79_small_order_refused C k _ EdPoint.quarter ?_ ?_
  · have : EdPoint.quarter.u = 1 := by simp [EdPoint.u, EdPoint.quarter]
    rw [this, ← fe_ofBytes_bytes 1]
    congr 1
  · have h2 : 2 • (2 • EdPoint.quarter) = 0 := by
      refine EdPoint.two_smul_of_y ?_
      rw [two_nsmul, EdPoint.add_y, addY]
      show (0 * 0 + feI * feI) / (1 - edD * feI * feI * 0 * 0) = -1
      rw [← pow_two feI, feI_sq]
      simp
    have : 8 • EdPoint.quarter = 2 • (2 • (2 • EdPoint.quarter)) := by rw [← mul_nsmul, ← mul_nsmul]
    rw [this, h2, nsmul_zero]

/-- **C79.** The public keys of small order that are the coordinate of no point of the curve (they stand for `-1`, of order four on the
twist) are refused too, whatever the private key. -/
theorem C79_minus_one_refused (C : Crypto) (k : PrivKey) (p : PubKey) (hp : feOfBytes p.key = -1) :
    k.agreement C.onCurve p = .err .lowOrderPoint := by
  obtain ⟨m, hm, _, hlt⟩ := leNat_clamp k.len
  have hx : (x25519 k.key p.key).all (· == 0) = true := by
    unfold x25519
    simp only
    rw [hp]
    rcases (ladder_neg_one 255 (leNat (clamp k.key)) (by omega)).1 with ⟨_, _, hz⟩ | ⟨h, _⟩ | ⟨h, _⟩
    · rw [hz, inv_zero, mul_zero, feBytes_zero]
      decide
    · omega
    · omega
  show Res.ofOption .lowOrderPoint (curveDh k.key p.key) = _
  unfold curveDh
  simp only [hx]
  rfl

/-- such keys exist: the encoding of `2^255 - 20` -/
example (C : Crypto) (k : PrivKey) :
    k.agreement C.onCurve ⟨0xec :: List.replicate 30 0xff ++ [0x7f], by simp⟩ = .err .lowOrderPoint := by
  refine C79_minus_one_refused C k _ ?_
  have h : feOfBytes (0xec :: List.replicate 30 0xff ++ [0x7f]) + ((1 : Nat) : Fe) = ((0 : Nat) : Fe) := by
    unfold feOfBytes
    rw [← Nat.cast_add, natCast_eq]
    decide +kernel
  rw [Nat.cast_one, Nat.cast_zero] at h
  exact eq_neg_of_add_eq_zero_left h

/-- and other keys, like every honest one, are not -/
example (C : Crypto) (a b : PrivKey) : ∃ s, a.agreement C.onCurve b.curvePub = .ok s :=
  ⟨_, (C79_both_agree C a b).1⟩

end Verif
