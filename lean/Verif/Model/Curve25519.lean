import Verif.Proofs.XEdDSA

/-!
# The primitives on the real curve

`Crypto.onCurve` replaces the four public-key functions of a `Crypto` by the modelled code: keys, Diffie-Hellman and
signatures on curve25519. All laws `Crypto` asks of them are proved, so every theorem about an arbitrary `Crypto` holds
for this one.
-/

namespace Verif

/-- protocol/curve/curve25519/curve25519.go:108-119 — `Agreement`: X25519, and an error (`none`) for the all-zero
result. -/
def curveDh (key point : Bytes) : Option Bytes :=
  let s := x25519 key point
  if s.all (· == 0) then none else some s

/-- The outcome of `VerifySignature` for a 64-byte signature, as `Crypto` presents it.
(protocol/curve/curve25519/curve25519.go:190-208.) -/
noncomputable def verifyOutcome : Res Bool → Option Bool
  | .ok b => some b
  | _ => none

/-- The primitives with keys, Diffie-Hellman and signatures computed on the curve
(protocol/curve/curve25519/curve25519.go:60-208). -/
noncomputable def Crypto.onCurve (C : Crypto) : Crypto :=
  { C with
    pub := curvePublic
    pub_len := fun a => by simp [curvePublic, xtou]
    dh := curveDh
    dh_len := by
      intro a p s h
      unfold curveDh at h
      simp only at h
      split at h
      · simp at h
      · simp only [Option.some.injEq] at h
        subst h
        simp
    dh_comm := by
      intro a b ha hb hca hcb
      simp only [curveDh, x25519_public ha hca hcb, x25519_public hb hcb hca, Nat.mul_comm]
    dh_honest := by
      intro a b ha hb hca hcb
      simp only [curveDh, x25519_public_ne_zero ha hb hca hcb]
      rfl
    sign := fun a z m => signWith C.sha512 a z [m]
    sign_len := fun a z m => signWith_length _ _ _ _
    verify := fun p m s => verifyOutcome (curveVerify C.sha512 p s [m])
    verify_sign := by
      intro a z m ha _ _
      rw [curveVerify_sign C.sha512 ha z [m]]
      rfl }

end Verif
