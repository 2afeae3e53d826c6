import Verif.Spec.Session
import Verif.Model.Group

/-!
# How much a call computes

A computation that evaluates a function at few points does not notice what the function is elsewhere. So the number of evaluations is
bounded by speaking about other algorithms that agree with the given ones at few points.
-/

namespace Verif

/-- Arguments at which the expensive algorithms are evaluated. -/
structure Queries where
  hmac : List (Bytes × Bytes) := []
  hkdf : List (Bytes × Bytes × Bytes × Nat) := []
  pub : List Bytes := []
  dh : List (Bytes × Bytes) := []

/-- `C'` is `C`, except that HMAC, HKDF and the two scalar multiplications of Curve25519 may have other values at arguments that are not
listed. -/
structure Crypto.Agree (C C' : Crypto) (q : Queries) : Prop where
  sha512 : C'.sha512 = C.sha512
  aesEnc : C'.aesEnc = C.aesEnc
  aesDec : C'.aesDec = C.aesDec
  sign : C'.sign = C.sign
  verify : C'.verify = C.verify
  hmac : ∀ k m, (k, m) ∈ q.hmac → C'.hmac k m = C.hmac k m
  hkdf : ∀ s t i n, (s, t, i, n) ∈ q.hkdf → C'.hkdf s t i n = C.hkdf s t i n
  pub : ∀ a, a ∈ q.pub → C'.pub a = C.pub a
  dh : ∀ a p, (a, p) ∈ q.dh → C'.dh a p = C.dh a p

/-- With the algorithms `C`, the result of `f` is settled by the values of HMAC at `hmacs` arguments, of HKDF at `hkdfs` and of the scalar
multiplications at `curve`: with other values anywhere else it is the same. -/
def Within {α : Type} (C : Crypto) (f : Crypto → α) (hmacs hkdfs curve : Nat) : Prop :=
  ∃ q : Queries, q.hmac.length ≤ hmacs ∧ q.hkdf.length ≤ hkdfs ∧ q.pub.length + q.dh.length ≤ curve ∧ ∀ C', C.Agree C' q → f C' = f C

/-- The session is not between a user and themselves: the two identity keys differ. -/
def SState.WithOther (s : SState) : Prop := s.sessionWithSelf ≠ .ok true

end Verif
