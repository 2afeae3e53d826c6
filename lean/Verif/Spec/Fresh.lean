import Verif.Spec.Openness

/-!
# Vocabulary for C120: where private keys come from

Nothing here is used by the model.
-/

namespace Verif

/-- The private key made of the bytes number 32 i to 32 i + 31 of a call's random bytes. -/
def Drawn (rand key : Bytes) : Prop := ∃ i, 32 * (i + 1) ≤ rand.length ∧ key = clamp ((rand.drop (32 * i)).take 32)

/-- The private key of a signed pre-key record. -/
def PreKeyRec.HasPrivate (p : PreKeyRec) (key : Bytes) : Prop := ∃ k, p.keyPair = .ok k ∧ key = k.priv.key

/-- The private key of a signed pre-key that is stored before the history or added by it. -/
def SignedPrivate (w : World) (cs : List Call) (key : Bytes) : Prop :=
  (∃ id p, w.signedPreKeys id = some p ∧ p.HasPrivate key) ∨ ∃ c ∈ cs, ∃ id p, c.op = .addSignedPreKey id p ∧ p.HasPrivate key

/-- A session stored for the address has this private ratchet key. -/
def World.HasRatchet (w : World) (a : Address) (key : Bytes) : Prop :=
  ∃ r s, w.sessions a = some r ∧ r.HasState s ∧ s.ratchetPrivate = key

/-- The most random bytes that a call reads. -/
def Op.appetite : Op → Nat
  | .decrypt _ _ => 32 * 41
  | .bundle _ _ => 64
  | _ => 0

end Verif
