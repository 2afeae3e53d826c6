import Verif.Spec.Duo

/-!
# Vocabulary for starting afresh after any history

Two users who may have talked before, with any outcome: sessions may have been lost on one side, may have got out of step, or may have
been set up by somebody else. Nothing here is used by the model.
-/

namespace Verif

/-- Two users after any history, and a bundle of Bob's. Nothing is asked of the sessions they may have with each other, but that Bob has
none with the base key that Alice is about to make of the random bytes. -/
structure Duo.Afresh (d : Duo) (alice bob : World) (b : Bundle) (rand : Bytes) : Prop where
  aliceHistory : Reachable (d.env .alice) alice
  bobHistory : Reachable (d.env .bob) bob
  aliceKey : alice.identity.Matched d.C
  offers : Offers d.C bob b
  aliceTrusts : d.Trusts .alice alice bob.identity.pub
  bobTrusts : d.Trusts .bob bob alice.identity.pub
  newBase : ∀ r u k, bob.sessions (d.address .alice) = some r → r.HasState u → publicKeyOf d.C rand = some k → u.aliceBaseKey ≠ k.bytes

/-- What is asked of the steps of a schedule: plaintexts are not absurdly long, Bob waits for a message of Alice's before sending one,
and the messages that are delivered are inside the windows. (Outside them, an old session may be tried.) -/
def DEvent.Smooth (S : DSys) : DEvent → Prop
  | .send s pt => pt.length < 2 ^ 62 ∧ (s = .bob → S.got .bob ≠ [])
  | .deliver s i _ => ∀ (c : Ciphertext) (pt : Bytes) (k : PubKey) (n : UInt32), (S.sent s.other)[i]? = some (c, pt) →
      c.position = some (k, n) → InWindow (S.got s) k n

/-- Every step of the schedule is like that. -/
def Duo.Smooth (d : Duo) (S : DSys) : List DEvent → Prop
  | [] => True
  | e :: es => e.Smooth S ∧ d.Smooth (d.step S e) es

end Verif
