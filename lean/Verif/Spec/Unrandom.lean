import Verif.Spec.Session
import Verif.Model.Group

/-!
# Results that do not depend on the random bytes
-/

namespace Verif

/-- The same session but for the user's own newest keys: the ratchet key pair, the sending chain and the root key. -/
def SState.SameButOwnKeys (s s' : SState) : Prop := ∃ root chain, s' = { s with rootKey := root, senderChain := chain }

/-- The same archive, and the same current session but for the user's own newest keys. -/
def Record.SameButOwnKeys (r r' : Record) : Prop :=
  r'.previous = r.previous ∧
  ((r.current = none ∧ r'.current = none) ∨ ∃ s s', r.current = some s ∧ r'.current = some s' ∧ s.SameButOwnKeys s')

/-- The same stores and the same amount of random bytes left, but for the user's own newest keys in the session with this peer. -/
structure World.SameButOwnKeys (a : Address) (w w' : World) : Prop where
  preKeys : w'.preKeys = w.preKeys
  signedPreKeys : w'.signedPreKeys = w.signedPreKeys
  known : w'.known = w.known
  identity : w'.identity = w.identity
  regId : w'.regId = w.regId
  faults : w'.faults = w.faults
  rand : w'.rand.length = w.rand.length
  others : ∀ b, b ≠ a → w'.sessions b = w.sessions b
  peer : (w.sessions a = none ∧ w'.sessions a = none) ∨
    ∃ r r', w.sessions a = some r ∧ w'.sessions a = some r' ∧ r.SameButOwnKeys r'

/-- Whether the peer's key is of low order does not depend on the private key it is combined with. -/
def OrderOfKey (C : Crypto) (q : PubKey) : Prop := ∀ k k' : PrivKey, (C.dh k.key q.key).isSome = (C.dh k'.key q.key).isSome

/-- The same world, with as many other random bytes. -/
def OnlyRand (w w' : World) : Prop := ∃ rd, rd.length = w.rand.length ∧ w' = { w with rand := rd }

/-- The same group store, with as many other random bytes. -/
def GOnlyRand (w w' : GWorld) : Prop :=
  ∃ rd srd, rd.length = w.rand.length ∧ srd.length = w.sysRand.length ∧ w' = { w with rand := rd, sysRand := srd }

/-- The same group message but for the signature, the last 64 bytes. -/
def SameButSignature (m m' : SenderKeyMsg) : Prop :=
  ∃ body sig sig', sig.length = 64 ∧ sig'.length = 64 ∧ m.serialized = body ++ sig ∧ m' = { m with serialized := body ++ sig' }

end Verif
