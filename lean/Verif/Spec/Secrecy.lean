import Verif.Spec.Reading
import Verif.Model.Group

/-!
# Stores that differ in one secret

Two stores that hold different chain keys or message keys at one place. A theorem that a call leaves both in the same state says that
the secret is gone: nothing in the store depends on it any more, except through the values that the theorem's hypotheses name.
-/

namespace Verif

/-- The state with another key of the sending chain. -/
def SState.withSenderKey (s : SState) (k : Bytes) : SState :=
  { s with senderChain := s.senderChain.map fun c => { c with chainKey := c.chainKey.map fun ck => { ck with key := k } } }

/-- The key of the sending chain. -/
def SState.senderKey (s : SState) : Bytes := ((s.senderChain.bind PBChain.chainKey).map PBChainKey.key).getD []

/-- The stores with another sending chain key in the current session with `a`. -/
def World.withSenderKey (w : World) (a : Address) (k : Bytes) : World :=
  { w with sessions := upd w.sessions a ((w.sessions a).map fun r => { r with current := r.current.map fun s => s.withSenderKey k }) }

/-- The state with another key kept for the skipped message `n` under the ratchet key `k`. -/
def SState.withStored (s : SState) (k : PubKey) (n : UInt32) (cipherKey macKey iv : Bytes) : SState :=
  { s with receiverChains := s.receiverChains.map fun c =>
      if c.senderRatchetKey = k.bytes then
        { c with messageKeys := c.messageKeys.map fun x => if x.index = n then ⟨n, cipherKey, macKey, iv⟩ else x }
      else c }

/-- The stores with another chain key in the first sender key of this sender and group. -/
def GWorld.withSenderSeed (w : GWorld) (at_ : Address × DistId) (k : Bytes) : GWorld :=
  { w with records := upd w.records at_ ((w.records at_).map fun g => match g with
      | [] => []
      | s :: g => { s with chainKey := { s.chainKey with seed := k } } :: g) }

/-- The stores with another chain key in the sender keys of this sender and group that have this chain id. -/
def GWorld.withSeed (w : GWorld) (at_ : Address × DistId) (chain : UInt32) (k : Bytes) : GWorld :=
  { w with records := upd w.records at_ ((w.records at_).map fun g =>
      g.map fun s => if chain = s.chainId then { s with chainKey := { s.chainKey with seed := k } } else s) }

end Verif
