import Verif.Model.World
import Verif.Spec.Session

/-! # Stores with other pre-keys in them -/

namespace Verif

/-- The same stores with other pre-keys: only the entries `P` of the one-time pre-key store and the entries `S` of the
signed pre-key store are kept; everywhere else is what `pk` and `spk` say, which may be nothing. -/
def World.withOtherPreKeys (P S : UInt32 → Bool) (pk spk : UInt32 → Option PreKeyRec) (w : World) : World :=
  { w with
    preKeys := fun id => if P id then w.preKeys id else pk id
    signedPreKeys := fun id => if S id then w.signedPreKeys id else spk id }

/-- The same stores with all pre-keys replaced. -/
def World.withPreKeys (pk spk : UInt32 → Option PreKeyRec) (w : World) : World :=
  { w with preKeys := pk, signedPreKeys := spk }

end Verif
