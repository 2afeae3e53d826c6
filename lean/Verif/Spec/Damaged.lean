import Verif.Spec.Session

/-!
# What a session record needs to be usable

A store may return records that this library never wrote: a damaged file, a record of another program, a record read with
NewRecordBytes from any bytes. Nothing is assumed here about the session structure.
-/

namespace Verif

/-- These bytes begin with an encoded public key: the type byte 5 and 32 more bytes. -/
def BeginsWithKey (b : Bytes) : Prop := 33 ≤ b.length ∧ b.head? = some 5

/-- The session structure has all that EncryptMessage uses: a sending chain with a chain key of 32 bytes and a ratchet key, both identity
keys, and, if it has a pending pre-key, a base key. -/
structure SState.Sendable (s : SState) : Prop where
  chain : ∃ c k, s.senderChain = some c ∧ c.chainKey = some k ∧ k.key.length = 32 ∧ BeginsWithKey c.senderRatchetKey
  us : BeginsWithKey s.localIdentityPublic
  them : BeginsWithKey s.remoteIdentityPublic
  pending : ∀ p, s.pendingPreKey = some p → BeginsWithKey p.baseKey

/-- All archived sessions of the record can be parsed. -/
def Record.ArchiveParses (r : Record) : Prop := ∀ b ∈ r.previous, ∃ s, SState.unmarshal b = .ok s

end Verif
