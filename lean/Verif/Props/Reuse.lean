import Mathlib.Data.List.Nodup
import Verif.Proofs.Reuse
import Verif.Props.Stores

/-!
# No message key is used twice: C07
-/

namespace Verif

open Ex

/-- The keys a call may generate, listed. -/
theorem generates_iff (C : Crypto) (rand : Bytes) (p : PubKey) :
    Generates C rand p ↔ p ∈ (List.range (rand.length / 32)).filterMap fun n => publicKeyOf C (rand.drop (32 * n)) := by
  rw [List.mem_filterMap]
  constructor
  · rintro ⟨n, hn⟩
    refine ⟨n, ?_, hn⟩
    rw [List.mem_range]
    by_cases h : 32 ≤ (rand.drop (32 * n)).length
    · rw [List.length_drop] at h
      omega
    · rw [publicKeyOf, generateKeyPair_short C _ h] at hn
      simp at hn
  · rintro ⟨n, _, hn⟩
    exact ⟨n, hn⟩

/-- C07. In any history of calls with any store failures, no two messages that EncryptMessage returned for the same address
have the same ratchet key and counter. Asked: different calls generate different keys, there are fewer than 2^32 calls,
and, if the session store is the library's in-memory one, no pre-key message was rejected (`C07_in_memory_false`). -/
theorem C07_no_reuse_partial (E : Env) (w0 : World) (h0 : w0.NoSessions) (cs : List Call) (hlen : cs.length < 2 ^ 32)
    (hfresh : FreshCalls E.C cs) (haccepted : E.aliased = true → PreKeysAccepted E cs w0) (a : Address) :
    (sentTo a (runCalls E cs w0).1).Nodup := by
  have h := Safe.run (E := E) (a := a) cs w0 h0.WF (Safe.start a h0) (by omega) (by simp) hfresh haccepted
  rw [List.append_nil] at h
  exact List.Nodup.of_map _ (List.reverse_perm _ |>.nodup_iff.mp h)

/-- C07, second half: the counter of a returned message is the stored position, which is one further afterwards. -/
theorem C07_position_is_persisted (E : Env) (w : World) (hw : Reachable E w) (a : Address) (pt : Bytes) (c : Ciphertext)
    (h : (encryptMessage E a pt w).1 = .ok c) :
    ∃ k n, c.position = some (k, n) ∧ w.sendPosition a = some (k.bytes, n) ∧
      (encryptMessage E a pt w).2.sendPosition a = some (k.bytes, n + 1) :=
  (C54_ciphertext_only_after_store E w hw a pt c h).2.2

namespace Ex

/-- Alice's side of the example conversation. -/
def aliceCalls : List Call :=
  [⟨.bundle bob bundle, randomness 1, []⟩, ⟨.encrypt bob [1, 2, 3], [], []⟩, ⟨.encrypt bob [4], [], []⟩,
   ⟨.decrypt bob r1, randomness 3, []⟩, ⟨.encrypt bob [5, 5], [], []⟩]

/-- Bob accepts a message of Alice's. Somebody sends Bob two pre-key messages that claim to be from Alice and do not
authenticate; after each of them Bob sends Alice a message. -/
def bobCalls : List Call :=
  [⟨.decrypt alice m1, randomness 2, []⟩,
   ⟨.decrypt alice (badMAC (withBaseKey (pair 7).pub m1)), randomness 30, []⟩, ⟨.encrypt alice [1], [], []⟩,
   ⟨.decrypt alice (badMAC (withBaseKey (pair 8).pub m1)), randomness 60, []⟩, ⟨.encrypt alice [2], [], []⟩]

instance (C : Crypto) (rand : Bytes) (p : PubKey) : Decidable (Generates C rand p) := decidable_of_iff _ (generates_iff C rand p).symm

/-- A history whose calls generate different keys, in a form that can be checked. -/
theorem freshCalls_of {C : Crypto} {cs : List Call}
    (h : cs.Pairwise fun c d => ∀ n ∈ List.range (c.rand.length / 32), ∀ p ∈ publicKeyOf C (c.rand.drop (32 * n)), ¬ Generates C d.rand p) :
    FreshCalls C cs := by
  refine h.imp fun {c d} h p hp => ?_
  rw [generates_iff, List.mem_filterMap] at hp
  obtain ⟨n, hn, he⟩ := hp
  exact h n hn p he

theorem aliceCalls_fresh : FreshCalls toy aliceCalls := freshCalls_of (by decide +kernel)
theorem bobCalls_fresh : FreshCalls toy bobCalls := freshCalls_of (by decide +kernel)

end Ex

/-- Three messages were sent. -/
example : (sentTo bob (runCalls copying aliceCalls alice0).1).length = 3 := by decide +kernel

example : (sentTo bob (runCalls copying aliceCalls alice0).1).Nodup :=
  C07_no_reuse_partial copying alice0 (fun _ => rfl) aliceCalls (by decide) aliceCalls_fresh (by simp [copying]) bob

/-- With a store that returns copies, the two messages of `bobCalls` are different. -/
example : (sentTo alice (runCalls copying bobCalls bob0).1).length = 2 ∧ (sentTo alice (runCalls copying bobCalls bob0).1).Nodup :=
  ⟨by decide +kernel, C07_no_reuse_partial copying bob0 (fun _ => rfl) bobCalls (by decide) bobCalls_fresh (by simp [copying]) alice⟩

/-- C07 does not hold for the library's in-memory store: two messages of Bob's for Alice have the same ratchet key and
counter. -/
theorem C07_in_memory_false :
    ∃ (E : Env) (w0 : World) (cs : List Call) (a : Address), w0.NoSessions ∧ cs.length < 2 ^ 32 ∧ FreshCalls E.C cs ∧
      (∀ c ∈ cs, c.faults = []) ∧ ¬ (sentTo a (runCalls E cs w0).1).Nodup :=
  ⟨sharing, bob0, bobCalls, alice, fun _ => rfl, by decide, bobCalls_fresh, by simp [bobCalls], by decide +kernel⟩

namespace Ex

/-- As `bobCalls`, and between the two forged messages there are forty-one others, so that the session with the first forged base
key is forgotten; the second forged message has the first one's base key. -/
def bobCalls2 : List Call :=
  [⟨.decrypt alice m1, randomness 2, []⟩,
   ⟨.decrypt alice (badMAC (withBaseKey (pair 7).pub m1)), randomness 30, []⟩, ⟨.encrypt alice [1], [], []⟩] ++
  ((List.range 41).map fun i => ⟨.decrypt alice (badMAC (withBaseKey (pair (UInt8.ofNat (i + 8))).pub m1)), [], []⟩) ++
  [⟨.decrypt alice (badMAC (withBaseKey (pair 7).pub m1)), randomness 60, []⟩, ⟨.encrypt alice [1], [], []⟩]

end Ex

/-- Even the same message key: two messages that are the same byte for byte. -/
theorem C07_in_memory_same_key_false :
    ∃ (E : Env) (w0 : World) (cs : List Call) (m : Bytes), w0.NoSessions ∧ cs.length < 2 ^ 32 ∧ FreshCalls E.C cs ∧
      (∀ c ∈ cs, c.faults = []) ∧ wires (runCalls E cs w0).1 = [m, m] :=
  ⟨sharing, bob0, bobCalls2, (wires (runCalls sharing bobCalls2 bob0).1).headD [], fun _ => rfl, by decide,
    freshCalls_of (by decide +kernel), by decide, by decide +kernel⟩

end Verif
