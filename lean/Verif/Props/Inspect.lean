import Verif.Proofs.Inspect
import Verif.Props.Stores
import Verif.Props.Fingerprint

/-!
# C91: what a stored record tells about a session, and C92: the texts the library prints
-/

namespace Verif

open Ex

/-! ## C91 -/

/-- **C91.** Without a current session every one of the five queries is the error ErrNoCurrentSession. -/
theorem C91_no_session (r : Record) (h : r.current = none) (k : PubKey) :
    r.version = .err .noCurrentSession ∧ r.localIdentityKey = .err .noCurrentSession ∧ r.remoteIdentityKey = .err .noCurrentSession ∧
    r.receiverChainKey k = .err .noCurrentSession ∧ r.senderChainKey = .err .noCurrentSession := by
  simp [Record.version, Record.localIdentityKey, Record.remoteIdentityKey, Record.receiverChainKey, Record.senderChainKey, h]

/-- **C91.** A record that is in the store after any history answers all five: the version is 3, the local identity is the user's own
identity key, there is a remote identity, there is a sending chain, and asking for a receiving chain is never an error. -/
theorem C91_stored_records_answer (E : Env) (w : World) (hw : Reachable E w) (a : Address) (r : Record) (h : w.sessions a = some r) :
    r.version = .ok 3 ∧ r.localIdentityKey = .ok w.identity.pub ∧ (∃ k, r.remoteIdentityKey = .ok (some k)) ∧
    (∃ ck, r.senderChainKey = .ok ck ∧ ck.key.length = 32) ∧
    ∀ k, r.receiverChainKey k = .ok none ∨ ∃ ck, r.receiverChainKey k = .ok (some ck) ∧ ck.key.length = 32 := by
  obtain ⟨hs, hof⟩ := hw.owned a r h
  obtain ⟨s, hs⟩ := Option.isSome_iff_exists.1 hs
  have hwf := (hw.WF a r h).current s hs
  obtain ⟨rk, hrk⟩ := hwf.remoteId
  refine ⟨?_, ?_, ⟨rk, ?_⟩, ?_, ?_⟩
  · simp [Record.version, hs, SState.version, hwf.version]
  · simp [Record.localIdentityKey, hs, SState.localIdentityKey_bytes (hof s (.inl hs))]
  · simp only [Record.remoteIdentityKey, hs]; exact SState.remoteIdentityKey_bytes hrk
  · simp only [Record.senderChainKey, hs]; exact hwf.senderChainKey
  · intro k
    simp only [Record.receiverChainKey, hs]
    cases hc : s.receiverChain k with
    | none => left; simp [SState.receiverChainKey, hc]
    | some x =>
      right
      obtain ⟨i, c⟩ := x
      obtain ⟨ck, hck, hl, _⟩ := (hwf.chainWF c (SState.receiverChain_mem hc)).chain
      exact ⟨ck, PBChain.WF.receiverChainKey hc hck hl, hl⟩

/-- **C91.** SenderChainKey tells the counter of the next message: EncryptMessage sends a message with that counter, and afterwards the
stored record shows the next one. -/
theorem C91_sender_chain_counts (E : Env) (w : World) (hw : Reachable E w) (a : Address) (pt : Bytes) (c : Ciphertext)
    (h : (encryptMessage E a pt w).1 = .ok c) :
    ∃ r r' k ck ck', w.sessions a = some r ∧ (encryptMessage E a pt w).2.sessions a = some r' ∧
      r.senderChainKey = .ok ck ∧ r'.senderChainKey = .ok ck' ∧ c.position = some (k, ck.index) ∧ ck'.index = ck.index + 1 := by
  have hw' := hw.encrypt a pt
  obtain ⟨_, _, k, n, hp, h1, h2⟩ := C54_ciphertext_only_after_store E w hw a pt c h
  have key : ∀ (v : World) (n : UInt32), Reachable E v → v.sendPosition a = some (k.bytes, n) →
      ∃ r ck, v.sessions a = some r ∧ r.senderChainKey = .ok ck ∧ ck.index = n := by
    intro v n hv hn
    cases hr : v.sessions a with
    | none => simp [World.sendPosition, hr] at hn
    | some r =>
      cases hs : r.current with
      | none => simp [World.sendPosition, hr, hs] at hn
      | some s =>
        simp only [World.sendPosition, hr, Option.bind_some, hs, SState.sendPosition] at hn
        obtain ⟨sc, hsc, hwc⟩ := ((hv.WF a r hr).current s hs).sender
        obtain ⟨ck, hck, hl⟩ := hwc.chain
        rw [hsc] at hn
        simp only [Option.bind_some, hck, Option.map_some, Option.some.injEq, Prod.mk.injEq, ChainKey.toPB] at hn
        refine ⟨r, ck, rfl, ?_, hn.2⟩
        simp [Record.senderChainKey, hs, SState.senderChainKey, hsc, hck, ChainKey.toPB, newChainKey, hl]
  obtain ⟨r, ck, e1, e2, e3⟩ := key w n hw h1
  obtain ⟨r', ck', f1, f2, f3⟩ := key _ _ hw' h2
  exact ⟨r, r', k, ck, ck', e1, f1, e2, f2, by rw [hp, e3], by rw [f3, e3]⟩

/-- **C91.** ReceiverChainKey tells how far the messages of a ratchet key have been read: after DecryptMessage has read a message, the
stored record has a chain key for the ratchet key of the message, at its counter or later. -/
theorem C91_receiver_chain_counts (E : Env) (w : World) (hw : Reachable E w) (a : Address) (c : Ciphertext) (p : Bytes)
    (h : (decryptMessage E a c w).1 = .ok (some p)) :
    ∃ r k n ck, (decryptMessage E a c w).2.sessions a = some r ∧ c.position = some (k, n) ∧ r.receiverChainKey k = .ok (some ck) ∧
      n ≤ ck.index := by
  have hw' := hw.decrypt a c
  obtain ⟨_, _, k, n, r, s, hp, hr, hs, hrec⟩ := C54_plaintext_only_after_store E w hw a c p h
  obtain ⟨ck, h1, h2⟩ := hrec.chainKey ((hw'.WF a r hr).current s hs)
  exact ⟨r, k, n, ck, hr, hp, by simp only [Record.receiverChainKey, hs]; exact h1, h2⟩

example : Reachable copying alice1 ∧ (encryptMessage copying bob [1, 2, 3] alice1).1 = .ok m1 ∧ (alice1.sessions bob).isSome :=
  ⟨alice1_reachable, by decide +kernel, by decide +kernel⟩

example : Reachable copying bob0 ∧ (decryptMessage copying alice m1 bob0).1 = .ok (some [1, 2, 3]) :=
  ⟨bob0_reachable, m1_delivered⟩

/-! ## C92 -/

theorem formatInt_inj {i j : Int64} (h : formatInt i = formatInt j) : i = j := by
  have bi := i.toInt_lt
  have bj := j.toInt_lt
  have ci := i.le_toInt
  have cj := j.le_toInt
  have hi : i.toInt.natAbs < 10 ^ 20 := by omega
  have hj : j.toInt.natAbs < 10 ^ 20 := by omega
  have hne : ∀ a b, (45 :: decimalN 20 a) ≠ decimalN 20 b := by
    intro a b hab
    have := decimalN_digits 20 b 45 (by rw [← hab]; simp)
    have e : (45 : UInt8).toNat = 45 := rfl
    omega
  have key : i.toInt = j.toInt := by
    unfold formatInt at h
    split at h <;> split at h
    · have := decimalN_inj hi hj (by simpa using h); omega
    · exact absurd h (hne _ _)
    · exact absurd h.symm (hne _ _)
    · have := decimalN_inj hi hj h; omega
  exact Int64.toInt_inj.1 key

/-- **C92.** Message types with the same text are the same: the text is the name of the constant for the four types the library uses, and
shows the number for any other. -/
theorem C92_type_text (i j : Int64) :
    (ciphertextTypeString i = ciphertextTypeString j → i = j) ∧
    ciphertextTypeString 2 = "WhisperType".toUTF8.data.toList ∧ ciphertextTypeString 3 = "PreKeyType".toUTF8.data.toList ∧
    ciphertextTypeString 7 = "SenderKeyType".toUTF8.data.toList ∧ ciphertextTypeString 8 = "PlaintextType".toUTF8.data.toList ∧
    (i ∉ [2, 3, 7, 8] → ciphertextTypeString i = "CiphertextType(".toUTF8.data.toList ++ formatInt i ++ ")".toUTF8.data.toList) := by
  refine ⟨fun h => ?_, by decide +kernel, by decide +kernel, by decide +kernel, by decide +kernel, fun hi => ?_⟩
  rotate_left
  · rw [show "CiphertextType(".toUTF8.data.toList = typePrefix from by decide +kernel, show ")".toUTF8.data.toList = [41] from by decide +kernel]
    simp only [List.mem_cons, List.not_mem_nil, or_false, not_or] at hi
    have h2 : i.toInt ≠ 2 := fun h => hi.1 (Int64.toInt_inj.1 h)
    have h3 : i.toInt ≠ 3 := fun h => hi.2.1 (Int64.toInt_inj.1 h)
    have h7 : i.toInt ≠ 7 := fun h => hi.2.2.1 (Int64.toInt_inj.1 h)
    have h8 : i.toInt ≠ 8 := fun h => hi.2.2.2 (Int64.toInt_inj.1 h)
    rw [ciphertextTypeString, if_neg (by omega), if_neg (by omega)]
  have cases5 : ∀ i : Int64, (i = 2 ∧ ciphertextTypeString i = ciphertextTypeString 2) ∨ (i = 3 ∧ ciphertextTypeString i = ciphertextTypeString 3) ∨
      (i = 7 ∧ ciphertextTypeString i = ciphertextTypeString 7) ∨ (i = 8 ∧ ciphertextTypeString i = ciphertextTypeString 8) ∨
      ciphertextTypeString i = typePrefix ++ formatInt i ++ [41] := by
    intro i
    by_cases h2 : i.toInt = 2
    · exact .inl (by rw [show i = 2 from Int64.toInt_inj.1 h2]; simp)
    by_cases h3 : i.toInt = 3
    · exact .inr (.inl (by rw [show i = 3 from Int64.toInt_inj.1 h3]; simp))
    by_cases h7 : i.toInt = 7
    · exact .inr (.inr (.inl (by rw [show i = 7 from Int64.toInt_inj.1 h7]; simp)))
    by_cases h8 : i.toInt = 8
    · exact .inr (.inr (.inr (.inl (by rw [show i = 8 from Int64.toInt_inj.1 h8]; simp))))
    · refine .inr (.inr (.inr (.inr ?_)))
      rw [ciphertextTypeString, if_neg (by omega), if_neg (by omega)]
  have hd : ∀ x, typePrefix ++ formatInt x ++ [41] ≠ ciphertextTypeString 2 ∧ typePrefix ++ formatInt x ++ [41] ≠ ciphertextTypeString 3 ∧
      typePrefix ++ formatInt x ++ [41] ≠ ciphertextTypeString 7 ∧ typePrefix ++ formatInt x ++ [41] ≠ ciphertextTypeString 8 := by
    intro x
    have hh : (typePrefix ++ formatInt x ++ [41]).head? = some 67 := rfl
    refine ⟨?_, ?_, ?_, ?_⟩ <;> (intro e; rw [e] at hh; revert hh; decide +kernel)
  have n23 : ciphertextTypeString 2 ≠ ciphertextTypeString 3 := by decide +kernel
  have n27 : ciphertextTypeString 2 ≠ ciphertextTypeString 7 := by decide +kernel
  have n28 : ciphertextTypeString 2 ≠ ciphertextTypeString 8 := by decide +kernel
  have n37 : ciphertextTypeString 3 ≠ ciphertextTypeString 7 := by decide +kernel
  have n38 : ciphertextTypeString 3 ≠ ciphertextTypeString 8 := by decide +kernel
  have n78 : ciphertextTypeString 7 ≠ ciphertextTypeString 8 := by decide +kernel
  obtain ⟨di2, di3, di7, di8⟩ := hd i
  obtain ⟨dj2, dj3, dj7, dj8⟩ := hd j
  rcases cases5 i with ⟨rfl, _⟩ | ⟨rfl, _⟩ | ⟨rfl, _⟩ | ⟨rfl, _⟩ | hi <;> rcases cases5 j with ⟨rfl, _⟩ | ⟨rfl, _⟩ | ⟨rfl, _⟩ | ⟨rfl, _⟩ | hj <;>
    first
    | rfl
    | (exfalso; first | exact n23 h | exact n27 h | exact n28 h | exact n37 h | exact n38 h | exact n78 h | exact n23 h.symm | exact n27 h.symm
                      | exact n28 h.symm | exact n37 h.symm | exact n38 h.symm | exact n78 h.symm)
    | (exfalso; rw [hj] at h; first | exact dj2 h.symm | exact dj3 h.symm | exact dj7 h.symm | exact dj8 h.symm)
    | (exfalso; rw [hi] at h; first | exact di2 h | exact di3 h | exact di7 h | exact di8 h)
    | (rw [hi, hj, List.append_assoc, List.append_assoc, List.append_cancel_left_eq, List.append_cancel_right_eq] at h; exact formatInt_inj h)

/-- **C92.** Pre-key ids with the same text are the same. -/
theorem C92_id_text (i j : UInt32) (h : preKeyIDString i = preKeyIDString j) : i = j := by
  have : i.toNat = j.toNat := by
    rw [← decimal_value, ← decimal_value]
    exact congrArg decValue h
  exact UInt32.toNat_inj.1 this

/-- **C92.** The text of an error names one address: two session-not-found errors, or two untrusted-identity errors, with the same text are
about the same address, and no text is both kinds of error. -/
theorem C92_error_text (a b : Address) :
    (sessionNotFoundText a = sessionNotFoundText b → a = b) ∧ (untrustedIdentityText a = untrustedIdentityText b → a = b) ∧
    sessionNotFoundText a ≠ untrustedIdentityText b := by
  refine ⟨fun h => ?_, fun h => ?_, fun h => ?_⟩
  · unfold sessionNotFoundText at h
    rw [List.append_cancel_right_eq, List.append_cancel_left_eq] at h
    exact C52_address_unambiguous a b h
  · unfold untrustedIdentityText at h
    rw [List.append_cancel_left_eq] at h
    exact C52_address_unambiguous a b h
  · have := congrArg List.head? h
    simp [sessionNotFoundText, untrustedIdentityText, sessionWith, untrustedFor] at this

/-- **C92.** The two texts, in full. -/
theorem C92_error_text_exact (a : Address) :
    sessionNotFoundText a = "session with ".toUTF8.data.toList ++ a.string ++ " not found".toUTF8.data.toList ∧
    untrustedIdentityText a = "untrusted identity for address ".toUTF8.data.toList ++ a.string := by
  have h1 : sessionWith = "session with ".toUTF8.data.toList := by decide +kernel
  have h2 : notFound = " not found".toUTF8.data.toList := by decide +kernel
  have h3 : untrustedFor = "untrusted identity for address ".toUTF8.data.toList := by decide +kernel
  rw [← h1, ← h2, ← h3]
  exact ⟨rfl, rfl⟩

example : ciphertextTypeString 5 = "CiphertextType(5)".toUTF8.data.toList ∧ ciphertextTypeString (-12) = "CiphertextType(-12)".toUTF8.data.toList ∧
    sessionNotFoundText bob = "session with B.1 not found".toUTF8.data.toList := by decide +kernel

end Verif
