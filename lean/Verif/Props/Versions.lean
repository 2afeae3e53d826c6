import Verif.Proofs.Reading
import Verif.Props.Reading

/-!
# Sessions of other protocol versions: C113

A store may hold sessions that other software wrote, so nothing is assumed here about the contents of the stores.
-/

namespace Verif

open Ex

/-! ## C113 -/

/-- **C113**, reading. Whatever the stores hold: if DecryptMessage returns the plaintext of a parsed message, a session state stored for
the sender has read it whose version field is 3. A missing field, which is read as 0, does not count as 3. -/
theorem C113_read_by_version_3 (E : Env) (w : World) (a : Address) (bytes : Bytes) (m : Signal) (hm : newSignalFromBytes bytes = .ok m) (p : Bytes)
    (h : (decryptMessage E a (.signal m) w).1 = .ok (some p)) :
    ∃ r s s' rand rand', w.sessions a = some r ∧ r.HasState s ∧ s.sessionVersion = 3 ∧ decryptMessageSession E.C s m rand = (.ok (p, s'), rand') := by
  obtain ⟨r, r', rd, hr, hd⟩ := signal_plaintext h
  obtain ⟨s, s', rd1, rd2, hs, hd⟩ := decryptRecord_state hd
  refine ⟨r, s, s', rd1, rd2, hr, hs, ?_, hd⟩
  have hv3 : m.version = 3 := by
    cases bytes with
    | nil => simp [newSignalFromBytes] at hm
    | cons b rest =>
      unfold newSignalFromBytes at hm
      simp only at hm
      split at hm
      · simp at hm
      · split at hm
        · simp at hm
        · rename_i hb _
          simp only [Res.bind_eq_ok, Res.pure_eq, Res.ok.injEq] at hm
          obtain ⟨_, _, _, _, hm⟩ := hm
          rw [← hm]
          simpa using hb
  unfold decryptMessageSession at hd
  cases hc : s.senderChain with
  | none => rw [hc] at hd; simp [M.throw] at hd
  | some c =>
    rw [hc] at hd
    simp only at hd
    split at hd
    · simp [M.throw] at hd
    · rename_i hv'
      rw [hv3] at hv'
      have hv2 : s.version = 3 := (Classical.byContradiction fun hn => hv' fun he => hn he.symm)
      unfold SState.version at hv2
      split at hv2
      · exact absurd hv2 (by decide)
      · exact hv2

/-- **C113**, sessions of other versions read nothing: when no state stored for the sender has the version 3, DecryptMessage returns no
plaintext for any message, whatever else the states hold. -/
theorem C113_others_read_nothing (E : Env) (w : World) (a : Address) (r : Record) (hr : w.sessions a = some r)
    (hv : ∀ s, r.HasState s → s.sessionVersion ≠ 3) (bytes : Bytes) (m : Signal) (hm : newSignalFromBytes bytes = .ok m) (p : Bytes) :
    (decryptMessage E a (.signal m) w).1 ≠ .ok (some p) := by
  intro h
  obtain ⟨r', s, _, _, _, h1, h2, h3, _⟩ := C113_read_by_version_3 E w a bytes m hm p h
  rw [hr] at h1
  exact hv s (Option.some.inj h1 ▸ h2) h3

/-- **C113**, sending. EncryptMessage does not refuse to send with a current session of version 0 (or without version), 1 or 2. The
message it returns then cannot be parsed, so nobody who uses this library can read it. -/
theorem C113_sent_unreadable (E : Env) (w : World) (a : Address) (r : Record) (hr : w.sessions a = some r) (s : SState) (hs : r.current = some s)
    (hv : s.sessionVersion.toNat < 3) (p : Bytes) (c : Ciphertext) (h : (encryptMessage E a p w).1 = .ok c) : c.reparse = .err .unsupportedVersion := by
  have ho := encrypt_outcome E a p w
  rw [h] at ho
  generalize (encryptMessage E a p w).2 = w' at ho
  have hpre : (versionPrefix s.version.toUInt8) >>> 4 ≠ 3 := by
    have : s.version = 1 ∨ s.version = 2 := by
      unfold SState.version
      split
      · exact .inr rfl
      · rename_i hne
        have h0 : s.sessionVersion.toNat ≠ 0 := fun h => hne (UInt32.toNat_inj.mp h)
        have : s.sessionVersion.toNat = 1 ∨ s.sessionVersion.toNat = 2 := by omega
        exact this.imp (fun h => UInt32.toNat_inj.mp h) (fun h => UInt32.toNat_inj.mp h)
    rcases this with h | h <;> rw [h] <;> decide
  cases ho with
  | early _ fs hb => exact absurd hb (by simp [Res.Bad])
  | stopped _ fs hb => exact absurd hb (by simp [Res.Bad])
  | done fs rec st st' msg k h1 h2 h3 ht =>
    rw [hr] at h1
    obtain rfl := Option.some.inj h1
    rw [hs] at h2
    obtain rfl := Option.some.inj h2
    unfold encryptState at h3
    simp only [Res.bind_eq_ok] at h3
    obtain ⟨ck, _, eph, _, lk, _, rk, _, h3⟩ := h3
    cases rk with
    | none => simp at h3
    | some rk =>
      simp only [Res.bind_eq_ok] at h3
      obtain ⟨ct, _, m, h6, items, _, h3⟩ := h3
      simp only [Res.pure_eq, Res.ok.injEq, Prod.mk.injEq] at h3
      obtain ⟨rfl, _⟩ := h3
      cases items with
      | none =>
        simp only [newSignal, Res.bind_eq_ok, Res.pure_eq, Res.ok.injEq] at h6
        obtain ⟨mac, _, rfl⟩ := h6
        simp only [Ciphertext.reparse, newSignalFromBytes, List.cons_append, ne_eq, hpre, not_false_eq_true, if_true]
        rfl
      | some u =>
        simp only [Ciphertext.reparse, newPreKey, newPreKeyFromBytes, ne_eq, hpre, not_false_eq_true, if_true]
        rfl

/-- Alice's session with the version field removed. -/
def Ex.withoutVersion (w : World) (a : Address) : World :=
  { w with sessions := fun b => if b = a then (w.sessions a).map fun r => { r with current := r.current.map fun s => { s with sessionVersion := 0 } } else w.sessions b }

/-- Without its version field Alice's session still sends, and Bob's session does not read; with it, Bob's session reads `m3`. -/
example : (∃ c, (encryptMessage copying bob [7] (withoutVersion alice4 bob)).1 = .ok c ∧ c.reparse = .err .unsupportedVersion) ∧
    (∃ m, newSignalFromBytes m3.bytes = .ok m ∧ (decryptMessage copying alice (.signal m) bob2).1 = .ok (some [5, 5]) ∧
      (decryptMessage copying alice (.signal m) (withoutVersion bob2 alice)).1 ≠ .ok (some [5, 5])) := by
  have h : (match encryptMessage copying bob [7] (withoutVersion alice4 bob), (withoutVersion alice4 bob).sessions bob with
    | (.ok c, _), some r => (match r.current with | some s => decide (s.sessionVersion.toNat < 3) | none => false)
    | _, _ => false) = true := by decide +kernel
  refine ⟨?_, ?_⟩
  · rcases hx : encryptMessage copying bob [7] (withoutVersion alice4 bob) with ⟨x, w'⟩
    rw [hx] at h
    cases x with
    | err e => simp at h
    | panic => simp at h
    | ok c =>
      cases hr : (withoutVersion alice4 bob).sessions bob with
      | none => rw [hr] at h; simp at h
      | some r =>
        rw [hr] at h
        cases hs : r.current with
        | none => simp [hs] at h
        | some s =>
          simp only [hs, decide_eq_true_eq] at h
          exact ⟨c, rfl, C113_sent_unreadable copying _ bob r hr s hs h [7] c (by rw [hx])⟩
  · have h2 : (match newSignalFromBytes m3.bytes, (withoutVersion bob2 alice).sessions alice with
      | .ok m, some r => decide ((decryptMessage copying alice (.signal m) bob2).1 = .ok (some [5, 5])) && r.previous.isEmpty &&
          (match r.current with | some s => s.sessionVersion == 0 | none => false)
      | _, _ => false) = true := by decide +kernel
    cases hm : newSignalFromBytes m3.bytes with
    | err e => rw [hm] at h2; simp at h2
    | panic => rw [hm] at h2; simp at h2
    | ok m =>
      rw [hm] at h2
      cases hr : (withoutVersion bob2 alice).sessions alice with
      | none => rw [hr] at h2; simp at h2
      | some r =>
        rw [hr] at h2
        cases hs : r.current with
        | none => simp [hs] at h2
        | some s =>
          simp only [hs, Bool.and_eq_true, decide_eq_true_eq, List.isEmpty_iff, beq_iff_eq] at h2
          obtain ⟨⟨h3, h4⟩, h5⟩ := h2
          refine ⟨m, rfl, h3, C113_others_read_nothing copying _ alice r hr ?_ _ m hm _⟩
          rintro t (ht | ⟨b, hb, _⟩)
          · rw [hs] at ht
            rw [← Option.some.inj ht, h5]; decide
          · rw [h4] at hb; simp at hb

end Verif
