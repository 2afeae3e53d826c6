import Verif.Proofs.Envelope
import Verif.Props.Reading

/-!
# What an observer of the wire can change or learn: C71, C72, and the size of what is stored: C73
-/

namespace Verif

open Ex Doc

/-! ## C71 -/

/-- Change the registration id in the envelope of a pre-key message (and its bytes, whatever they become). -/
def PreKeyMsg.relabel (id : UInt32) (bytes : Bytes) (m : PreKeyMsg) : PreKeyMsg := { m with registrationID := id, serialized := bytes }

/-- **C71** is false: nothing depends on the registration id in the envelope of a pre-key message. Whatever id an attacker puts there,
DecryptMessage returns the same, the same pre-keys are left, the same identities are stored and the same sessions with everybody
else. -/
theorem C71_registration_id_false (E : Env) (w : World) (a : Address) (m : PreKeyMsg) (id : UInt32) (bytes : Bytes) :
    let x := decryptMessage E a (.preKey m) w
    let y := decryptMessage E a (.preKey (m.relabel id bytes)) w
    y.1 = x.1 ∧ y.2.preKeys = x.2.preKeys ∧ y.2.known = x.2.known ∧ ∀ b, b ≠ a → y.2.sessions b = x.2.sessions b := by
  have h := decryptPreKey_sim E a m id bytes w
  simp only [decryptMessage, PreKeyMsg.relabel, M.bind_run]
  generalize decryptPreKey E a m w = u at h ⊢
  generalize decryptPreKey E a { m with registrationID := id, serialized := bytes } w = v at h ⊢
  obtain ⟨r, w1⟩ := u
  obtain ⟨r', w2⟩ := v
  simp only at h
  obtain ⟨⟨h1, h2⟩, rfl⟩ := h
  cases r' <;> exact ⟨rfl, by simp only [M.pure_run]; rw [h1], by simp only [M.pure_run]; rw [h1], h2⟩

/-- The message `m1` with the registration id 99 in place of 11; the bytes are those of a message with that id. -/
def m1Relabelled : Ciphertext :=
  match m1 with
  | .preKey m => .preKey (newPreKey 3 99 m.preKeyID m.signedPreKeyID m.baseKey m.identityKey m.message)
  | c => c

/-- The changed message is parsed from its bytes and delivered, and the session remembers the attacker's id as that of the peer. -/
theorem C71_witness_false : newPreKeyFromBytes m1Relabelled.bytes = (match m1Relabelled with | .preKey m => .ok m | _ => .panic) ∧
    (decryptMessage copying alice m1Relabelled bob0).1 = .ok (some [1, 2, 3]) ∧
    ((decryptMessage copying alice m1Relabelled bob0).2.sessions alice).bind (fun r => r.current.map SState.remoteRegistrationId) = some 99 := by
  decide +kernel

/-- **C71** (partial: everything else in the envelope of a message that no stored session can read). If DecryptMessage delivers a pre-key
message that no session stored for the sender can read, then the identity key and the base key of its envelope and the pre-keys that it
names are exactly those from which the key of its MAC was derived, in the way that X3DH prescribes. -/
theorem C71_new_session_partial (E : Env) (w : World) (hw : Reachable E w) (a : Address) (m : PreKeyMsg) (p : Bytes)
    (hno : ∀ r s q, w.sessions a = some r → r.HasState s → ¬ s.CanRead E.C m.message q)
    (h : (decryptMessage E a (.preKey m) w).1 = .ok (some p)) : ∃ s : SState, s.Answers E.C w m ∧ s.CanRead E.C m.message p := by
  obtain ⟨m', s, h1, h2, h3⟩ := C68_plaintext_is_authentic E w hw a (.preKey m) p h
  simp only [Ciphertext.inner, Option.some.injEq] at h1
  subst h1
  cases h2 with
  | stored _ r _ hr hs => exact absurd h3 (hno r s p hr hs)
  | fresh _ _ _ ha => exact ⟨s, ha, h3⟩

/-- the hypotheses are met by the first message of the example -/
example : ∃ m s, m1 = .preKey m ∧ SState.Answers toy bob0 m s ∧ SState.CanRead toy s m.message [1, 2, 3] := by
  have hm : ∃ m, m1 = .preKey m := by
    have : (match m1 with | .preKey _ => true | _ => false) = true := by decide +kernel
    cases h : m1 <;> simp_all
  obtain ⟨m, hm⟩ := hm
  obtain ⟨s, h⟩ := C71_new_session_partial copying bob0 bob0_reachable alice m [1, 2, 3]
    (by intro r s q hr; simp [bob0] at hr) (by rw [← hm]; exact m1_delivered)
  exact ⟨m, s, hm, h⟩

/-! ## C72 -/

/-- **C72**, pairwise. Two calls that differ only in the plaintext leave the same stores behind, fail alike, and return messages at the
same position; if the plaintexts fill the same number of blocks, the messages have the same number of bytes. -/
theorem C72_length_is_all_that_shows (E : Env) (w : World) (a : Address) (p q : Bytes) :
    let x := encryptMessage E a p w
    let y := encryptMessage E a q w
    x.2 = y.2 ∧
    (∀ e, x.1 = .err e → y.1 = .err e) ∧
    ∀ c, x.1 = .ok c → ∃ d, y.1 = .ok d ∧ d.position = c.position ∧
      (p.length / 16 = q.length / 16 → d.bytes.length = c.bytes.length) := by
  have h := encryptMessage_like E a p q w
  refine ⟨h.1, ?_, ?_⟩
  · intro e he
    have := h.2
    rw [he] at this
    cases hy : (encryptMessage E a q w).1 <;> simp_all [Res.Like]
  · intro c hc
    obtain ⟨d, hd, h1, h2⟩ := h.2.ok hc
    exact ⟨d, hd, h1.symm, fun hl => (h2 hl).symm⟩

/-- both messages of the example are built, with the same number of bytes -/
example : (encryptMessage copying bob [1, 2, 3] alice1).1 = .ok m1 ∧
    ∃ d, (encryptMessage copying bob [9] alice1).1 = .ok d ∧ d.bytes.length = m1.bytes.length := by
  have h : (encryptMessage copying bob [1, 2, 3] alice1).1 = .ok m1 := by decide +kernel
  obtain ⟨_, _, h2⟩ := C72_length_is_all_that_shows copying alice1 bob [1, 2, 3] [9]
  obtain ⟨d, hd, _, hl⟩ := h2 m1 h
  exact ⟨h, d, hd, hl rfl⟩

/-- **C72**, groups. -/
theorem C72_group_length_is_all_that_shows (C : Crypto) (aliased : Bool) (w : GWorld) (a : Address) (dist : DistId) (p q : Bytes) :
    let x := groupEncrypt C aliased a dist p w
    let y := groupEncrypt C aliased a dist q w
    x.2 = y.2 ∧
    (∀ e, x.1 = .err e → y.1 = .err e) ∧
    ∀ c, x.1 = .ok c → ∃ d, y.1 = .ok d ∧ d.chainID = c.chainID ∧ d.iteration = c.iteration ∧
      (p.length / 16 = q.length / 16 → d.serialized.length = c.serialized.length) := by
  have h := groupEncrypt_like C aliased a dist p q w
  refine ⟨h.1, ?_, ?_⟩
  · intro e he
    have := h.2
    rw [he] at this
    cases hy : (groupEncrypt C aliased a dist q w).1 <;> simp_all [Res.Like]
  · intro c hc
    obtain ⟨d, hd, h1, h2, h3⟩ := h.2.ok hc
    exact ⟨d, hd, h1.symm, h2.symm, fun hl => (h3 hl).symm⟩

/-- **C72**, the price. A pairwise message is longer than its plaintext by at most 173 bytes, a group message by at most 137 (for
plaintexts under 16 GiB). -/
theorem C72_overhead :
    (∀ (E : Env) (w : World) (a : Address) (p : Bytes) (c : Ciphertext), p.length < 2 ^ 34 → (encryptMessage E a p w).1 = .ok c →
      p.length < c.bytes.length ∧ c.bytes.length ≤ p.length + 173) ∧
    ∀ (C : Crypto) (aliased : Bool) (w : GWorld) (a : Address) (dist : DistId) (p : Bytes) (m : SenderKeyMsg), p.length < 2 ^ 34 →
      (groupEncrypt C aliased a dist p w).1 = .ok m → p.length < m.serialized.length ∧ m.serialized.length ≤ p.length + 137 := by
  constructor
  · intro E w a p c hp h
    have ho := encrypt_outcome E a p w
    generalize encryptMessage E a p w = x at h ho
    obtain ⟨r, w'⟩ := x
    simp only at h ho
    subst h
    cases ho with
    | early _ _ hr => simp [Res.Bad] at hr
    | stopped _ _ hr => simp [Res.Bad] at hr
    | done fs rec st st' _ k h1 h2 h3 => exact encryptState_size h3 hp
  · intro C al w a d p m hp h
    exact groupEncrypt_size h hp

/-- the first message of the example: 3 bytes of plaintext each -/
example : m1.bytes.length = 145 ∧ g1.serialized.length = 128 := by decide +kernel

/-! ## C73 -/

/-- **C73**. Whatever the network sends, the serialisation of a stored session state has at most 941000 bytes, and a record consists of
at most 41 states: with any history, kind of store and store failures. -/
theorem C73_stored_bytes_bounded (E : Env) (w : World) (hw : Reachable E w) (a : Address) (r : Record) (h : w.sessions a = some r) :
    (∀ s, r.current = some s → s.marshal.length ≤ 941000) ∧ (∀ b ∈ r.previous, b.length ≤ 941000) ∧
    (r.previous.map List.length).sum ≤ 40 * 941000 := by
  have hr := hw.WF a r h
  have hb : ∀ b ∈ r.previous, b.length ≤ 941000 := by
    intro b hb
    obtain ⟨s, hs, rfl⟩ := hr.archived b hb
    exact hs.marshal_le
  refine ⟨fun s hs => (hr.current s hs).marshal_le, hb, ?_⟩
  have hc : r.previous.length ≤ 40 := hr.count
  have hsum : ∀ l : List Bytes, (∀ b ∈ l, b.length ≤ 941000) → (l.map List.length).sum ≤ l.length * 941000 := by
    intro l
    induction l with
    | nil => simp
    | cons b l ih =>
      intro hl
      have h1 := ih (fun c hc => hl c (by simp [hc]))
      have h2 := hl b (by simp)
      simp only [List.map_cons, List.sum_cons, List.length_cons]
      omega
  exact Nat.le_trans (hsum _ hb) (Nat.mul_le_mul_right _ hc)

example : Reachable copying bob3 ∧ ((bob3.sessions alice).bind Record.current).isSome := ⟨bob3_reachable, by decide +kernel⟩

end Verif
