import Verif.Proofs.Encoding

/-!
# Message and key encodings: C21–C30, C33

`C : Crypto` is arbitrary everywhere. The length hypotheses (`< 2 ^ 62`) only exclude byte strings no Go program
can hold.
-/

namespace Verif

/-! ## Concrete values used by the satisfiability examples -/

/-- A sample private key. -/
def samplePriv (n : UInt8) : PrivKey := ⟨clamp (List.replicate 32 n), by simp, clamp_idem _⟩
/-- A sample key pair (toy cryptography). -/
def samplePair (n : UInt8) : KeyPair := ⟨samplePriv n, (samplePriv n).pub toy⟩
/-- A sample public key. -/
def samplePub (n : UInt8) : PubKey := (samplePair n).pub
/-- A sample distribution id. -/
def sampleDist : DistId := ⟨[1, 2, 3, 4, 5, 6, 7, 8, 9, 10, 11, 12, 13, 14, 15, 255], rfl⟩

/-! ## C21 -/

/-- C21: a Signal message built with the current version parses back to itself and authenticates. -/
theorem C21_signal_round_trip (C : Crypto) (macKey : Bytes) (hk : macKey.length = 32) (ratchet : PubKey)
    (previousCounter counter : UInt32) (ciphertext : Bytes) (hct : ciphertext.length < 2 ^ 62)
    (sender receiver : PubKey) :
    ∃ built parsed,
      newSignal C 3 macKey ratchet previousCounter counter ciphertext sender receiver = .ok built ∧
      newSignalFromBytes built.serialized = .ok parsed ∧
      parsed.version = 3 ∧ parsed.senderRatchetKey = ratchet ∧ parsed.previousCounter = previousCounter ∧
      parsed.counter = counter ∧ parsed.ciphertext = ciphertext ∧ parsed.serialized = built.serialized ∧
      parsed.verifyMAC C macKey sender receiver = .ok true := by
  obtain ⟨m, h1, h2, h3, h4, h5, h6, h7, h8⟩ :=
    signal_round_trip C macKey hk ratchet previousCounter counter ciphertext (by omega) sender receiver
  exact ⟨m, m, h1, h2, h3, h4, h5, h6, h7, rfl, h8⟩

/-- C55: the MAC check accepts exactly the messages whose last 8 bytes are the first 8 bytes of the HMAC of both
identity keys and everything before them. -/
theorem C55_verifyMAC_exact (C : Crypto) (m : Signal) (macKey : Bytes) (hk : macKey.length = 32)
    (sender receiver : PubKey) (body mac : Bytes) (hm : m.serialized = body ++ mac) (hl : mac.length = 8) :
    m.verifyMAC C macKey sender receiver = .ok true ↔
      mac = (C.hmac macKey (sender.bytes ++ receiver.bytes ++ body)).take 8 := by
  rw [verifyMAC_eq C macKey hk sender receiver m body mac hm hl]
  simp only [Res.ok.injEq, beq_iff_eq]
  exact eq_comm

/-- C55: a MAC key of any other size than 32 bytes is an error. (Every message that was built or parsed has at least 8 bytes.) -/
theorem C55_verifyMAC_key_size (C : Crypto) (m : Signal) (macKey : Bytes) (hk : macKey.length ≠ 32)
    (sender receiver : PubKey) (hm : 8 ≤ m.serialized.length) : ∃ e, m.verifyMAC C macKey sender receiver = .err e := by
  unfold Signal.verifyMAC
  rw [if_neg (by omega)]
  simp only [messageMac, hk, ne_eq, not_false_eq_true, if_true, Res.bind_err]
  exact ⟨_, rfl⟩

/-- C55: what is shorter than a MAC is never accepted. -/
theorem C55_too_short (C : Crypto) (m : Signal) (macKey : Bytes) (sender receiver : PubKey) (hm : m.serialized.length < 8) :
    m.verifyMAC C macKey sender receiver ≠ .ok true := by
  unfold Signal.verifyMAC
  rw [if_pos hm]
  nofun

/-- The hypotheses of the MAC theorems are met by a real message. -/
example : ∃ m body mac, newSignal toy 3 (List.replicate 32 1) (samplePub 1) 2 7 [1, 2, 3] (samplePub 3) (samplePub 4) = .ok m ∧
    m.serialized = body ++ mac ∧ mac.length = 8 ∧ body.length = 45 := by
  obtain ⟨m, mac, h1, h2, _, h4⟩ := newSignal_ok toy 3 (List.replicate 32 1) (by simp) (samplePub 1) 2 7 [1, 2, 3] (samplePub 3) (samplePub 4)
  exact ⟨m, _, mac, h1, by rw [h4], h2, by decide +kernel⟩

/-! ## C22 -/

/-- C22: a pre-key message around any parsed Signal message parses back to itself. -/
theorem C22_preKey_round_trip (registrationID : UInt32) (preKeyID : Option UInt32) (signedPreKeyID : UInt32)
    (baseKey identityKey : PubKey) (inner : Signal) (hinner : newSignalFromBytes inner.serialized = .ok inner)
    (hlen : inner.serialized.length < 2 ^ 62) :
    ∃ parsed,
      newPreKeyFromBytes (newPreKey 3 registrationID preKeyID signedPreKeyID baseKey identityKey inner).serialized =
        .ok parsed ∧
      parsed.version = 3 ∧ parsed.registrationID = registrationID ∧ parsed.preKeyID = preKeyID ∧
      parsed.signedPreKeyID = signedPreKeyID ∧ parsed.baseKey = baseKey ∧ parsed.identityKey = identityKey ∧
      parsed.message = inner := by
  refine ⟨_, prekey_round_trip registrationID preKeyID signedPreKeyID baseKey identityKey inner hinner (by omega), ?_⟩
  simp [newPreKey]

/-- C22: in particular for every inner message the library itself builds. -/
theorem C22_preKey_round_trip_built (C : Crypto) (registrationID : UInt32) (preKeyID : Option UInt32)
    (signedPreKeyID : UInt32) (baseKey identityKey : PubKey) (macKey : Bytes) (hk : macKey.length = 32)
    (ratchet : PubKey) (previousCounter counter : UInt32) (ciphertext : Bytes) (hct : ciphertext.length < 2 ^ 61)
    (sender receiver : PubKey) :
    ∃ inner, newSignal C 3 macKey ratchet previousCounter counter ciphertext sender receiver = .ok inner ∧
      newPreKeyFromBytes (newPreKey 3 registrationID preKeyID signedPreKeyID baseKey identityKey inner).serialized =
        .ok (newPreKey 3 registrationID preKeyID signedPreKeyID baseKey identityKey inner) := by
  obtain ⟨m, h1, h2, _⟩ := signal_round_trip C macKey hk ratchet previousCounter counter ciphertext (by omega) sender receiver
  have hl := newSignal_length hk h1
  exact ⟨m, h1, prekey_round_trip _ _ _ _ _ m h2 (by omega)⟩

/-! ## C23 -/

/-- C23: a sender-key message parses back to itself and its signature verifies. -/
theorem C23_senderKey_round_trip (C : Crypto) (dist : DistId) (chainID iteration : UInt32) (ciphertext : Bytes)
    (hct : ciphertext.length < 2 ^ 62) (key : PrivKey) (rand : Bytes) (hr : 64 ≤ rand.length) :
    ∃ built parsed rest,
      newSenderKey C 3 dist chainID iteration ciphertext key rand = (.ok built, rest) ∧
      newSenderKeyFromBytes built.serialized = .ok parsed ∧
      parsed.version = 3 ∧ parsed.distID = dist ∧ parsed.chainID = chainID ∧ parsed.iteration = iteration ∧
      parsed.ciphertext = ciphertext ∧ parsed.serialized = built.serialized ∧
      parsed.verifySignature C (key.pub C) = .ok true := by
  obtain ⟨m, h1, h2, h3, h4, h5, h6, h7, h8⟩ :=
    senderKey_round_trip C dist chainID iteration ciphertext (by omega) key rand hr
  exact ⟨m, m, _, h1, h2, h3, h4, h5, h6, h7, rfl, h8⟩

/-! ## C24 -/

/-- C24: a distribution message with a 32-byte chain key parses back to itself. -/
theorem C24_distribution_round_trip (dist : DistId) (chainID iteration : UInt32) (chainKey : Bytes)
    (hck : chainKey.length = 32) (signingKey : PubKey) :
    ∃ parsed,
      newDistributionFromBytes (newDistribution 3 dist chainID iteration chainKey signingKey).serialized = .ok parsed ∧
      parsed.version = 3 ∧ parsed.distID = dist ∧ parsed.chainID = chainID ∧ parsed.iteration = iteration ∧
      parsed.chainKey = chainKey ∧ parsed.signingKey = signingKey := by
  refine ⟨_, distribution_round_trip dist chainID iteration chainKey hck signingKey, ?_⟩
  simp [newDistribution]

/-! ## C25 -/

/-- C25 does not hold: `NewSignalFromBytes` panics on the one-byte input `0x33`. -/
theorem C25_signal_panics_false : newSignalFromBytes [0x33] = .panic := by decide

/-- C25 does not hold: a well-formed pre-key message around that one byte makes `NewPreKeyFromBytes` panic. -/
theorem C25_preKey_panics_false : ∃ bytes, newPreKeyFromBytes bytes = .panic :=
  ⟨(newPreKey 3 1 none 1 (samplePub 1) (samplePub 2) ⟨3, samplePub 1, 0, 0, [], [0x33]⟩).serialized, by decide +kernel⟩

/-- C25, what holds (1): `NewSignalFromBytes` panics exactly on inputs of 1 to 8 bytes that carry version 3. -/
theorem C25_signal_partial (bytes : Bytes) :
    newSignalFromBytes bytes = .panic ↔
      ∃ b rest, bytes = b :: rest ∧ b.toNat / 16 = 3 ∧ bytes.length ≤ 8 := by
  cases bytes with
  | nil => simp [newSignalFromBytes]
  | cons b rest =>
    by_cases hb : b >>> 4 = 3
    · have hb' := (u8_shift4 b).mp hb
      by_cases hl : (b :: rest).length < 9
      · have : newSignalFromBytes (b :: rest) = .panic := by
          simp only [newSignalFromBytes, hb, hl, ne_eq, not_true_eq_false, if_false, if_true]
        simp only [this, true_iff]
        exact ⟨b, rest, rfl, hb', by omega⟩
      · have : newSignalFromBytes (b :: rest) ≠ .panic := by
          simp only [newSignalFromBytes, hb, hl, ne_eq, not_true_eq_false, if_false]
          exact Res.bind_ne_panic (Res.ofOption_ne_panic _ _) fun _ _ =>
            Res.bind_ne_panic (newPublicKey_ne_panic _) fun _ _ => by simp
        simp only [this, false_iff]
        rintro ⟨_, _, _, _, h⟩
        omega
    · have hb' : b.toNat / 16 ≠ 3 := fun h => hb ((u8_shift4 b).mpr h)
      have : newSignalFromBytes (b :: rest) = .err .unsupportedVersion := by
        simp [newSignalFromBytes, hb]
      simp only [this]
      constructor
      · intro h; simp at h
      · rintro ⟨b', rest', h1, h2, _⟩
        simp at h1
        rw [← h1.1] at h2
        exact absurd h2 hb'

/-- C25, what holds (2): `NewPreKeyFromBytes` panics only if the bundled message makes `NewSignalFromBytes` panic. -/
theorem C25_preKey_partial (bytes : Bytes) (h : newPreKeyFromBytes bytes = .panic) :
    ∃ b rest pb, bytes = b :: rest ∧ PBPreKey.unmarshal rest = .ok pb ∧
      newSignalFromBytes (pb.message.getD []) = .panic := by
  cases bytes with
  | nil => simp [newPreKeyFromBytes] at h
  | cons b rest =>
    by_cases hb : b >>> 4 = 3
    · simp only [newPreKeyFromBytes, hb, ne_eq, not_true_eq_false, if_false] at h
      refine Classical.byContradiction fun hn => absurd h ?_
      refine Res.bind_ne_panic (Res.ofOption_ne_panic _ _) fun pb hpb => ?_
      refine Res.bind_ne_panic (newPublicKey_ne_panic _) fun _ _ => ?_
      refine Res.bind_ne_panic (newIdentityKey_ne_panic _) fun _ _ => ?_
      refine Res.bind_ne_panic (fun hp => hn ⟨b, rest, pb, rfl, hpb, hp⟩) fun _ _ => by simp
    · simp [newPreKeyFromBytes, hb] at h

/-- C25, what holds (3): the three other parsers never panic. -/
theorem C25_others_partial (bytes : Bytes) :
    newSenderKeyFromBytes bytes ≠ .panic ∧ newDistributionFromBytes bytes ≠ .panic ∧
      newPlaintextFromBytes bytes ≠ .panic := by
  refine ⟨?_, ?_, ?_⟩
  · unfold newSenderKeyFromBytes
    split
    · simp
    · cases bytes with
      | nil => rename_i h; simp at h
      | cons b rest =>
        rename_i h
        have hr : ¬ rest.length < 64 := by simp only [List.length_cons] at h; omega
        simp only [hr, if_false]
        split
        · simp
        · exact Res.bind_ne_panic (Res.ofOption_ne_panic _ _) fun _ _ =>
            Res.bind_ne_panic (parseDistId_ne_panic _) fun _ _ => by simp
  · unfold newDistributionFromBytes
    split
    · simp
    · cases bytes with
      | nil => rename_i h; simp at h
      | cons b rest =>
        simp only
        split
        · simp
        · refine Res.bind_ne_panic (Res.ofOption_ne_panic _ _) fun _ _ =>
            Res.bind_ne_panic (parseDistId_ne_panic _) fun _ _ => ?_
          split
          · simp
          · exact Res.bind_ne_panic (newPublicKey_ne_panic _) fun _ _ => by simp
  · unfold newPlaintextFromBytes
    cases bytes with
    | nil => simp
    | cons b rest => simp only; split <;> simp

/-- C25: reading the body of a parsed plaintext message never panics and gives everything after the identifier. -/
theorem C25_plaintext_message (bytes : Bytes) (m : PlaintextMsg) (h : newPlaintextFromBytes bytes = .ok m) :
    ∃ body, m.message = .ok body ∧ bytes = 0xC0 :: body := by
  cases bytes with
  | nil => simp [newPlaintextFromBytes] at h
  | cons b rest =>
    simp only [newPlaintextFromBytes] at h
    split at h
    · simp at h
    · rename_i hb
      simp at h hb
      subst h
      exact ⟨rest, rfl, by rw [hb]⟩

/-! ## C26 -/

/-- C26: a first byte whose high nibble is not 3 is rejected with an error by the four versioned parsers. -/
theorem C26_version_enforced (b : UInt8) (rest : Bytes) (hb : b.toNat / 16 ≠ 3) :
    (∃ e, newSignalFromBytes (b :: rest) = .err e) ∧ (∃ e, newPreKeyFromBytes (b :: rest) = .err e) ∧
    (∃ e, newSenderKeyFromBytes (b :: rest) = .err e) ∧ (∃ e, newDistributionFromBytes (b :: rest) = .err e) := by
  have hb' : ¬ b >>> 4 = 3 := fun h => hb ((u8_shift4 b).mp h)
  refine ⟨⟨_, by simp only [newSignalFromBytes, hb', ne_eq, not_false_eq_true, if_true]; rfl⟩,
    ⟨_, by simp only [newPreKeyFromBytes, hb', ne_eq, not_false_eq_true, if_true]; rfl⟩, ?_, ?_⟩
  · unfold newSenderKeyFromBytes
    split
    · exact ⟨_, rfl⟩
    · simp only [hb', ne_eq, not_false_eq_true, if_true]; exact ⟨_, rfl⟩
  · unfold newDistributionFromBytes
    split
    · exact ⟨_, rfl⟩
    · simp only [hb', ne_eq, not_false_eq_true, if_true]; exact ⟨_, rfl⟩

/-- C26: the empty input is an error for every parser, and `NewPlaintextFromBytes` accepts exactly the
non-empty inputs that start with `0xC0`. -/
theorem C26_empty_and_plaintext (bytes : Bytes) :
    ((∃ e, newSignalFromBytes [] = .err e) ∧ (∃ e, newPreKeyFromBytes [] = .err e) ∧
      (∃ e, newSenderKeyFromBytes [] = .err e) ∧ (∃ e, newDistributionFromBytes [] = .err e)) ∧
    ((∃ m, newPlaintextFromBytes bytes = .ok m) ↔ bytes.head? = some 0xC0) := by
  refine ⟨⟨⟨_, rfl⟩, ⟨_, rfl⟩, ⟨_, rfl⟩, ⟨_, rfl⟩⟩, ?_⟩
  cases bytes with
  | nil => simp [newPlaintextFromBytes]
  | cons b rest =>
    simp only [newPlaintextFromBytes, List.head?_cons, Option.some.injEq]
    by_cases hb : b = 0xC0 <;> simp [hb]

/-! ## C27 -/

/-- C27: everything but the last 8 bytes of a pairwise message determines its fields. -/
theorem C27_signal_authenticated (b1 b2 : Bytes) (m1 m2 : Signal)
    (h1 : newSignalFromBytes b1 = .ok m1) (h2 : newSignalFromBytes b2 = .ok m2)
    (hsame : b1.take (b1.length - 8) = b2.take (b2.length - 8)) :
    m1.version = m2.version ∧ m1.senderRatchetKey = m2.senderRatchetKey ∧ m1.previousCounter = m2.previousCounter ∧
      m1.counter = m2.counter ∧ m1.ciphertext = m2.ciphertext := by
  obtain ⟨x1, r1, pb1, rfl, _, hl1, hu1, hk1, hv1, hp1, hc1, ht1, _⟩ := newSignalFromBytes_ok h1
  obtain ⟨x2, r2, pb2, rfl, _, hl2, hu2, hk2, hv2, hp2, hc2, ht2, _⟩ := newSignalFromBytes_ok h2
  simp only [List.length_cons] at hl1 hl2 hsame
  have e1 : r1.length + 1 - 8 = (r1.length - 8) + 1 := by omega
  have e2 : r2.length + 1 - 8 = (r2.length - 8) + 1 := by omega
  rw [e1, e2, List.take_succ_cons, List.take_succ_cons, List.cons.injEq] at hsame
  obtain ⟨hx, hr⟩ := hsame
  rw [hr, hu2] at hu1
  simp only [Res.ok.injEq] at hu1
  subst hu1
  rw [hk2] at hk1
  simp only [Res.ok.injEq] at hk1
  exact ⟨by rw [hv1, hv2, hx], hk1.symm, by rw [hp1, hp2], by rw [hc1, hc2], by rw [ht1, ht2]⟩

/-- C27: everything but the last 64 bytes of a sender-key message determines its fields. -/
theorem C27_senderKey_authenticated (b1 b2 : Bytes) (m1 m2 : SenderKeyMsg)
    (h1 : newSenderKeyFromBytes b1 = .ok m1) (h2 : newSenderKeyFromBytes b2 = .ok m2)
    (hsame : b1.take (b1.length - 64) = b2.take (b2.length - 64)) :
    m1.version = m2.version ∧ m1.distID = m2.distID ∧ m1.chainID = m2.chainID ∧
      m1.iteration = m2.iteration ∧ m1.ciphertext = m2.ciphertext := by
  obtain ⟨x1, r1, pb1, rfl, _, hl1, hu1, hk1, hv1, hp1, hc1, ht1, _⟩ := newSenderKeyFromBytes_ok h1
  obtain ⟨x2, r2, pb2, rfl, _, hl2, hu2, hk2, hv2, hp2, hc2, ht2, _⟩ := newSenderKeyFromBytes_ok h2
  simp only [List.length_cons] at hl1 hl2 hsame
  have e1 : r1.length + 1 - 64 = (r1.length - 64) + 1 := by omega
  have e2 : r2.length + 1 - 64 = (r2.length - 64) + 1 := by omega
  rw [e1, e2, List.take_succ_cons, List.take_succ_cons, List.cons.injEq] at hsame
  obtain ⟨hx, hr⟩ := hsame
  rw [hr, hu2] at hu1
  simp only [Res.ok.injEq] at hu1
  subst hu1
  rw [hk2] at hk1
  simp only [Res.ok.injEq] at hk1
  exact ⟨by rw [hv1, hv2, hx], hk1.symm, by rw [hp1, hp2], by rw [hc1, hc2], by rw [ht1, ht2]⟩

/-- C27 is not vacuous: two different byte strings (different MACs) parse and share all authenticated bytes. -/
example : ∃ b1 b2 m1 m2, newSignalFromBytes b1 = .ok m1 ∧ newSignalFromBytes b2 = .ok m2 ∧ b1 ≠ b2 ∧
    b1.take (b1.length - 8) = b2.take (b2.length - 8) := by
  obtain ⟨m1, p1, h1, h2, _⟩ := C21_signal_round_trip toy (List.replicate 32 1) (by simp) (samplePub 1) 0 7 [1, 2, 3] (by decide) (samplePub 3) (samplePub 4)
  obtain ⟨m2, p2, h3, h4, _⟩ := C21_signal_round_trip toy (List.replicate 32 2) (by simp) (samplePub 1) 0 7 [1, 2, 3] (by decide) (samplePub 3) (samplePub 4)
  have e1 : newSignal toy 3 (List.replicate 32 1) (samplePub 1) 0 7 [1, 2, 3] (samplePub 3) (samplePub 4) ≠ newSignal toy 3 (List.replicate 32 2) (samplePub 1) 0 7 [1, 2, 3] (samplePub 3) (samplePub 4) := by
    decide +kernel
  obtain ⟨_, mac1, a1, a2, _, a4⟩ := newSignal_ok toy 3 (List.replicate 32 1) (by simp) (samplePub 1) 0 7 [1, 2, 3] (samplePub 3) (samplePub 4)
  obtain ⟨_, mac2, c1, c2, _, c4⟩ := newSignal_ok toy 3 (List.replicate 32 2) (by simp) (samplePub 1) 0 7 [1, 2, 3] (samplePub 3) (samplePub 4)
  rw [h1] at a1; rw [h3] at c1
  simp only [Res.ok.injEq] at a1 c1
  subst a1; subst c1
  refine ⟨_, _, _, _, h2, h4, ?_, ?_⟩
  · intro he
    apply e1
    rw [h1, h3, a4, c4]
    rw [a4, c4] at he
    simp only at he
    rw [he]
  · rw [a4, c4]
    simp only [List.length_append, a2, c2, Nat.add_sub_cancel]
    simp

/-! ## C28 -/

/-- C28: the text form of a distribution id parses back to the id. -/
theorem C28_distribution_id_round_trip (d : DistId) : parseDistId d.string = .ok d := parseDistId_string d

/-- C28: so two ids with the same text form are equal. -/
theorem C28_distribution_id_injective (d e : DistId) (h : d.string = e.string) : d = e := by
  have h1 := parseDistId_string d
  rw [h, parseDistId_string e] at h1
  simp only [Res.ok.injEq] at h1
  exact h1.symm

/-! ## C29 -/

/-- C29: which byte strings are public keys, and which key they denote. -/
theorem C29_public_key_encoding (k : Bytes) (p : PubKey) :
    newPublicKey k = .ok p ↔ 33 ≤ k.length ∧ k.head? = some 5 ∧ p.keyBytes = (k.drop 1).take 32 := by
  rw [newPublicKey_ok_iff]
  constructor
  · rintro ⟨rest, rfl⟩
    refine ⟨by simp, by simp [PubKey.bytes], ?_⟩
    have := p.len
    simp [PubKey.bytes, PubKey.keyBytes, ← this]
  · rintro ⟨h1, h2, h3⟩
    match k, h2 with
    | b :: k', h2 =>
      simp at h2
      refine ⟨k'.drop 32, ?_⟩
      have : p.key = k'.take 32 := by simpa [PubKey.keyBytes] using h3
      simp [PubKey.bytes, h2, this]

/-- C29: every other byte string gives an error (not a panic, not a key). -/
theorem C29_public_key_rejects (k : Bytes) (h : ¬ (33 ≤ k.length ∧ k.head? = some 5)) :
    ∃ e, newPublicKey k = .err e := by
  cases hk : newPublicKey k with
  | ok p => exact absurd ⟨((C29_public_key_encoding k p).mp hk).1, ((C29_public_key_encoding k p).mp hk).2.1⟩ h
  | err e => exact ⟨e, rfl⟩
  | panic => exact absurd hk (newPublicKey_ne_panic k)

/-- C29: an accepted key re-encodes to 33 bytes that parse to an equal key, and `Equal` is equality of the keys. -/
theorem C29_public_key_reencode (k : Bytes) (p q : PubKey) (h : newPublicKey k = .ok p) :
    newPublicKey p.bytes = .ok p ∧ p.bytes.length = 33 ∧ p.bytes = k.take 33 ∧ (p.equal q = true ↔ p.bytes = q.bytes) := by
  obtain ⟨rest, rfl⟩ := newPublicKey_ok_iff.mp h
  refine ⟨newPublicKey_bytes p, by simp, ?_, ?_⟩
  · have : p.bytes.length = 33 := p.bytes_length
    rw [List.take_append_of_le_length (by omega), List.take_of_length_le (by omega)]
  · rw [PubKey.equal_iff]
    exact ⟨fun h => by rw [h], PubKey.bytes_inj⟩

/-! ## C30 -/

/-- A 32-byte string is a clamped X25519 scalar: multiple of 8, top bit clear, second bit set. -/
def Clamped (k : Bytes) : Prop :=
  ∃ (h : k.length = 32), k[0].toNat % 8 = 0 ∧ 64 ≤ k[31].toNat ∧ k[31].toNat < 128

theorem u8_clamp0_mod (b : UInt8) : (b &&& 248).toNat % 8 = 0 := by
  have h : ∀ n : Fin 256, ((UInt8.ofNat n.1) &&& 248).toNat % 8 = 0 := by decide +kernel
  have := h ⟨b.toNat, b.toNat_lt⟩
  simpa using this

theorem u8_clamp31_range (b : UInt8) : 64 ≤ (b &&& 63 ||| 64).toNat ∧ (b &&& 63 ||| 64).toNat < 128 := by
  have h : ∀ n : Fin 256, 64 ≤ ((UInt8.ofNat n.1) &&& 63 ||| 64).toNat ∧ ((UInt8.ofNat n.1) &&& 63 ||| 64).toNat < 128 := by
    decide +kernel
  have := h ⟨b.toNat, b.toNat_lt⟩
  simp only [UInt8.ofNat_toNat] at this
  exact this

/-- C30: exactly the 32-byte strings are private keys; the stored key is clamped and keeps every other bit. -/
theorem C30_private_key (k : Bytes) :
    (k.length = 32 → ∃ p, newPrivateKey k = .ok p ∧ Clamped p.bytes ∧
      (∀ i, 1 ≤ i → i ≤ 30 → p.bytes[i]? = k[i]?)) ∧
    (k.length ≠ 32 → ∃ e, newPrivateKey k = .err e) := by
  constructor
  · intro h
    refine ⟨_, by simp only [newPrivateKey, h, dite_true]; rfl, ?_, ?_⟩
    · refine ⟨by simp [PrivKey.bytes, h], ?_⟩
      simp only [PrivKey.bytes, clamp, modifyAt, List.getElem_modify]
      exact ⟨u8_clamp0_mod _, u8_clamp31_range _⟩
    · intro i h1 h2
      simp only [PrivKey.bytes, clamp, modifyAt, List.getElem?_modify]
      have : ¬ 0 = i := by omega
      have : ¬ 31 = i := by omega
      simp [*]
  · intro h
    exact ⟨_, by simp only [newPrivateKey, h, dite_false]; rfl⟩

/-- C30: a stored private key reads back as the same key (hence the same public key). -/
theorem C30_private_key_round_trip (C : Crypto) (p : PrivKey) :
    ∃ q, newPrivateKey p.bytes = .ok q ∧ q.bytes = p.bytes ∧ q.pub C = p.pub C :=
  ⟨p, newPrivateKey_bytes p, rfl, rfl⟩

/-- C30: pre-keys and signed pre-keys return the key pair they were built from. -/
theorem C30_prekey_round_trip (k : KeyPair) : (PreKeyRec.new k).keyPair = .ok k := by
  simp [PreKeyRec.new, PreKeyRec.keyPair, newKeyPair]

/-! ## C33 -/

/-- C33: an alternate-identity signature verifies for the key it was made for. -/
theorem C33_alternate_identity (C : Crypto) (k : KeyPair) (hk : k.pub = k.priv.pub C) (other : PubKey)
    (rand : Bytes) (hr : 64 ≤ rand.length) :
    ∃ sig rest, k.signAlternateIdentity C other rand = (.ok sig, rest) ∧
      k.pub.verifyAlternateIdentity C sig other = .ok true := by
  refine ⟨C.sign k.priv.key (rand.take 64) [alternatePrefix1, alternatePrefix2, other.bytes].flatten, rand.drop 64, ?_, ?_⟩
  · simp only [KeyPair.signAlternateIdentity, PrivKey.sign, M.bind_run, readFull_ok 64 rand hr, M.pure_run]
  · rw [hk]
    simp only [PubKey.verifyAlternateIdentity, PubKey.verifySignature, C.sign_len, ne_eq, not_true_eq_false, if_false,
      PrivKey.pub]
    rw [C.verify_sign _ _ _ k.priv.len k.priv.clamped (by simp [hr])]
    rfl

/-- The hypotheses of C33 are met by a generated identity. -/
example : (samplePair 9).pub = (samplePair 9).priv.pub toy ∧ 64 ≤ (List.replicate 64 (7 : UInt8)).length := ⟨rfl, by simp⟩

end Verif
