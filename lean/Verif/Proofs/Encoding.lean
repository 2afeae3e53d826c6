import Verif.Model.World
import Verif.Model.Group
import Verif.Model.Toy

/-! Helper lemmas for the encoding properties. -/

namespace Verif

theorem Res.bind_ne_panic {α β} {x : Res α} {f : α → Res β} (h1 : x ≠ .panic)
    (h2 : ∀ a, x = .ok a → f a ≠ .panic) : (x >>= f) ≠ .panic := by
  cases x with
  | ok a => exact h2 a rfl
  | err e => simp
  | panic => exact absurd rfl h1

theorem Res.ofOption_ne_panic {α} (e : Err) (o : Option α) : Res.ofOption e o ≠ .panic := by
  cases o <;> simp

theorem newDJBPublicKey_ne_panic (k : Bytes) : newDJBPublicKey k ≠ .panic := by
  unfold newDJBPublicKey; split <;> simp

theorem newPublicKey_ne_panic (k : Bytes) : newPublicKey k ≠ .panic := by
  unfold newPublicKey
  split
  · simp
  · split
    · exact newDJBPublicKey_ne_panic _
    · simp

theorem newPrivateKey_ne_panic (k : Bytes) : newPrivateKey k ≠ .panic := by
  unfold newPrivateKey; split <;> simp

theorem newIdentityKey_ne_panic (k : Bytes) : newIdentityKey k ≠ .panic := newPublicKey_ne_panic k

theorem parseDistId_ne_panic (k : Bytes) : parseDistId k ≠ .panic := by
  unfold parseDistId
  repeat' split
  all_goals first | exact Res.ofOption_ne_panic _ _ | simp

theorem u8_shift4 (b : UInt8) : b >>> 4 = 3 ↔ b.toNat / 16 = 3 := by
  have h : ∀ n : Fin 256, (UInt8.ofNat n.1 >>> 4 = 3 ↔ (UInt8.ofNat n.1).toNat / 16 = 3) := by decide +kernel
  have := h ⟨b.toNat, b.toNat_lt⟩
  simpa using this

theorem take_append_left {α} (l r : List α) : (l ++ r).take ((l ++ r).length - r.length) = l := by
  simp

theorem newSignalFromBytes_eq (b : UInt8) (body mac : Bytes) (hb : b >>> 4 = 3) (hm : mac.length = 8) :
    newSignalFromBytes (b :: body ++ mac) = (PBSignal.unmarshal body >>= fun message =>
      newPublicKey (message.ratchetKey.getD []) >>= fun k =>
      .ok { version := 3, senderRatchetKey := k, previousCounter := message.previousCounter.getD 0,
            counter := message.counter.getD 0, ciphertext := message.ciphertext.getD [],
            serialized := b :: body ++ mac }) := by
  have h1 : ¬ (b :: body ++ mac).length < 9 := by simp; omega
  have h2 : (body ++ mac).take ((body ++ mac).length - 8) = body := by rw [← hm]; simp
  simp only [List.cons_append] at *
  simp only [newSignalFromBytes, hb, h1, h2, ne_eq, not_true_eq_false, if_false, Res.pure_eq]

theorem newSignal_ok (C : Crypto) (v : UInt8) (macKey : Bytes) (hk : macKey.length = 32) (ratchet : PubKey)
    (pc c : UInt32) (ct : Bytes) (snd rcv : PubKey) :
    ∃ m mac, newSignal C v macKey ratchet pc c ct snd rcv = .ok m ∧ mac.length = 8 ∧
      mac = (C.hmac macKey (snd.bytes ++ rcv.bytes ++ (versionPrefix v :: PBSignal.marshal
        { ratchetKey := some ratchet.bytes, counter := some c, previousCounter := some pc, ciphertext := some ct }))).take 8 ∧
      m = { version := v, senderRatchetKey := ratchet, previousCounter := pc, counter := c, ciphertext := ct,
            serialized := versionPrefix v :: PBSignal.marshal
              { ratchetKey := some ratchet.bytes, counter := some c, previousCounter := some pc, ciphertext := some ct }
              ++ mac } := by
  refine ⟨_, _, ?_, ?_, rfl, rfl⟩
  · simp [newSignal, messageMac, hk]
  · simp [C.hmac_len]

theorem encVarintN_length (k n : Nat) : (Wire.encVarintN k n).length ≤ k := by
  induction k generalizing n with
  | zero => simp [Wire.encVarintN]
  | succ k ih =>
    unfold Wire.encVarintN
    split
    · simp
    · simp [ih]

theorem encVarint_length (n : Nat) : (Wire.encVarint n).length ≤ 10 := encVarintN_length 10 n

theorem PBSignal.marshal_length (k : PubKey) (c pc : UInt32) (ct : Bytes) :
    (PBSignal.marshal { ratchetKey := some k.bytes, counter := some c, previousCounter := some pc, ciphertext := some ct }).length
      ≤ ct.length + 113 := by
  simp only [PBSignal.marshal, Wire.encFields, optLen, optVarint, List.cons_append, List.nil_append,
      List.map_cons, List.map_nil, List.flatten_cons, List.flatten_nil, Wire.encField, List.length_append,
      PubKey.bytes_length, List.length_nil]
  have h1 := encVarint_length (1 * 8 + (Wire.Val.len k.bytes).wtype)
  have h2 := encVarint_length 33
  have h3 := encVarint_length (2 * 8 + (Wire.Val.varint c.toNat).wtype)
  have h4 := encVarint_length c.toNat
  have h5 := encVarint_length (3 * 8 + (Wire.Val.varint pc.toNat).wtype)
  have h6 := encVarint_length pc.toNat
  have h7 := encVarint_length (4 * 8 + (Wire.Val.len ct).wtype)
  have h8 := encVarint_length ct.length
  omega

/-- The overhead of a Signal message over its ciphertext. -/
theorem newSignal_length {C : Crypto} {v : UInt8} {macKey : Bytes} {ratchet : PubKey}
    {pc c : UInt32} {ct : Bytes} {snd rcv : PubKey} {m : Signal} (hk : macKey.length = 32)
    (h : newSignal C v macKey ratchet pc c ct snd rcv = .ok m) : m.serialized.length ≤ ct.length + 122 := by
  obtain ⟨m', mac, h1, h2, _, h4⟩ := newSignal_ok C v macKey hk ratchet pc c ct snd rcv
  rw [h1] at h
  simp only [Res.ok.injEq] at h
  subst h
  have := PBSignal.marshal_length ratchet c pc ct
  rw [h4]
  simp only [List.length_append, List.length_cons, h2]
  omega

theorem messageMac_ok (C : Crypto) (macKey : Bytes) (hk : macKey.length = 32) (snd rcv : PubKey) (m : Bytes) :
    messageMac C macKey snd rcv m = .ok ((C.hmac macKey (snd.bytes ++ rcv.bytes ++ m)).take 8) := by
  simp [messageMac, hk]

theorem verifyMAC_eq (C : Crypto) (macKey : Bytes) (hk : macKey.length = 32) (snd rcv : PubKey) (s : Signal)
    (body mac : Bytes) (hs : s.serialized = body ++ mac) (hm : mac.length = 8) :
    s.verifyMAC C macKey snd rcv = .ok ((C.hmac macKey (snd.bytes ++ rcv.bytes ++ body)).take 8 == mac) := by
  have h1 : ¬ s.serialized.length < 8 := by rw [hs]; simp; omega
  have h2 : s.serialized.take (s.serialized.length - 8) = body := by rw [hs, ← hm]; simp
  have h3 : s.serialized.drop (s.serialized.length - 8) = mac := by rw [hs, ← hm]; simp
  simp only [Signal.verifyMAC, h1, h2, h3, if_false, messageMac_ok C macKey hk, Res.bind_ok, Res.pure_eq]

/-- Round trip of a freshly built Signal message. -/
theorem signal_round_trip (C : Crypto) (macKey : Bytes) (hk : macKey.length = 32) (ratchet : PubKey)
    (pc c : UInt32) (ct : Bytes) (hct : ct.length < 2 ^ 64) (snd rcv : PubKey) :
    ∃ m, newSignal C 3 macKey ratchet pc c ct snd rcv = .ok m ∧ newSignalFromBytes m.serialized = .ok m ∧
      m.version = 3 ∧ m.senderRatchetKey = ratchet ∧ m.previousCounter = pc ∧ m.counter = c ∧ m.ciphertext = ct ∧
      m.verifyMAC C macKey snd rcv = .ok true := by
  obtain ⟨m, mac, h1, h2, h3, h4⟩ := newSignal_ok C 3 macKey hk ratchet pc c ct snd rcv
  have hu := PBSignal.unmarshal_marshal
    { ratchetKey := some ratchet.bytes, counter := some c, previousCounter := some pc, ciphertext := some ct }
    (by simp) (by simpa using hct)
  have hv : versionPrefix 3 >>> 4 = 3 := by decide
  have hp := newSignalFromBytes_eq (versionPrefix 3) (PBSignal.marshal
    { ratchetKey := some ratchet.bytes, counter := some c, previousCounter := some pc, ciphertext := some ct }) mac hv h2
  rw [hu] at hp
  have hmac := verifyMAC_eq C macKey hk snd rcv m _ mac (by rw [h4]) h2
  refine ⟨m, h1, ?_, ?_⟩
  · rw [h4]
    simpa using hp
  · rw [hmac]
    subst h4
    simp [h3]

theorem newSignalFromBytes_ok {bytes : Bytes} {m : Signal} (h : newSignalFromBytes bytes = .ok m) :
    ∃ b rest pb, bytes = b :: rest ∧ b >>> 4 = 3 ∧ 9 ≤ bytes.length ∧
      PBSignal.unmarshal (rest.take (rest.length - 8)) = .ok pb ∧ newPublicKey (pb.ratchetKey.getD []) = .ok m.senderRatchetKey ∧
      m.version = b >>> 4 ∧ m.previousCounter = pb.previousCounter.getD 0 ∧ m.counter = pb.counter.getD 0 ∧
      m.ciphertext = pb.ciphertext.getD [] ∧ m.serialized = bytes := by
  unfold newSignalFromBytes at h
  cases bytes with
  | nil => simp at h
  | cons b rest =>
    simp only at h
    by_cases hb : b >>> 4 = 3
    · by_cases hl : (b :: rest).length < 9
      · simp only [hb, hl, if_true, if_false, ne_eq, not_true_eq_false] at h
        simp at h
      · simp only [hb, hl, if_false, ne_eq, not_true_eq_false] at h
        rw [Res.bind_eq_ok] at h
        obtain ⟨pb, h1, h2⟩ := h
        rw [Res.bind_eq_ok] at h2
        obtain ⟨k, h3, h4⟩ := h2
        simp only [Res.pure_eq, Res.ok.injEq] at h4
        subst h4
        exact ⟨b, rest, pb, rfl, hb, by omega, h1, h3, by simp [hb], rfl, rfl, rfl, rfl⟩
    · simp [hb] at h

theorem prekey_round_trip (reg : UInt32) (pid : Option UInt32) (spid : UInt32) (base ident : PubKey) (m : Signal)
    (hm : newSignalFromBytes m.serialized = .ok m) (hlen : m.serialized.length < 2 ^ 64) :
    newPreKeyFromBytes (newPreKey 3 reg pid spid base ident m).serialized = .ok (newPreKey 3 reg pid spid base ident m) := by
  have hu := PBPreKey.unmarshal_marshal
    { registrationId := some reg, preKeyId := pid, signedPreKeyId := some spid,
      baseKey := some base.bytes, identityKey := some ident.bytes, message := some m.serialized }
    (by simp) (by simp) (by simpa using hlen)
  have hv : versionPrefix 3 >>> 4 = 3 := by decide
  simp only [newPreKeyFromBytes, newPreKey, hv]
  simp [hu, hm]

theorem newPreKeyFromBytes_ok {bytes : Bytes} {m : PreKeyMsg} (h : newPreKeyFromBytes bytes = .ok m) :
    ∃ b rest pb, bytes = b :: rest ∧ b >>> 4 = 3 ∧ PBPreKey.unmarshal rest = .ok pb ∧
      newPublicKey (pb.baseKey.getD []) = .ok m.baseKey ∧ newIdentityKey (pb.identityKey.getD []) = .ok m.identityKey ∧
      newSignalFromBytes (pb.message.getD []) = .ok m.message ∧
      m.version = b >>> 4 ∧ m.registrationID = pb.registrationId.getD 0 ∧ m.preKeyID = pb.preKeyId ∧
      m.signedPreKeyID = pb.signedPreKeyId.getD 0 ∧ m.serialized = bytes := by
  unfold newPreKeyFromBytes at h
  cases bytes with
  | nil => simp at h
  | cons b rest =>
    simp only at h
    by_cases hb : b >>> 4 = 3
    · simp only [hb, if_false, ne_eq, not_true_eq_false] at h
      rw [Res.bind_eq_ok] at h
      obtain ⟨pb, h1, h⟩ := h
      rw [Res.bind_eq_ok] at h
      obtain ⟨k, h2, h⟩ := h
      rw [Res.bind_eq_ok] at h
      obtain ⟨k', h3, h⟩ := h
      rw [Res.bind_eq_ok] at h
      obtain ⟨k'', h4, h⟩ := h
      simp only [Res.pure_eq, Res.ok.injEq] at h
      subst h
      exact ⟨b, rest, pb, rfl, hb, h1, h2, h3, h4, by simp [hb], rfl, rfl, rfl, rfl⟩
    · simp [hb] at h

theorem newSenderKeyFromBytes_ok {bytes : Bytes} {m : SenderKeyMsg} (h : newSenderKeyFromBytes bytes = .ok m) :
    ∃ b rest pb, bytes = b :: rest ∧ b >>> 4 = 3 ∧ 65 ≤ bytes.length ∧
      PBSenderKey.unmarshal (rest.take (rest.length - 64)) = .ok pb ∧ parseDistId (pb.distributionUuid.getD []) = .ok m.distID ∧
      m.version = b >>> 4 ∧ m.chainID = pb.chainId.getD 0 ∧ m.iteration = pb.iteration.getD 0 ∧
      m.ciphertext = pb.ciphertext.getD [] ∧ m.serialized = bytes := by
  unfold newSenderKeyFromBytes at h
  by_cases hl : bytes.length < 1 + 64
  · simp [hl] at h
  · simp only [hl, if_false] at h
    cases bytes with
    | nil => simp at h
    | cons b rest =>
      simp only at h
      by_cases hb : b >>> 4 = 3
      · have hr : ¬ rest.length < 64 := by simp only [List.length_cons] at hl; omega
        simp only [hb, if_false, ne_eq, not_true_eq_false, hr] at h
        rw [Res.bind_eq_ok] at h
        obtain ⟨pb, h1, h⟩ := h
        rw [Res.bind_eq_ok] at h
        obtain ⟨k, h2, h⟩ := h
        simp only [Res.pure_eq, Res.ok.injEq] at h
        subst h
        exact ⟨b, rest, pb, rfl, hb, by omega, h1, h2, by simp [hb], rfl, rfl, rfl, rfl⟩
      · simp [hb] at h

theorem senderKey_round_trip (C : Crypto) (dist : DistId) (cid it : UInt32) (ct : Bytes) (hct : ct.length < 2 ^ 64)
    (k : PrivKey) (r : Bytes) (hr : 64 ≤ r.length) :
    ∃ m, newSenderKey C 3 dist cid it ct k r = (.ok m, r.drop 64) ∧ newSenderKeyFromBytes m.serialized = .ok m ∧
      m.version = 3 ∧ m.distID = dist ∧ m.chainID = cid ∧ m.iteration = it ∧ m.ciphertext = ct ∧
      m.verifySignature C (k.pub C) = .ok true := by
  obtain ⟨body, hbody⟩ : ∃ body, body = PBSenderKey.marshal { distributionUuid := some dist.string, chainId := some cid, iteration := some it, ciphertext := some ct } := ⟨_, rfl⟩
  obtain ⟨sig, hsig⟩ : ∃ sig, sig = C.sign k.key (r.take 64) (versionPrefix 3 :: body) := ⟨_, rfl⟩
  have hsl : sig.length = 64 := by rw [hsig]; exact C.sign_len _ _ _
  have hu := PBSenderKey.unmarshal_marshal { distributionUuid := some dist.string, chainId := some cid, iteration := some it, ciphertext := some ct }
    (by simp [DistId.string_length]) (by simpa using hct)
  rw [← hbody] at hu
  have hv : versionPrefix 3 >>> 4 = 3 := by decide
  refine ⟨{ version := 3, distID := dist, chainID := cid, iteration := it, ciphertext := ct,
            serialized := versionPrefix 3 :: body ++ sig }, ?_, ?_, rfl, rfl, rfl, rfl, rfl, ?_⟩
  · simp only [newSenderKey, PrivKey.sign, M.bind_run, readFull_ok 64 r hr, M.pure_run, ← hbody]
    simp [hsig]
  · have h1 : ¬ (versionPrefix 3 :: body ++ sig).length < 1 + 64 := by simp; omega
    have h2 : (body ++ sig).take ((body ++ sig).length - 64) = body := by rw [← hsl]; simp
    have h3 : ¬ (body ++ sig).length < 64 := by simp; omega
    simp only [newSenderKeyFromBytes, List.cons_append] at *
    simp only [h1, h3, if_false, hv, ne_eq, not_true_eq_false, h2, hu]
    simp [parseDistId_string]
  · have h1 : ¬ (versionPrefix 3 :: body ++ sig).length < 64 := by simp; omega
    have h2 : (versionPrefix 3 :: body ++ sig).take ((versionPrefix 3 :: body ++ sig).length - 64) = versionPrefix 3 :: body := by
      rw [← hsl]; simp only [List.length_append, Nat.add_sub_cancel]; simp
    have h3 : (versionPrefix 3 :: body ++ sig).drop ((versionPrefix 3 :: body ++ sig).length - 64) = sig := by
      rw [← hsl]; simp only [List.length_append, Nat.add_sub_cancel]; simp
    have h4 : C.verify (C.pub k.key) (versionPrefix 3 :: body) sig = some true := by
      rw [hsig]; exact C.verify_sign _ _ _ k.len k.clamped (by simp [hr])
    simp only [SenderKeyMsg.verifySignature, h1, if_false, h2, h3, PubKey.verifySignature, hsl, ne_eq, not_true_eq_false]
    simp [PrivKey.pub, h4]

theorem distribution_round_trip (dist : DistId) (cid it : UInt32) (ck : Bytes) (hck : ck.length = 32) (sk : PubKey) :
    newDistributionFromBytes (newDistribution 3 dist cid it ck sk).serialized = .ok (newDistribution 3 dist cid it ck sk) := by
  obtain ⟨body, hbody⟩ : ∃ body, body = PBDistribution.marshal { distributionUuid := some dist.string, chainId := some cid, iteration := some it, chainKey := some ck, signingKey := some sk.bytes } := ⟨_, rfl⟩
  have hu := PBDistribution.unmarshal_marshal { distributionUuid := some dist.string, chainId := some cid, iteration := some it, chainKey := some ck, signingKey := some sk.bytes }
    (by simp [DistId.string_length]) (by simp [hck]) (by simp)
  have hl : 68 ≤ body.length := by
    rw [hbody]
    simp only [PBDistribution.marshal, Wire.encFields, optLen, optVarint, List.cons_append, List.nil_append,
      List.map_cons, List.map_nil, List.flatten_cons, List.flatten_nil, Wire.encField, List.length_append,
      DistId.string_length, hck, PubKey.bytes_length]
    omega
  rw [← hbody] at hu
  have hv : versionPrefix 3 >>> 4 = 3 := by decide
  have h1 : ¬ (versionPrefix 3 :: body).length < 1 + 32 + 32 := by simp; omega
  simp only [newDistribution, ← hbody]
  simp only [newDistributionFromBytes, h1, if_false, hv, ne_eq, not_true_eq_false, hu, Res.bind_ok, Option.getD_some,
    parseDistId_string, hck, newPublicKey_bytes, Res.pure_eq]

theorem newDistributionFromBytes_ok {bytes : Bytes} {m : DistributionMsg} (h : newDistributionFromBytes bytes = .ok m) :
    ∃ b rest pb, bytes = b :: rest ∧ b >>> 4 = 3 ∧ 65 ≤ bytes.length ∧
      PBDistribution.unmarshal rest = .ok pb ∧ parseDistId (pb.distributionUuid.getD []) = .ok m.distID ∧
      newPublicKey (pb.signingKey.getD []) = .ok m.signingKey ∧ m.chainKey.length = 32 ∧
      m.version = b >>> 4 ∧ m.chainID = pb.chainId.getD 0 ∧ m.iteration = pb.iteration.getD 0 ∧
      m.chainKey = pb.chainKey.getD [] ∧ m.serialized = bytes := by
  unfold newDistributionFromBytes at h
  by_cases hl : bytes.length < 1 + 32 + 32
  · simp [hl] at h
  · simp only [hl, if_false] at h
    cases bytes with
    | nil => simp at h
    | cons b rest =>
      simp only at h
      by_cases hb : b >>> 4 = 3
      · simp only [hb, if_false, ne_eq, not_true_eq_false] at h
        rw [Res.bind_eq_ok] at h
        obtain ⟨pb, h1, h⟩ := h
        rw [Res.bind_eq_ok] at h
        obtain ⟨k, h2, h⟩ := h
        split at h
        · simp at h
        · rename_i h3
          rw [Res.bind_eq_ok] at h
          obtain ⟨k', h4, h⟩ := h
          simp only [Res.pure_eq, Res.ok.injEq] at h
          subst h
          exact ⟨b, rest, pb, rfl, hb, by omega, h1, h2, h4, by simpa using h3, by simp [hb], rfl, rfl, rfl, rfl⟩
      · simp [hb] at h

end Verif
