import Verif.Proofs.Cipher
import Verif.Proofs.GroupDelivery

/-!
# Sizes of messages and stored states
-/

namespace Verif

open Wire (Field encFields encField encVarint encVarintN)

theorem encVarintN_le (j : Nat) : ∀ (k n : Nat), n < 128 ^ (j + 1) → (encVarintN k n).length ≤ j + 1 := by
  induction j with
  | zero =>
    intro k n h
    cases k with
    | zero => simp [encVarintN]
    | succ k => simp [encVarintN, show n < 128 by simpa using h]
  | succ j ih =>
    intro k n h
    cases k with
    | zero => simp [encVarintN]
    | succ k =>
      unfold encVarintN
      split
      · simp
      · have : n / 128 < 128 ^ (j + 1) := by
          rw [Nat.pow_succ] at h
          exact Nat.div_lt_of_lt_mul (by rw [Nat.mul_comm]; exact h)
        have := ih k (n / 128) this
        simp only [List.length_cons]
        omega

theorem tag_le (n : Nat) (h : n < 128) : (encVarint n).length ≤ 1 := encVarintN_le 0 10 n (by simpa using h)
theorem u32_le (v : UInt32) : (encVarint v.toNat).length ≤ 5 :=
  encVarintN_le 4 10 _ (Nat.lt_of_lt_of_le v.toNat_lt (by decide))

theorem varintField_le (num : Nat) (v : UInt32) (hn : num < 16) : (encField ⟨num, .varint v.toNat⟩).length ≤ 6 := by
  have h1 := tag_le (num * 8 + 0) (by omega)
  have h2 := u32_le v
  simp only [encField, Wire.Val.wtype, List.length_append]
  omega

theorem lenField_le (num : Nat) (b : Bytes) (j : Nat) (hn : num < 16) (hb : b.length < 128 ^ (j + 1)) :
    (encField ⟨num, .len b⟩).length ≤ j + 2 + b.length := by
  have h1 := tag_le (num * 8 + 2) (by omega)
  have h2 : (encVarint b.length).length ≤ j + 1 := encVarintN_le j 10 _ hb
  simp only [encField, Wire.Val.wtype, List.length_append]
  omega

theorem nzVarint_le' (num : Nat) (v : UInt32) (hn : num < 16) : (encFields (nzVarint num v)).length ≤ 6 := by
  unfold nzVarint
  split
  · simp [encFields]
  · simpa [encFields] using varintField_le num v hn

theorem nzLen_le' (num : Nat) (b : Bytes) (j : Nat) (hn : num < 16) (hb : b.length < 128 ^ (j + 1)) :
    (encFields (nzLen num b)).length ≤ j + 2 + b.length := by
  unfold nzLen
  split
  · simp [encFields]
  · simpa [encFields] using lenField_le num b j hn hb

theorem nzInt32_le' (num : Nat) (v : Int32) (hn : num < 16) : (encFields (nzInt32 num v)).length ≤ 11 := by
  unfold nzInt32
  split
  · simp [encFields]
  · have h1 := tag_le (num * 8 + 0) (by omega)
    have h2 := encVarint_length (int32Varint v)
    simp only [encFields, List.map_cons, List.map_nil, List.flatten_cons, List.flatten_nil, List.append_nil, encField, Wire.Val.wtype, List.length_append]
    omega

theorem optMsg_le' (num : Nat) (v : Option Bytes) (j k : Nat) (hn : num < 16) (hk : k < 128 ^ (j + 1)) (h : ∀ b, v = some b → b.length ≤ k) :
    (encFields (optMsg num v)).length ≤ j + 2 + k := by
  cases v with
  | none => simp [optMsg, optLen, encFields]
  | some b =>
    have h0 := h b rfl
    have := lenField_le num b j hn (by omega)
    simp only [optMsg, optLen, encFields, List.map_cons, List.map_nil, List.flatten_cons, List.flatten_nil, List.append_nil]
    omega

theorem map_le' {α} (num : Nat) (l : List α) (g : α → Bytes) (j k : Nat) (hn : num < 16) (hk : k < 128 ^ (j + 1))
    (h : ∀ a ∈ l, (g a).length ≤ k) : (encFields (l.map fun a => (⟨num, .len (g a)⟩ : Field))).length ≤ l.length * (j + 2 + k) := by
  induction l with
  | nil => simp [encFields]
  | cons a l ih =>
    have h1 := ih (fun b hb => h b (by simp [hb]))
    have h3 := h a (by simp)
    have h2 := lenField_le num (g a) j hn (by omega)
    have e : encFields ((a :: l).map fun a => (⟨num, .len (g a)⟩ : Field)) =
      encField ⟨num, .len (g a)⟩ ++ encFields (l.map fun a => (⟨num, .len (g a)⟩ : Field)) := by simp [encFields]
    rw [e, List.length_append, List.length_cons, Nat.add_mul]
    omega

/-! ## Stored states -/

theorem PBMessageKey.marshal_le' (k : PBMessageKey) (h : k.cipherKey.length = 32 ∧ k.macKey.length = 32 ∧ k.iv.length = 16) :
    k.marshal.length ≤ 92 := by
  simp only [PBMessageKey.marshal, encFields_append, List.length_append]
  have h1 := nzVarint_le' 1 k.index (by omega)
  have h2 := nzLen_le' 2 k.cipherKey 0 (by omega) (by omega)
  have h3 := nzLen_le' 3 k.macKey 0 (by omega) (by omega)
  have h4 := nzLen_le' 4 k.iv 0 (by omega) (by omega)
  omega

theorem PBChainKey.marshal_le' (k : PBChainKey) (h : k.key.length = 32) : k.marshal.length ≤ 40 := by
  simp only [PBChainKey.marshal, encFields_append, List.length_append]
  have h1 := nzVarint_le' 1 k.index (by omega)
  have h2 := nzLen_le' 2 k.key 0 (by omega) (by omega)
  omega

theorem PBChain.marshal_le' (c : PBChain) (n : Nat) (h1 : c.senderRatchetKey.length ≤ 33) (h2 : c.senderRatchetKeyPrivate.length ≤ 32)
    (h3 : ∀ k, c.chainKey = some k → k.key.length = 32) (h4 : c.messageKeys.length ≤ n)
    (h5 : ∀ k ∈ c.messageKeys, k.cipherKey.length = 32 ∧ k.macKey.length = 32 ∧ k.iv.length = 16) :
    c.marshal.length ≤ 111 + 94 * n := by
  simp only [PBChain.marshal, encFields_append, List.length_append]
  have e1 := nzLen_le' 1 c.senderRatchetKey 0 (by omega) (by omega)
  have e2 := nzLen_le' 2 c.senderRatchetKeyPrivate 0 (by omega) (by omega)
  have e3 := optMsg_le' 3 (c.chainKey.map PBChainKey.marshal) 0 40 (by omega) (by decide) (by
    intro b hb
    cases hk : c.chainKey with
    | none => simp [hk] at hb
    | some k =>
      simp [hk] at hb
      subst hb
      exact PBChainKey.marshal_le' k (h3 k hk))
  have e4 := map_le' 4 c.messageKeys PBMessageKey.marshal 0 92 (by omega) (by decide) (fun k hk => PBMessageKey.marshal_le' k (h5 k hk))
  omega

/-- The size of a stored state, in terms of the skipped messages it remembers. -/
theorem SState.WF.marshal_le {s : SState} (h : s.WF) : s.marshal.length ≤ 941000 := by
  obtain ⟨lk, hlk⟩ := h.localId
  obtain ⟨rk, hrk⟩ := h.remoteId
  obtain ⟨bk, hbk⟩ := h.base
  have l1 : s.localIdentityPublic.length = 33 := by rw [hlk]; simp
  have l2 : s.remoteIdentityPublic.length = 33 := by rw [hrk]; simp
  have l3 : s.aliceBaseKey.length = 33 := by rw [hbk]; simp
  have l4 := h.root
  simp only [SState.marshal, encFields_append, List.length_append]
  have e1 := nzVarint_le' 1 s.sessionVersion (by omega)
  have e2 := nzLen_le' 2 s.localIdentityPublic 0 (by omega) (by omega)
  have e3 := nzLen_le' 3 s.remoteIdentityPublic 0 (by omega) (by omega)
  have e4 := nzLen_le' 4 s.rootKey 0 (by omega) (by omega)
  have e5 := nzVarint_le' 5 s.previousCounter (by omega)
  have e6 := optMsg_le' 6 (s.senderChain.map PBChain.marshal) 0 111 (by omega) (by decide) (by
    intro b hb
    obtain ⟨c, hc, ⟨k, hk⟩, ⟨q, hq⟩, ⟨ck, hck, hl⟩, hn⟩ := h.sender
    simp [hc] at hb
    subst hb
    refine PBChain.marshal_le' c 0 (by simp [hk]) (by simp [hq]) ?_ (by simp [hn]) (by simp [hn])
    intro k' hk'
    rw [hck] at hk'
    simp only [Option.some.injEq] at hk'
    subst hk'
    exact hl)
  have e7 := map_le' 7 s.receiverChains PBChain.marshal 2 188111 (by omega) (by decide) (by
    intro c hc
    have hw := h.chainWF c hc
    obtain ⟨k, hk⟩ := hw.ratchet
    obtain ⟨ck, hck, hl, _⟩ := hw.chain
    refine PBChain.marshal_le' c 2000 (by simp [hk]) (by simp [hw.noPriv]) ?_ (by have := hw.count; rw [maxMessageKeys_eq] at this; exact this) hw.sizes
    intro k' hk'
    rw [hck] at hk'
    simp only [Option.some.injEq] at hk'
    subst hk'
    exact hl)
  have e8 := optMsg_le' 9 (s.pendingPreKey.map PBPendingPreKey.marshal) 0 52 (by omega) (by decide) (by
    intro b hb
    cases hp : s.pendingPreKey with
    | none => simp [hp] at hb
    | some q =>
      obtain ⟨k, hk⟩ := h.pending q hp
      have a4 : q.baseKey.length = 33 := by rw [hk]; simp
      simp [hp] at hb
      subst hb
      simp only [PBPendingPreKey.marshal, encFields_append, List.length_append]
      have a1 := nzVarint_le' 1 q.preKeyId (by omega)
      have a2 := nzLen_le' 2 q.baseKey 0 (by omega) (by omega)
      have a3 := nzInt32_le' 3 q.signedPreKeyId (by omega)
      omega)
  have e9 := nzVarint_le' 10 s.remoteRegistrationId (by omega)
  have e10 := nzVarint_le' 11 s.localRegistrationId (by omega)
  have e11 := nzLen_le' 13 s.aliceBaseKey 0 (by omega) (by omega)
  have l5 : s.receiverChains.length ≤ 5 := h.chains
  omega

/-! ## Messages -/

theorem Wire.encField_len_congr (num : Nat) (a b : Bytes) (h : a.length = b.length) :
    (encField ⟨num, .len a⟩).length = (encField ⟨num, .len b⟩).length := by
  simp [encField, Wire.Val.wtype, h]

/-- The length of a Signal message is determined by that of its ciphertext, apart from the header fields. -/
theorem newSignal_len {C : Crypto} {v : UInt8} {mk : Bytes} {k : PubKey} {pc c : UInt32} {ct : Bytes} {snd rcv : PubKey} {m : Signal}
    (h : newSignal C v mk k pc c ct snd rcv = .ok m) :
    m.serialized.length = 9 + (PBSignal.marshal { ratchetKey := some k.bytes, counter := some c, previousCounter := some pc, ciphertext := some ct }).length := by
  unfold newSignal messageMac at h
  simp only at h
  split at h
  · simp at h
  · simp only [Res.bind_ok, Res.pure_eq, Res.ok.injEq] at h
    subst h
    simp [C.hmac_len]
    omega

theorem PBSignal.marshal_len_congr (k : PubKey) (c pc : UInt32) (ct ct' : Bytes) (h : ct.length = ct'.length) :
    (PBSignal.marshal { ratchetKey := some k.bytes, counter := some c, previousCounter := some pc, ciphertext := some ct }).length =
    (PBSignal.marshal { ratchetKey := some k.bytes, counter := some c, previousCounter := some pc, ciphertext := some ct' }).length := by
  have := Wire.encField_len_congr 4 ct ct' h
  simp [PBSignal.marshal, encFields, optLen, optVarint, this]

theorem PBSignal.marshal_le' (k : PubKey) (c pc : UInt32) (ct : Bytes) (hct : ct.length < 128 ^ 5) :
    (PBSignal.marshal { ratchetKey := some k.bytes, counter := some c, previousCounter := some pc, ciphertext := some ct }).length ≤ ct.length + 53 := by
  have h1 := lenField_le 1 k.bytes 0 (by omega) (by simp)
  have h2 := varintField_le 2 c (by omega)
  have h3 := varintField_le 3 pc (by omega)
  have h4 := lenField_le 4 ct 4 (by omega) (by simpa using hct)
  simp only [PBSignal.marshal, encFields, optLen, optVarint, List.cons_append, List.nil_append, List.map_cons, List.map_nil,
    List.flatten_cons, List.flatten_nil, List.length_append, List.length_nil]
  simp only [PubKey.bytes_length] at h1
  omega

theorem newPreKey_len_congr {v : UInt8} {r : UInt32} {pid : Option UInt32} {sid : UInt32} {b i : PubKey} {m m' : Signal}
    (h : m.serialized.length = m'.serialized.length) :
    (newPreKey v r pid sid b i m).serialized.length = (newPreKey v r pid sid b i m').serialized.length := by
  have := Wire.encField_len_congr 4 _ _ h
  simp [newPreKey, PBPreKey.marshal, encFields, optLen, optVarint, this]

theorem newPreKey_le {v : UInt8} {r : UInt32} {pid : Option UInt32} {sid : UInt32} {b i : PubKey} {m : Signal} (hm : m.serialized.length < 128 ^ 5) :
    (newPreKey v r pid sid b i m).serialized.length ≤ m.serialized.length + 95 := by
  have h2 := lenField_le 2 b.bytes 0 (by omega) (by simp)
  have h3 := lenField_le 3 i.bytes 0 (by omega) (by simp)
  have h4 := lenField_le 4 m.serialized 4 (by omega) (by simpa using hm)
  have h5 := varintField_le 5 r (by omega)
  have h6 := varintField_le 6 sid (by omega)
  have h1 : (encFields (optVarint 1 pid)).length ≤ 6 := by
    cases pid with
    | none => simp [optVarint, encFields]
    | some p => simpa [optVarint, encFields] using varintField_le 1 p (by omega)
  simp only [newPreKey, PBPreKey.marshal, encFields_append, List.length_append, List.length_cons]
  simp only [PubKey.bytes_length] at h2 h3
  generalize (encFields (optVarint 1 pid)).length = x at h1 ⊢
  simp only [encFields, optLen, optVarint, List.map_cons, List.map_nil, List.flatten_cons, List.flatten_nil, List.append_nil]
  omega

end Verif
