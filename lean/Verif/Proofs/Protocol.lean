import Verif.Spec.Protocol
import Verif.Model.Cipher
import Verif.Model.Group
import Verif.Proofs.Chains

/-!
The model's encodings and key derivations are those of `Verif.Spec.Protocol`.
-/

namespace Verif

open Wire (Field Val encFields encField encVarintN encVarint)

namespace Doc

theorem encVarintN_eq (k : Nat) : ∀ n, n < 128 ^ (k + 1) → encVarintN (k + 1) n = varint n := by
  induction k with
  | zero =>
    intro n hn
    rw [encVarintN, varint, if_pos (by omega), if_pos (by omega)]
  | succ k ih =>
    intro n hn
    rw [encVarintN, varint]
    by_cases h : n < 128
    · rw [if_pos h, if_pos h]
    · rw [if_neg h, if_neg h, ih]
      rw [Nat.pow_succ] at hn
      omega

theorem encVarint_eq {n : Nat} (h : n < 2 ^ 64) : encVarint n = varint n :=
  encVarintN_eq 9 n (Nat.lt_of_lt_of_le h (by decide))

theorem varint_small {n : Nat} (h : n < 128) : varint n = [UInt8.ofNat n] := by
  rw [varint, if_pos h]

theorem encField_number {i : Nat} (hi : i < 16) (v : UInt32) : encField ⟨i, .varint v.toNat⟩ = number i v := by
  have := v.toNat_lt
  simp only [encField, Val.wtype, number]
  rw [encVarint_eq (by omega), encVarint_eq (by omega), varint_small (by omega), show i * 8 + 0 = 8 * i by omega]
  rfl

theorem encField_bytes {i : Nat} (hi : i < 15) {b : Bytes} (hb : b.length < 2 ^ 64) : encField ⟨i, .len b⟩ = bytes i b := by
  simp only [encField, Val.wtype, bytes]
  rw [encVarint_eq (by omega), encVarint_eq hb, varint_small (by omega), show i * 8 + 2 = 8 * i + 2 by omega]
  rfl

theorem wireKey_eq (k : PubKey) : k.bytes = wireKey k := rfl

theorem ascii_messageKeys : messageKeysInfo = ascii "WhisperMessageKeys" := by decide +kernel
theorem ascii_root : rootInfo = ascii "WhisperRatchet" := by decide +kernel
theorem ascii_text : initRootInfo = ascii "WhisperText" := by decide +kernel
theorem ascii_group : groupInfo = ascii "WhisperGroup" := by decide +kernel

theorem encFields_eq (fs : List Field) : encFields fs = (fs.map encField).flatten := by
  simp [encFields, List.flatMap]

theorem marshal_signal (k : PubKey) (n p : UInt32) {ct : Bytes} (h : ct.length < 2 ^ 64) :
    PBSignal.marshal { ratchetKey := some k.bytes, counter := some n, previousCounter := some p, ciphertext := some ct } =
      bytes 1 (wireKey k) ++ number 2 n ++ number 3 p ++ bytes 4 ct := by
  simp only [PBSignal.marshal, optLen, optVarint, encFields_eq, List.cons_append, List.nil_append, List.map_cons, List.map_nil,
    List.flatten_cons, List.flatten_nil, List.append_nil]
  rw [encField_bytes (by omega) (by rw [PubKey.bytes_length]; omega), encField_number (by omega), encField_number (by omega), encField_bytes (by omega) h]
  simp only [List.append_assoc]
  rfl

theorem marshal_preKey (id : Option UInt32) (base identity : PubKey) {m : Bytes} (reg signed : UInt32) (h : m.length < 2 ^ 64) :
    PBPreKey.marshal { preKeyId := id, baseKey := some base.bytes, identityKey := some identity.bytes, message := some m, registrationId := some reg, signedPreKeyId := some signed } =
      (match id with | some id => number 1 id | none => []) ++ bytes 2 (wireKey base) ++ bytes 3 (wireKey identity) ++ bytes 4 m ++ number 5 reg ++ number 6 signed := by
  cases id <;>
  simp only [PBPreKey.marshal, optLen, optVarint, encFields_eq, List.cons_append, List.nil_append, List.map_cons, List.map_nil,
    List.flatten_cons, List.flatten_nil, List.append_nil] <;>
  rw [encField_bytes (by omega) (by rw [PubKey.bytes_length]; omega), encField_bytes (by omega) (by rw [PubKey.bytes_length]; omega),
    encField_bytes (by omega) h, encField_number (by omega), encField_number (by omega)] <;>
  simp only [List.append_assoc]
  · rfl
  · rw [encField_number (by omega)]; rfl

/-! ## Symmetric encryption -/

theorem chain_eq (C : Crypto) (key : Bytes) : ∀ (n : Nat) (iv pt : Bytes),
    cbcEncBlocks C key n iv pt = chain C key iv ((List.range n).map fun i => (pt.drop (16 * i)).take 16) := by
  intro n
  induction n with
  | zero => intro iv pt; rfl
  | succ n ih =>
    intro iv pt
    rw [List.range_succ_eq_map, List.map_cons, List.map_map, cbcEncBlocks, chain, ih]
    simp only [Nat.mul_zero, List.drop_zero, List.drop_drop]
    congr 3
    funext i
    simp only [Function.comp_apply]
    rw [Nat.mul_succ, Nat.add_comm]

theorem cbc_eq (C : Crypto) {key iv : Bytes} (pt : Bytes) (hk : key.length = 32) (hi : iv.length = 16) :
    cbcEncrypt C key iv pt = .ok (aesCbc C key iv pt) := by
  have hk' : ¬ aesKeyOk key = false := by simp [aesKeyOk, hk]
  simp only [cbcEncrypt, if_neg hk', hi, ne_eq, not_true_eq_false, if_false]
  rw [chain_eq]
  rfl

theorem aesCbc_length (C : Crypto) {key iv : Bytes} (pt : Bytes) (hk : key.length = 32) (hi : iv.length = 16) :
    (aesCbc C key iv pt).length = 16 * (pt.length / 16 + 1) := by
  obtain ⟨c, h1, h2⟩ := cbcEncrypt_ok C key iv pt (by simp [aesKeyOk, hk]) hi
  rw [cbc_eq C pt hk hi] at h1
  simp only [Res.ok.injEq] at h1
  rw [h1, h2]

/-! ## Key schedule -/

theorem chainKey_eq (C : Crypto) (ck : ChainKey) (n : Nat) : (chainIter C ck n).key = chainKey C ck.key n := by
  induction n with
  | zero => rfl
  | succ n ih => rw [chainIter, chainKey, ← ih]; rfl

theorem messageKeys_eq (C : Crypto) (ck : ChainKey) (n : Nat) :
    let s := messageSecrets C ck.key n
    (chainIter C ck n).messageKeys C = ⟨s.take 32, (s.drop 32).take 32, s.drop 64, (chainIter C ck n).index⟩ := by
  simp only [ChainKey.messageKeys, deriveMessageKeys, messageSecrets, chainHash, chainKey_eq, ascii_messageKeys]

theorem agree_eq {C : Crypto} {a : KeyPair} {q : PubKey} {s : Bytes} (h : a.priv.agreement C q = .ok s) : agree C a q = s := by
  cases hd : C.dh a.priv.key q.keyBytes with
  | none => simp [PrivKey.agreement, hd, Res.ofOption] at h
  | some t =>
    simp only [PrivKey.agreement, hd, Res.ofOption, Res.ok.injEq] at h
    show (C.dh a.priv.key q.keyBytes).getD [] = s
    rw [hd]
    exact h

theorem createChain_derive {C : Crypto} {r r' : RootKey} {a : KeyPair} {q : PubKey} {ck : ChainKey} (h : r.createChain C a.priv q = .ok (r', ck)) :
    derive C (agree C a q) r.key (ascii "WhisperRatchet") = ⟨r'.key, ck.key⟩ := by
  rw [createChain_eq] at h
  cases hd : C.dh a.priv.key q.keyBytes with
  | none => simp [PrivKey.agreement, hd, Res.ofOption] at h
  | some s =>
    simp only [PrivKey.agreement, hd, Res.ofOption, Res.bind_ok, Res.ok.injEq, Prod.mk.injEq] at h
    have ha : agree C a q = s := by
      show (C.dh a.priv.key q.keyBytes).getD [] = s
      rw [hd]; rfl
    rw [← h.1, ← h.2, ha, ← ascii_root]
    rfl

/-! ## Messages -/

/-- The bytes of a message made by `newSignal` with the `n`-th key of a chain. -/
theorem newSignal_bytes {C : Crypto} {ck : ChainKey} {n : Nat} {k lk rk : PubKey} {p : UInt32} {pt ct : Bytes} {m : Signal} (hz : ck.index = 0) (hn : n < 4294967296)
    (hpt : pt.length < 2 ^ 62)
    (hc : cbcEncrypt C ((chainIter C ck n).messageKeys C).cipherKey ((chainIter C ck n).messageKeys C).iv pt = .ok ct)
    (hm : newSignal C 3 ((chainIter C ck n).messageKeys C).macKey k p (chainIter C ck n).index ct lk rk = .ok m) :
    m.serialized = signalMessage C ck.key k (UInt32.ofNat n) p lk rk pt := by
  have l1 := messageKeys_cipherKey_len C (chainIter C ck n)
  have l2 := messageKeys_iv_len C (chainIter C ck n)
  have l3 := messageKeys_macKey_len C (chainIter C ck n)
  have hidx : (chainIter C ck n).index = UInt32.ofNat n := by
    have : (chainIter C ck n).index.toNat = n := by rw [chainIter_toNat _ _ _ (by rw [hz]; simpa using hn), hz]; simp
    conv => rhs; rw [← this, UInt32.ofNat_toNat]
  have hto : (UInt32.ofNat n).toNat = n := UInt32.toNat_ofNat_of_lt' hn
  rw [cbc_eq C pt l1 l2] at hc
  simp only [Res.ok.injEq] at hc
  have hl := aesCbc_length C pt l1 l2
  rw [hc] at hl
  simp only [newSignal, messageMac, l3, ne_eq, not_true_eq_false, if_false, Res.bind_ok] at hm
  rw [marshal_signal k _ p (by omega)] at hm
  simp only [Res.pure_eq, Res.ok.injEq] at hm
  rw [← hm]
  simp only [signalMessage, hto, hidx]
  rw [← hc]
  have hs := messageKeys_eq C ck n
  simp only at hs
  simp only [hs, wireKey_eq, show versionPrefix 3 = version from by decide]

theorem newPreKey_bytes (reg : UInt32) (id : Option UInt32) (signed : UInt32) (base identity : PubKey) (m : Signal) (h : m.serialized.length < 2 ^ 64) :
    (newPreKey 3 reg id signed base identity m).serialized = preKeyMessage reg id signed base identity m.serialized := by
  simp only [newPreKey, preKeyMessage]
  rw [marshal_preKey _ _ _ _ _ h]
  rfl

end Doc

end Verif
