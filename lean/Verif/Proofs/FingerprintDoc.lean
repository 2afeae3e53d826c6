import Verif.Proofs.Protocol
import Verif.Proofs.Fingerprint

/-!
Safety numbers are those of `Verif.Spec.Protocol`.
-/

namespace Verif.Doc

open Wire (Field Val encFields encField encVarintN encVarint)

theorem fingerprintLoop_eq (C : Crypto) (key : PubKey) (id : Bytes) (n m : Nat) :
    fingerprintLoop C key.bytes n (fingerprint C key id m) = fingerprint C key id (m + n) := by
  induction n generalizing m with
  | zero => rfl
  | succ n ih =>
    rw [fingerprintLoop, show m + (n + 1) = (m + 1) + n by omega, ← ih]
    rfl

theorem fingerprintOf_eq {C : Crypto} {it : UInt32} {id : Bytes} {key : PubKey} (h : 1 < it.toNat ∧ it.toNat ≤ 1000000) :
    fingerprintOf C it id key = .ok (fingerprint C key id it.toNat) := by
  have h1 : ¬ (it ≤ 1 ∨ it > 1000000) := by
    simp only [UInt32.le_iff_toNat_le, GT.gt, UInt32.lt_iff_toNat_lt]
    have e1 : (1 : UInt32).toNat = 1 := rfl
    have e2 : (1000000 : UInt32).toNat = 1000000 := rfl
    omega
  rw [fingerprintOf, if_neg h1]
  simp only [Res.ok.injEq]
  have := fingerprintLoop_eq C key id (it.toNat - 1) 1
  rw [show 1 + (it.toNat - 1) = it.toNat by omega] at this
  rw [← this]
  rfl

theorem foldl_bigEndian (bs : Bytes) (a : Nat) : bs.foldl (fun a b => a * 256 + b.toNat) a = a * 256 ^ bs.length + bigEndian bs := by
  induction bs generalizing a with
  | nil => simp [bigEndian]
  | cons b bs ih =>
    rw [List.foldl_cons, ih, bigEndian, List.length_cons, Nat.pow_succ, Nat.add_mul, Nat.mul_assoc, Nat.mul_comm 256, Nat.add_assoc]

theorem beNat_eq (bs : Bytes) : beNat bs = bigEndian bs := by
  rw [beNat, foldl_bigEndian, Nat.zero_mul, Nat.zero_add]

theorem digitChar_eq (n : Nat) (h : n < 10) : digitChar n = (ascii "0123456789").getD n 0 := by
  have : ∀ n : Fin 10, digitChar n.1 = (ascii "0123456789").getD n.1 0 := by decide +kernel
  exact this ⟨n, h⟩

theorem encodeChunk_eq (c : Bytes) : encodeChunk c = fiveDigits (bigEndian c % 100000) := by
  rw [encodeChunk, chunkValue, beNat_eq]
  simp only [digitsN, fiveDigits, List.map_cons, List.map_nil, List.nil_append, List.cons_append]
  simp only [← digitChar_eq _ (Nat.mod_lt _ (by omega : 0 < 10)), Nat.div_div_eq_div_mul, Nat.div_one, Nat.reduceMul]

theorem encodeFingerprint_eq {b : Bytes} (h : 30 ≤ b.length) : encodeFingerprint b = .ok (digits b) := by
  rw [encodeFingerprint_run b h]
  simp only [encodeChunk_eq, digits, List.range, List.range.loop, List.flatMap_cons, List.flatMap_nil, List.append_nil, List.append_assoc,
    Nat.mul_zero, List.drop_zero, Nat.reduceMul]

theorem strLt_iff (a b : Bytes) : strLt a b = true ↔ a < b := by
  induction a generalizing b with
  | nil => cases b <;> simp [strLt]
  | cons x xs ih =>
    cases b with
    | nil => simp [strLt]
    | cons y ys =>
      rw [strLt, List.cons_lt_cons_iff, ← ih]
      by_cases h1 : x < y
      · simp [h1]
      · by_cases h2 : y < x
        · have : x ≠ y := by rintro rfl; exact h1 h2
          simp [h1, h2, this]
        · have : x = y := by
            apply UInt8.toNat_inj.mp
            rw [UInt8.lt_iff_toNat_lt] at h1 h2
            omega
          simp [h2, this]

theorem string_eq (l r : Bytes) : Displayable.string ⟨digits l, digits r⟩ = displayed l r := by
  simp only [Displayable.string, displayed]
  by_cases h : strLt (digits r) (digits l) = true
  · rw [if_neg (by rw [strLt_asymm _ _ h]; simp), if_neg (by rw [List.not_le]; exact (strLt_iff _ _).mp h)]
  · have hle : digits l ≤ digits r := by rw [← List.not_lt, ← strLt_iff]; exact h
    rw [if_pos hle]
    by_cases h' : strLt (digits l) (digits r) = true
    · rw [if_pos h']
    · rw [if_neg h', strLt_total (digits l) (digits r) (by simpa using h') (by simpa using h)]

theorem scannable_eq (v : UInt32) {l r : Bytes} (hl : l.length = 64) (hr : r.length = 64) : Scannable.bytes ⟨v, l.take 32, r.take 32⟩ = scanned v l r := by
  have e : ∀ b : Bytes, b.length = 64 → marshalLogical (some (b.take 32)) = bytes 1 (b.take 32) := by
    intro b hb
    simp only [marshalLogical, optLen, encFields_eq, List.map_cons, List.map_nil, List.flatten_cons, List.flatten_nil, List.append_nil]
    rw [encField_bytes (by omega) (by rw [List.length_take]; omega)]
  have el : ∀ b : Bytes, b.length = 64 → (bytes 1 (b.take 32)).length < 2 ^ 64 := by
    intro b hb
    have hlen : (b.take 32).length = 32 := by rw [List.length_take]; omega
    rw [bytes, hlen, varint_small (by omega)]
    simp only [List.length_cons, List.length_append, List.length_nil, hlen]
    omega
  simp only [Scannable.bytes, PBCombined.marshal, optVarint, optMsg, optLen, Option.map_some, encFields_eq, List.cons_append, List.nil_append, List.map_cons, List.map_nil,
    List.flatten_cons, List.flatten_nil, List.append_nil, scanned]
  rw [e l hl, e r hr, encField_number (by omega), encField_bytes (by omega) (el l hl), encField_bytes (by omega) (el r hr)]
  simp only [List.append_assoc]

theorem newFingerprint_conforms {C : Crypto} {v it : UInt32} {lid rid : Bytes} {lk rk : PubKey} {f : Fingerprint}
    (h : newFingerprint C v it lid lk rid rk = .ok f) :
    f.displayable.string = displayed (fingerprint C lk lid it.toNat) (fingerprint C rk rid it.toNat) ∧
    f.scannable.bytes = scanned v (fingerprint C lk lid it.toNat) (fingerprint C rk rid it.toNat) := by
  by_cases hi : 1 < it.toNat ∧ it.toNat ≤ 1000000
  · obtain ⟨fl, fr, el, er, h1, h2, h3, h4, l1, l2, h5⟩ := newFingerprint_ok C v it lid lk rid rk hi
    rw [fingerprintOf_eq hi] at h1 h2
    rw [encodeFingerprint_eq (by omega)] at h3 h4
    simp only [Res.ok.injEq] at h1 h2 h3 h4
    subst h1 h2 h3 h4
    rw [h5] at h
    simp only [Res.ok.injEq] at h
    subst h
    exact ⟨string_eq _ _, scannable_eq v l1 l2⟩
  · simp [newFingerprint, fingerprintOf_err C it lid lk hi] at h

end Verif.Doc
