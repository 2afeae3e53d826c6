import Verif.Spec.GroupReading
import Verif.Proofs.Reading
import Verif.Proofs.GroupWire

/-!
The sender-key messages that a group session reads.
-/

namespace Verif

open Doc

theorem sk_secrets (C : Crypto) (ck : SKChainKey) (d : Nat) :
    ((skIter C ck d).messageKey C).cipherKey = (groupSecrets C ck.seed d).drop 16 ∧
      ((skIter C ck d).messageKey C).iv = (groupSecrets C ck.seed d).take 16 := by
  obtain ⟨first, i⟩ := ck
  constructor <;> simp only [SKChainKey.messageKey, deriveSKMessageKey, groupSecrets, chainHash, skIter_seed, ascii_group]

theorem GTaken.secrets {C : Crypto} {s s' : GState} {n : UInt32} {mk : SKMessageKey} (h : GTaken C s n mk s') :
    ∃ secrets, s.Secrets C n secrets ∧ mk.cipherKey = secrets.drop 16 ∧ mk.iv = secrets.take 16 ∧ secrets.length = 48 := by
  cases h with
  | stored hlt k hk =>
    obtain ⟨h1, before, after, h2, h3⟩ := List.find?_eq_some_iff_append.mp hk
    simp only [decide_eq_true_eq, Bool.not_eq_eq_eq_not, Bool.not_true, decide_eq_false_iff_not] at h1 h3
    refine ⟨_, .stored before after k h2 h1 h3 hlt, ?_, ?_, C.hkdf_len ..⟩ <;> simp only [deriveSKMessageKey, ascii_group]
  | ahead d hd hj =>
    have e : n.toNat - s.chainKey.iteration.toNat = d := by omega
    obtain ⟨e1, e2⟩ := sk_secrets C s.chainKey d
    refine ⟨_, .ahead (by omega) (by omega), ?_, ?_, ?_⟩
    · rw [e]; exact e1
    · rw [e]; exact e2
    · simp only [groupSecrets, C.hkdf_len]

theorem GState.Secrets.taken {C : Crypto} {s : GState} (hs : s.WF) {n : UInt32} {secrets : Bytes} (h : s.Secrets C n secrets) :
    ∃ mk s', groupMessageKey C s n = .ok (mk, s') ∧ mk.cipherKey = secrets.drop 16 ∧ mk.iv = secrets.take 16 ∧ secrets.length = 48 := by
  have hc := groupMessageKey_cases C s hs.keys n
  generalize groupMessageKey C s n = x at hc ⊢
  cases h with
  | stored before after k h1 h2 h3 h4 =>
    have hmem : k ∈ s.messageKeys := by rw [h1]; simp
    cases hc with
    | duplicate _ hno => exact absurd h2 (hno k hmem)
    | far hf => omega
    | taken mk s' ht =>
      refine ⟨mk, s', rfl, ?_⟩
      cases ht with
      | ahead d hd => omega
      | stored _ k' hk' =>
        have : s.messageKeys.find? (fun k => k.iteration = n) = some k :=
          List.find?_eq_some_iff_append.mpr ⟨by simpa using h2, before, after, h1, by simpa using h3⟩
        rw [hk'] at this
        simp only [Option.some.injEq] at this
        subst this
        exact ⟨by simp only [deriveSKMessageKey, ascii_group], by simp only [deriveSKMessageKey, ascii_group], C.hkdf_len ..⟩
  | ahead h1 h2 =>
    cases hc with
    | duplicate hlt _ => omega
    | far hf => omega
    | taken mk s' ht =>
      refine ⟨mk, s', rfl, ?_⟩
      cases ht with
      | stored hlt => omega
      | ahead d hd hj =>
        have e : n.toNat - s.chainKey.iteration.toNat = d := by omega
        obtain ⟨e1, e2⟩ := sk_secrets C s.chainKey d
        rw [e]
        exact ⟨e1, e2, by simp only [groupSecrets, C.hkdf_len]⟩

theorem verifySignature_iff (C : Crypto) (m : SenderKeyMsg) (k : PubKey) :
    m.verifySignature C k = .ok true ↔ ∃ body sig, m.serialized = body ++ sig ∧ sig.length = 64 ∧ C.verify k.key body sig = some true := by
  unfold SenderKeyMsg.verifySignature PubKey.verifySignature
  constructor
  · intro h
    split at h
    · simp at h
    rename_i hl
    refine ⟨m.serialized.take (m.serialized.length - 64), m.serialized.drop (m.serialized.length - 64), (List.take_append_drop ..).symm,
      by rw [List.length_drop]; omega, ?_⟩
    rw [if_neg (by rw [List.length_drop]; omega)] at h
    simp only [List.flatten_cons, List.flatten_nil, List.append_nil] at h
    cases hv : C.verify k.key (m.serialized.take (m.serialized.length - 64)) (m.serialized.drop (m.serialized.length - 64)) with
    | none => simp [hv, Res.ofOption] at h
    | some b => simpa [hv, Res.ofOption] using h
  · rintro ⟨body, sig, h1, h2, h3⟩
    have hl : m.serialized.length = body.length + 64 := by rw [h1, List.length_append, h2]
    rw [if_neg (by omega)]
    simp only
    have e : m.serialized.length - 64 = body.length := by omega
    have e1 : m.serialized.drop body.length = sig := by rw [h1]; simp
    have e2 : m.serialized.take body.length = body := by rw [h1]; simp
    rw [e, e1, e2, if_neg (by omega)]
    simp [h3, Res.ofOption]

theorem GAccepted.canRead {C : Crypto} {w : GWorld} {a : Address} {m : SenderKeyMsg} {g : GRecord} {s s' : GState} {k : PubKey}
    {mk : SKMessageKey} (h : GAccepted C w a m g s k mk s') (hs : s.WF) {p : Bytes} (hp : cbcDecrypt C mk.cipherKey mk.iv m.ciphertext = .ok p) :
    s.CanRead C m p := by
  obtain ⟨k', hk', hpk⟩ := hs.publicKey
  obtain ⟨secrets, h1, h2, h3, h4⟩ := (h.gtaken hs).secrets
  have hkk : k' = k := by
    have := h.key
    rw [hpk] at this
    simpa using this
  subst hkk
  refine ⟨(GRecord.stateForChainID_some h.state).2, h.version, ?_, ?_⟩
  · obtain ⟨body, sig, e1, e2, e3⟩ := (verifySignature_iff C m k').mp h.signed
    exact ⟨k', body, sig, hk', e1, e2, e3⟩
  · rw [h2, h3] at hp
    obtain ⟨padded, e1, e2⟩ := (cbcDecrypt_iff C m.ciphertext p (aesKeyOk_32 (by simp [h4])) (by simp [h4])).mp hp
    exact ⟨secrets, padded, h1, e1, e2⟩

theorem GState.CanRead.run {C : Crypto} {al : Bool} {w : GWorld} (hf : w.faults = []) {a : Address} {m : SenderKeyMsg} {g : GRecord} {s : GState}
    (hg : g.WF) (hr : w.records (a, m.distID) = some g) (hs : s ∈ g) {p : Bytes} (h : s.CanRead C m p) :
    (groupDecrypt C al a m w).1 = .ok p := by
  have hw := hg.states s hs
  obtain ⟨key, body, sig, h1, h2, h3, h4⟩ := h.signed
  obtain ⟨secrets, padded, h5, h6, h7⟩ := h.text
  obtain ⟨mk, s', h8, h9, h10, h11⟩ := h5.taken hw
  have hkey : s.publicSigningKey = .ok key := by
    obtain ⟨k', hk', hpk⟩ := hw.publicKey
    rw [hpk, PubKey.bytes_inj (hk'.symm.trans h1)]
  have hfind : g.stateForChainID m.chainID = some s := by rw [← h.chain]; exact hg.stateForChainID hs
  have hsig := (verifySignature_iff C m key).mpr ⟨body, sig, h2, h3, h4⟩
  have hrun := groupDecrypt_run C al a m w hf g s key hr hfind h.version hkey hsig
  rw [hrun.2 mk s' p h8 (by
    rw [h9, h10]
    exact (cbcDecrypt_iff C m.ciphertext p (aesKeyOk_32 (by simp [h11])) (by simp [h11])).mpr ⟨padded, h6, h7⟩)]

theorem GReachable.call {E : GEnv} {w : GWorld} (h : GReachable E w) (c : GCall) : GReachable E (c.run E w).2 := by
  obtain ⟨w0, cs, rd, srd, fs, h0, rfl⟩ := h
  have happ : ∀ (cs : List GCall) (w : GWorld), gAfter E (cs ++ [c]) w = (c.run E (gAfter E cs w)).2 := by
    intro cs
    induction cs with
    | nil => intro w; rfl
    | cons x cs ih => intro w; exact ih _
  refine ⟨w0, cs ++ [c], (c.run E (gAfter E cs w0)).2.rand, (c.run E (gAfter E cs w0)).2.sysRand, (c.run E (gAfter E cs w0)).2.faults, h0, ?_⟩
  rw [happ]
  rfl

theorem GReachable.decrypt {E : GEnv} {w : GWorld} (h : GReachable E w) (a : Address) (m : SenderKeyMsg) :
    GReachable E (groupDecrypt E.C E.aliased a m w).2 := h.call ⟨.decrypt a m, w.rand, w.sysRand, w.faults⟩

end Verif
