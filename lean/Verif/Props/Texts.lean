import Verif.Proofs.Texts
import Verif.Model.Storage
import Verif.Model.Fingerprint

/-!
# C125: what the message parsers accept, and what they ignore
-/

namespace Verif

open Wire Grammar

/-- **C125**. NewSignalFromBytes succeeds exactly on the texts of pairwise messages, with the contents they have. -/
theorem C125_signal (bytes : Bytes) (m : Signal) : newSignalFromBytes bytes = .ok m ↔ SignalText bytes m :=
  signalText_iff bytes m

/-- **C125** for NewPreKeyFromBytes. -/
theorem C125_preKey (bytes : Bytes) (m : PreKeyMsg) : newPreKeyFromBytes bytes = .ok m ↔ PreKeyText bytes m :=
  preKeyText_iff bytes m

/-- **C125** for NewSenderKeyFromBytes. -/
theorem C125_senderKey (bytes : Bytes) (m : SenderKeyMsg) : newSenderKeyFromBytes bytes = .ok m ↔ SenderKeyText bytes m :=
  senderKeyText_iff bytes m

/-- **C125** for NewSenderKeyDistributionFromBytes. -/
theorem C125_distribution (bytes : Bytes) (m : DistributionMsg) :
    newDistributionFromBytes bytes = .ok m ↔ DistributionText bytes m :=
  distributionText_iff bytes m

/-- C125: fields a later version may add to a pairwise message (numbers from 5) are ignored, wherever they stand. -/
theorem C125_signal_extra_fields (v : UInt8) (a x b mac : Bytes) (fa fx fb : List Field) (ha : Fields a fa)
    (hx : Fields x fx) (hb : Fields b fb) (hnew : ∀ f ∈ fx, 5 ≤ f.num) (hmac : mac.length = 8) (m : Signal)
    (h : newSignalFromBytes (v :: (a ++ b ++ mac)) = .ok m) :
    newSignalFromBytes (v :: (a ++ x ++ b ++ mac)) = .ok { m with serialized := v :: (a ++ x ++ b ++ mac) } := by
  rw [signalText_iff] at h ⊢
  obtain ⟨v', body, mac', fs, e, hv, hm, hf, hk, hc, hpc, hct, hver, hs⟩ := h
  simp only [List.cons.injEq] at e
  obtain ⟨rfl, e⟩ := e
  obtain ⟨rfl, rfl⟩ := List.append_inj' e (by omega)
  have := hf.unique (ha.append hb)
  subst this
  have hne : ∀ n, n < 5 → ∀ f ∈ fx, f.num ≠ n := fun n hn f hf => by have := hnew f hf; omega
  refine ⟨v, a ++ x ++ b, mac, fa ++ fx ++ fb, rfl, hv, hmac, (ha.append hx).append hb, ?_, ?_, ?_, ?_, hver, rfl⟩
  · rw [lastBytes_skip _ _ _ _ (hne 1 (by omega))]; exact hk
  · rw [lastNumber_skip _ _ _ _ (hne 2 (by omega))]; exact hc
  · rw [lastNumber_skip _ _ _ _ (hne 3 (by omega))]; exact hpc
  · rw [lastBytes_skip _ _ _ _ (hne 4 (by omega))]; exact hct

/-- C125: the same for group messages (numbers from 5). -/
theorem C125_senderKey_extra_fields (v : UInt8) (a x b sig : Bytes) (fa fx fb : List Field) (ha : Fields a fa)
    (hx : Fields x fx) (hb : Fields b fb) (hnew : ∀ f ∈ fx, 5 ≤ f.num) (hsig : sig.length = 64) (m : SenderKeyMsg)
    (h : newSenderKeyFromBytes (v :: (a ++ b ++ sig)) = .ok m) :
    newSenderKeyFromBytes (v :: (a ++ x ++ b ++ sig)) = .ok { m with serialized := v :: (a ++ x ++ b ++ sig) } := by
  rw [senderKeyText_iff] at h ⊢
  obtain ⟨v', body, sig', fs, text, e, hv, hm, hf, ht, hw, hc, hpc, hct, hver, hs⟩ := h
  simp only [List.cons.injEq] at e
  obtain ⟨rfl, e⟩ := e
  obtain ⟨rfl, rfl⟩ := List.append_inj' e (by omega)
  have := hf.unique (ha.append hb)
  subst this
  have hne : ∀ n, n < 5 → ∀ f ∈ fx, f.num ≠ n := fun n hn f hf => by have := hnew f hf; omega
  refine ⟨v, a ++ x ++ b, sig, fa ++ fx ++ fb, text, rfl, hv, hsig, (ha.append hx).append hb, ?_, hw, ?_, ?_, ?_, hver, rfl⟩
  · rw [lastBytes_skip _ _ _ _ (hne 1 (by omega))]; exact ht
  · rw [lastNumber_skip _ _ _ _ (hne 2 (by omega))]; exact hc
  · rw [lastNumber_skip _ _ _ _ (hne 3 (by omega))]; exact hpc
  · rw [lastBytes_skip _ _ _ _ (hne 4 (by omega))]; exact hct

/-- C125: the same for pre-key messages (numbers from 7). -/
theorem C125_preKey_extra_fields (v : UInt8) (a x b : Bytes) (fa fx fb : List Field) (ha : Fields a fa)
    (hx : Fields x fx) (hb : Fields b fb) (hnew : ∀ f ∈ fx, 7 ≤ f.num) (m : PreKeyMsg)
    (h : newPreKeyFromBytes (v :: (a ++ b)) = .ok m) :
    newPreKeyFromBytes (v :: (a ++ x ++ b)) = .ok { m with serialized := v :: (a ++ x ++ b) } := by
  rw [preKeyText_iff] at h ⊢
  obtain ⟨v', body, fs, text, e, hv, hf, hp, hk, hi, ht, hm, hr, hsp, hver, hs⟩ := h
  simp only [List.cons.injEq] at e
  obtain ⟨rfl, rfl⟩ := e
  have := hf.unique (ha.append hb)
  subst this
  have hne : ∀ n, n < 7 → ∀ f ∈ fx, f.num ≠ n := fun n hn f hf => by have := hnew f hf; omega
  refine ⟨v, a ++ x ++ b, fa ++ fx ++ fb, text, rfl, hv, (ha.append hx).append hb, ?_, ?_, ?_, ?_, hm, ?_, ?_, hver, rfl⟩
  · rw [lastNumber_skip _ _ _ _ (hne 1 (by omega))]; exact hp
  · rw [lastBytes_skip _ _ _ _ (hne 2 (by omega))]; exact hk
  · rw [lastBytes_skip _ _ _ _ (hne 3 (by omega))]; exact hi
  · rw [lastBytes_skip _ _ _ _ (hne 4 (by omega))]; exact ht
  · rw [lastNumber_skip _ _ _ _ (hne 5 (by omega))]; exact hr
  · rw [lastNumber_skip _ _ _ _ (hne 6 (by omega))]; exact hsp

/-- C125: the same for sender-key distribution messages (numbers from 6). -/
theorem C125_distribution_extra_fields (v : UInt8) (a x b : Bytes) (fa fx fb : List Field) (ha : Fields a fa)
    (hx : Fields x fx) (hb : Fields b fb) (hnew : ∀ f ∈ fx, 6 ≤ f.num) (m : DistributionMsg)
    (h : newDistributionFromBytes (v :: (a ++ b)) = .ok m) :
    newDistributionFromBytes (v :: (a ++ x ++ b)) = .ok { m with serialized := v :: (a ++ x ++ b) } := by
  rw [distributionText_iff] at h ⊢
  obtain ⟨v', body, fs, text, e, hl, hv, hf, ht, hw, hc, hpc, hct, hck, hsk, hver, hs⟩ := h
  simp only [List.cons.injEq] at e
  obtain ⟨rfl, rfl⟩ := e
  have := hf.unique (ha.append hb)
  subst this
  have hne : ∀ n, n < 6 → ∀ f ∈ fx, f.num ≠ n := fun n hn f hf => by have := hnew f hf; omega
  refine ⟨v, a ++ x ++ b, fa ++ fx ++ fb, text, rfl, ?_, hv, (ha.append hx).append hb, ?_, hw, ?_, ?_, ?_, hck, ?_, hver, rfl⟩
  · simp only [List.length_cons, List.length_append] at hl ⊢; omega
  · rw [lastBytes_skip _ _ _ _ (hne 1 (by omega))]; exact ht
  · rw [lastNumber_skip _ _ _ _ (hne 2 (by omega))]; exact hc
  · rw [lastNumber_skip _ _ _ _ (hne 3 (by omega))]; exact hpc
  · rw [lastBytes_skip _ _ _ _ (hne 4 (by omega))]; exact hct
  · rw [lastBytes_skip _ _ _ _ (hne 5 (by omega))]; exact hsk

/-- C125: fields a later version may add to a scanned fingerprint (numbers from 4) do not change the comparison. -/
theorem C125_scanned_extra_fields (s : Scannable) (a x b : Bytes) (fa fx fb : List Field) (ha : Fields a fa)
    (hx : Fields x fx) (hb : Fields b fb) (hnew : ∀ f ∈ fx, 4 ≤ f.num) :
    s.compare (a ++ x ++ b) = s.compare (a ++ b) := by
  have hskip : ∀ m : PBCombined, fx.foldlM PBCombined.field m = some m := by
    refine foldlM_skip _ _ fun m f hf => ?_
    have := hnew f hf
    unfold PBCombined.field
    split <;> simp_all
  have e : PBCombined.unmarshal (a ++ x ++ b) = PBCombined.unmarshal (a ++ b) := by
    unfold PBCombined.unmarshal
    rw [(parseFields_iff _ _).2 ((ha.append hx).append hb), (parseFields_iff _ _).2 (ha.append hb)]
    simp only [Option.bind_some, List.foldlM_append, bind_assoc]
    simp only [hskip, Option.bind_eq_bind, Option.bind_some]
  unfold Scannable.compare
  rw [e]

/-- C125: fields a later version may add to a stored session (numbers from 14) do not change what is loaded. -/
theorem C125_stored_extra_fields (a x b : Bytes) (fa fx fb : List Field) (ha : Fields a fa)
    (hx : Fields x fx) (hb : Fields b fb) (hnew : ∀ f ∈ fx, 14 ≤ f.num) :
    SState.unmarshal (a ++ x ++ b) = SState.unmarshal (a ++ b) := by
  have hskip : ∀ m : SState, fx.foldlM SState.field m = some m := by
    refine foldlM_skip _ _ fun m f hf => ?_
    have := hnew f hf
    unfold SState.field
    split <;> simp_all
  unfold SState.unmarshal SState.merge
  rw [(parseFields_iff _ _).2 ((ha.append hx).append hb), (parseFields_iff _ _).2 (ha.append hb)]
  simp only [Option.bind_some, List.foldlM_append, bind_assoc]
  simp only [hskip, Option.bind_eq_bind, Option.bind_some]

/-- C125: a message whose fields are cut off or garbled is an error, whatever the readable part says. -/
theorem C125_malformed (v : UInt8) (body trailer : Bytes) (hv : v.toNat / 16 = 3) (hbad : ∀ fs, ¬ Fields body fs) :
    (trailer.length = 8 → newSignalFromBytes (v :: (body ++ trailer)) = .err .proto) ∧
    (trailer.length = 64 → newSenderKeyFromBytes (v :: (body ++ trailer)) = .err .proto) ∧
    newPreKeyFromBytes (v :: body) = .err .proto ∧
    (64 ≤ body.length → newDistributionFromBytes (v :: body) = .err .proto) := by
  have hb := (u8_shift4 v).2 hv
  have hp : parseFields body = none := by
    cases h : parseFields body with
    | none => rfl
    | some fs => exact absurd ((parseFields_iff body fs).1 h) (hbad fs)
  refine ⟨fun h => ?_, fun h => ?_, ?_, fun h => ?_⟩
  · rw [← List.cons_append, newSignalFromBytes_eq v body trailer hb h]
    simp [PBSignal.unmarshal, hp, Res.ofOption]
  · have h1 : ¬ (v :: (body ++ trailer)).length < 1 + 64 := by simp; omega
    have h2 : ¬ (body ++ trailer).length < 64 := by simp; omega
    have h3 : (body ++ trailer).take ((body ++ trailer).length - 64) = body := by rw [← h]; simp
    simp only [newSenderKeyFromBytes, hb, ne_eq, not_true_eq_false, if_false, h1, h2, h3]
    simp [PBSenderKey.unmarshal, hp, Res.ofOption]
  · simp only [newPreKeyFromBytes, hb, ne_eq, not_true_eq_false, if_false]
    simp [PBPreKey.unmarshal, hp, Res.ofOption]
  · have h1 : ¬ (v :: body).length < 1 + 32 + 32 := by simp; omega
    simp only [newDistributionFromBytes, hb, ne_eq, not_true_eq_false, if_false, h1]
    simp [PBDistribution.unmarshal, hp, Res.ofOption]

/-! ## The hypotheses can be met -/

namespace Ex

/-- A ratchet key field, the counter twice, and the other fields. -/
def textFields : Bytes := [0x0a, 33, 5] ++ List.replicate 32 9 ++ [0x10, 7, 0x10, 0x88, 0x01, 0x22, 2, 1, 2]

/-- What a later version might add: a number, 8 bytes, a group with fields of every type and a group inside, 4 bytes. -/
def textExtra : Bytes :=
  [0x28, 0xff, 0x01] ++ [0x31, 1, 2, 3, 4, 5, 6, 7, 8] ++
    [0x3b, 0x08, 5, 0x09, 1, 2, 3, 4, 5, 6, 7, 8, 0x12, 1, 0xaa, 0x1b, 0x0d, 1, 2, 3, 4, 0x1c, 0x3c] ++ [0x45, 1, 2, 3, 4]

theorem textExtra_fields : Fields textExtra
    [⟨5, .varint 255⟩, ⟨6, .fixed64 [1, 2, 3, 4, 5, 6, 7, 8]⟩, ⟨7, .group⟩, ⟨8, .fixed32 [1, 2, 3, 4]⟩] :=
  (parseFields_iff _ _).1 (by decide +kernel)

theorem textFields_fields : Fields textFields
    [⟨1, .len (5 :: List.replicate 32 9)⟩, ⟨2, .varint 7⟩, ⟨2, .varint 136⟩, ⟨4, .len [1, 2]⟩] :=
  (parseFields_iff _ _).1 (by decide +kernel)

/-- The later counter counts, and the added fields change nothing. -/
example :
    newSignalFromBytes (0x33 :: (textFields ++ textExtra ++ [] ++ List.replicate 8 0)) =
      .ok ⟨3, ⟨List.replicate 32 9, by decide⟩, 0, 136, [1, 2], 0x33 :: (textFields ++ textExtra ++ [] ++ List.replicate 8 0)⟩ :=
  C125_signal_extra_fields 0x33 textFields textExtra [] (List.replicate 8 0) _ _ [] textFields_fields textExtra_fields .nil
    (by decide) (by decide)
    ⟨3, ⟨List.replicate 32 9, by decide⟩, 0, 136, [1, 2], 0x33 :: (textFields ++ [] ++ List.replicate 8 0)⟩ (by decide +kernel)

/-- A group whose end tag has another number, and 8 bytes of which one is missing, are malformed. -/
example : (∀ fs, ¬ Fields [0x3b, 0x44] fs) ∧ (∀ fs, ¬ Fields [0x31, 1, 2, 3, 4, 5, 6, 7] fs) :=
  ⟨fun fs h => by have := (parseFields_iff _ _).2 h; revert this; rw [show parseFields [0x3b, 0x44] = none by decide +kernel]; simp,
   fun fs h => by
    have := (parseFields_iff _ _).2 h
    rw [show parseFields [0x31, 1, 2, 3, 4, 5, 6, 7] = none by decide +kernel] at this
    cases this⟩

/-- The same fields added to a stored session, numbered from 14: here a number and an empty group. -/
example : SState.unmarshal ([0x08, 3] ++ [0x70, 1, 0x7b, 0x7c] ++ [0x50, 9]) = SState.unmarshal ([0x08, 3] ++ [0x50, 9]) :=
  C125_stored_extra_fields _ _ _ [⟨1, .varint 3⟩] [⟨14, .varint 1⟩, ⟨15, .group⟩] [⟨10, .varint 9⟩]
    ((parseFields_iff _ _).1 (by decide +kernel)) ((parseFields_iff _ _).1 (by decide +kernel))
    ((parseFields_iff _ _).1 (by decide +kernel)) (by decide)

end Ex

end Verif
