import Verif.Spec.Texts
import Verif.Proofs.FieldValues
import Verif.Proofs.Ids

/-! # The message parsers accept exactly the texts of the specification -/

namespace Verif

open Wire Grammar

theorem unmarshal_iff {α} (f : List Field → α) (bs : Bytes) (x : α) :
    Res.ofOption .proto ((parseFields bs).map f) = .ok x ↔ ∃ fs, Fields bs fs ∧ x = f fs := by
  cases h : parseFields bs with
  | none =>
    simp only [Option.map_none, Res.ofOption]
    constructor
    · intro h'; cases h'
    · rintro ⟨fs, hf, _⟩
      rw [(parseFields_iff bs fs).2 hf] at h
      cases h
  | some fs =>
    simp only [Option.map_some, Res.ofOption, Res.ok.injEq]
    constructor
    · rintro rfl; exact ⟨fs, (parseFields_iff bs fs).1 h, rfl⟩
    · rintro ⟨gs, hg, rfl⟩
      rw [(parseFields_iff bs gs).2 hg] at h
      cases h
      rfl

theorem keyText_iff (o : Option Bytes) (k : PubKey) : newPublicKey (o.getD []) = .ok k ↔ KeyText o k := by
  rw [newPublicKey_ok_iff]
  unfold KeyText PubKey.bytes
  cases o with
  | none => simp
  | some b => simp

theorem writes_ne_nil {d : DistId} {t : Bytes} (h : Writes d t) : t ≠ [] := by
  rintro rfl
  have := (parseDistId_iff [] d).2 h
  simp [parseDistId, Res.ofOption] at this

theorem idText_iff (o : Option Bytes) (d : DistId) :
    parseDistId (o.getD []) = .ok d ↔ ∃ text, o = some text ∧ Writes d text := by
  rw [parseDistId_iff]
  cases o with
  | none =>
    refine ⟨fun h => absurd rfl (writes_ne_nil h), ?_⟩
    rintro ⟨_, h, _⟩; cases h
  | some b => simp

theorem signalText_iff (bytes : Bytes) (m : Signal) : newSignalFromBytes bytes = .ok m ↔ SignalText bytes m := by
  constructor
  · intro h
    obtain ⟨b, rest, pb, rfl, hb, hl, hu, hk, hv, hpc, hc, hct, hs⟩ := newSignalFromBytes_ok h
    simp only [List.length_cons] at hl
    unfold PBSignal.unmarshal at hu
    rw [unmarshal_iff] at hu
    obtain ⟨fs, hf, rfl⟩ := hu
    rw [PBSignal.fold_eq] at hk hpc hc hct
    simp only [Option.or_none] at hk hpc hc hct
    refine ⟨b, rest.take (rest.length - 8), rest.drop (rest.length - 8), fs, by simp, (u8_shift4 b).1 hb,
      by simp; omega, hf, (keyText_iff _ _).1 hk, hc, hpc, hct, by rw [hv, hb], hs⟩
  · rintro ⟨v, body, mac, fs, rfl, hv, hm, hf, hk, hc, hpc, hct, hver, hs⟩
    rw [← List.cons_append, newSignalFromBytes_eq v body mac ((u8_shift4 v).2 hv) hm]
    have hu : PBSignal.unmarshal body = .ok (fs.foldl PBSignal.field {}) := by
      unfold PBSignal.unmarshal
      rw [unmarshal_iff]
      exact ⟨fs, hf, rfl⟩
    rw [hu, PBSignal.fold_eq]
    simp only [Res.bind_ok, Option.or_none]
    rw [(keyText_iff _ _).2 hk]
    obtain ⟨a1, a2, a3, a4, a5, a6⟩ := m
    simp only at hc hpc hct hver hs
    subst hc hpc hct hver hs
    rfl

theorem preKeyText_iff (bytes : Bytes) (m : PreKeyMsg) : newPreKeyFromBytes bytes = .ok m ↔ PreKeyText bytes m := by
  constructor
  · intro h
    obtain ⟨b, rest, pb, rfl, hb, hu, hk, hi, hm, hv, hr, hp, hsp, hs⟩ := newPreKeyFromBytes_ok h
    unfold PBPreKey.unmarshal at hu
    rw [unmarshal_iff] at hu
    obtain ⟨fs, hf, rfl⟩ := hu
    rw [PBPreKey.fold_eq] at hk hi hm hr hp hsp
    simp only [Option.or_none] at hk hi hm hr hp hsp
    cases ht : lastBytes 4 fs with
    | none => rw [ht] at hm; simp [newSignalFromBytes] at hm
    | some text =>
      rw [ht] at hm
      exact ⟨b, rest, fs, text, rfl, (u8_shift4 b).1 hb, hf, hp, (keyText_iff _ _).1 hk, (keyText_iff _ _).1 hi, ht,
        (signalText_iff _ _).1 hm, hr, hsp, by rw [hv, hb], hs⟩
  · rintro ⟨v, body, fs, text, rfl, hv, hf, hp, hk, hi, ht, hm, hr, hsp, hver, hs⟩
    have hb := (u8_shift4 v).2 hv
    have hu : PBPreKey.unmarshal body = .ok (fs.foldl PBPreKey.field {}) := by
      unfold PBPreKey.unmarshal
      rw [unmarshal_iff]
      exact ⟨fs, hf, rfl⟩
    simp only [newPreKeyFromBytes, hb, ne_eq, not_true_eq_false, if_false]
    rw [hu, PBPreKey.fold_eq]
    simp only [Res.bind_ok, Option.or_none]
    rw [(keyText_iff _ _).2 hk]
    simp only [Res.bind_ok, newIdentityKey]
    rw [(keyText_iff _ _).2 hi, ht]
    simp only [Res.bind_ok, Option.getD_some, (signalText_iff _ _).2 hm]
    obtain ⟨a1, a2, a3, a4, a5, a6, a7, a8⟩ := m
    simp only at hp hr hsp hver hs
    subst hp hr hsp hver hs
    rfl

theorem senderKeyText_iff (bytes : Bytes) (m : SenderKeyMsg) :
    newSenderKeyFromBytes bytes = .ok m ↔ SenderKeyText bytes m := by
  constructor
  · intro h
    obtain ⟨b, rest, pb, rfl, hb, hl, hu, hk, hv, hpc, hc, hct, hs⟩ := newSenderKeyFromBytes_ok h
    simp only [List.length_cons] at hl
    unfold PBSenderKey.unmarshal at hu
    rw [unmarshal_iff] at hu
    obtain ⟨fs, hf, rfl⟩ := hu
    rw [PBSenderKey.fold_eq] at hk hpc hc hct
    simp only [Option.or_none] at hk hpc hc hct
    obtain ⟨text, ht, hw⟩ := (idText_iff _ _).1 hk
    refine ⟨b, rest.take (rest.length - 64), rest.drop (rest.length - 64), fs, text, by simp, (u8_shift4 b).1 hb,
      by simp; omega, hf, ht, hw, hpc, hc, hct, by rw [hv, hb], hs⟩
  · rintro ⟨v, body, sig, fs, text, rfl, hv, hm, hf, ht, hw, hc, hpc, hct, hver, hs⟩
    have hb := (u8_shift4 v).2 hv
    have hu : PBSenderKey.unmarshal body = .ok (fs.foldl PBSenderKey.field {}) := by
      unfold PBSenderKey.unmarshal
      rw [unmarshal_iff]
      exact ⟨fs, hf, rfl⟩
    have h1 : ¬ (v :: (body ++ sig)).length < 1 + 64 := by simp; omega
    have h2 : ¬ (body ++ sig).length < 64 := by simp; omega
    have h3 : (body ++ sig).take ((body ++ sig).length - 64) = body := by rw [← hm]; simp
    simp only [newSenderKeyFromBytes, hb, ne_eq, not_true_eq_false, if_false, h1, h2, h3]
    rw [hu, PBSenderKey.fold_eq]
    simp only [Res.bind_ok, Option.or_none]
    rw [(idText_iff _ _).2 ⟨text, ht, hw⟩]
    obtain ⟨a1, a2, a3, a4, a5, a6⟩ := m
    simp only at hc hpc hct hver hs
    subst hc hpc hct hver hs
    rfl

theorem distributionText_iff (bytes : Bytes) (m : DistributionMsg) :
    newDistributionFromBytes bytes = .ok m ↔ DistributionText bytes m := by
  constructor
  · intro h
    obtain ⟨b, rest, pb, rfl, hb, hl, hu, hk, hsk, hck, hv, hpc, hc, hct, hs⟩ := newDistributionFromBytes_ok h
    unfold PBDistribution.unmarshal at hu
    rw [unmarshal_iff] at hu
    obtain ⟨fs, hf, rfl⟩ := hu
    rw [PBDistribution.fold_eq] at hk hsk hpc hc hct
    simp only [Option.or_none] at hk hsk hpc hc hct
    obtain ⟨text, ht, hw⟩ := (idText_iff _ _).1 hk
    have hck' : lastBytes 4 fs = some m.chainKey := by
      cases h4 : lastBytes 4 fs with
      | none => rw [h4] at hct; rw [hct] at hck; simp at hck
      | some x => rw [h4] at hct; rw [hct]; rfl
    exact ⟨b, rest, fs, text, rfl, hl, (u8_shift4 b).1 hb, hf, ht, hw, hpc, hc, hck', hck, (keyText_iff _ _).1 hsk,
      by rw [hv, hb], hs⟩
  · rintro ⟨v, body, fs, text, rfl, hl, hv, hf, ht, hw, hc, hpc, hct, hck, hsk, hver, hs⟩
    have hb := (u8_shift4 v).2 hv
    have hu : PBDistribution.unmarshal body = .ok (fs.foldl PBDistribution.field {}) := by
      unfold PBDistribution.unmarshal
      rw [unmarshal_iff]
      exact ⟨fs, hf, rfl⟩
    have h1 : ¬ (v :: body).length < 1 + 32 + 32 := by omega
    simp only [newDistributionFromBytes, hb, ne_eq, not_true_eq_false, if_false, h1]
    rw [hu, PBDistribution.fold_eq]
    simp only [Res.bind_ok, Option.or_none]
    rw [(idText_iff _ _).2 ⟨text, ht, hw⟩]
    simp only [Res.bind_ok, hct, Option.getD_some, hck, not_true_eq_false, if_false]
    rw [(keyText_iff _ _).2 hsk]
    obtain ⟨a1, a2, a3, a4, a5, a6, a7⟩ := m
    simp only at hc hpc hver hs
    subst hc hpc hver hs
    rfl

theorem Grammar.Fields.append {a b : Bytes} {fa fb : List Field} (ha : Fields a fa) (hb : Fields b fb) :
    Fields (a ++ b) (fa ++ fb) := by
  induction ha with
  | nil => exact hb
  | cons num wt t p rest v fs hT hp _ ih =>
    rw [List.append_assoc]
    exact .cons num wt t p _ v _ hT hp ih

theorem Grammar.Fields.unique {a : Bytes} {fa fb : List Field} (ha : Fields a fa) (hb : Fields a fb) : fa = fb := by
  have h1 := (parseFields_iff a fa).2 ha
  rw [(parseFields_iff a fb).2 hb] at h1
  simpa using h1.symm

theorem foldlM_skip {β} (g : β → Field → Option β) (fx : List Field) (h : ∀ m, ∀ f ∈ fx, g m f = some m) (m : β) :
    fx.foldlM g m = some m := by
  induction fx with
  | nil => rfl
  | cons f fx ih =>
    rw [List.foldlM_cons, h m f (by simp)]
    exact ih fun m f hf => h m f (by simp [hf])

theorem filterMap_skip {β} (g : Field → Option β) (fa fx fb : List Field) (h : ∀ f ∈ fx, g f = none) :
    (fa ++ fx ++ fb).filterMap g = (fa ++ fb).filterMap g := by
  have : fx.filterMap g = [] := List.filterMap_eq_nil_iff.2 h
  simp only [List.filterMap_append, this, List.append_nil]

/-- Fields with other numbers say nothing. -/
theorem lastBytes_skip (n : Nat) (fa fx fb : List Field) (h : ∀ f ∈ fx, f.num ≠ n) :
    lastBytes n (fa ++ fx ++ fb) = lastBytes n (fa ++ fb) := by
  unfold lastBytes
  rw [filterMap_skip]
  intro f hf
  have := h f hf
  split <;> simp_all

theorem lastNumber_skip (n : Nat) (fa fx fb : List Field) (h : ∀ f ∈ fx, f.num ≠ n) :
    lastNumber n (fa ++ fx ++ fb) = lastNumber n (fa ++ fb) := by
  unfold lastNumber
  rw [filterMap_skip]
  intro f hf
  have := h f hf
  split <;> simp_all

end Verif
