import Verif.Proofs.Fields
import Verif.Proofs.Encoding

/-! # Which value of a repeated field counts -/

namespace Verif

open Wire Grammar

theorem getLast?_filterMap_cons {α β} (g : α → Option β) (f : α) (fs : List α) :
    ((f :: fs).filterMap g).getLast? = (fs.filterMap g).getLast?.or ([f].filterMap g).getLast? := by
  simp only [List.filterMap_cons, List.filterMap_nil]
  cases g f with
  | none => simp
  | some a =>
    simp only [List.getLast?_cons, List.getLast?_nil, Option.getD_none]
    cases (List.filterMap g fs).getLast? <;> simp

theorem lastBytes_cons (n : Nat) (f : Field) (fs : List Field) :
    lastBytes n (f :: fs) = (lastBytes n fs).or (lastBytes n [f]) := getLast?_filterMap_cons _ _ _

theorem lastNumber_cons (n : Nat) (f : Field) (fs : List Field) :
    lastNumber n (f :: fs) = (lastNumber n fs).or (lastNumber n [f]) := getLast?_filterMap_cons _ _ _

theorem PBSignal.fold_eq (fs : List Field) (m : PBSignal) : fs.foldl PBSignal.field m =
    { ratchetKey := (lastBytes 1 fs).or m.ratchetKey, counter := (lastNumber 2 fs).or m.counter,
      previousCounter := (lastNumber 3 fs).or m.previousCounter, ciphertext := (lastBytes 4 fs).or m.ciphertext } := by
  induction fs generalizing m with
  | nil => simp [lastBytes, lastNumber]
  | cons f fs ih =>
    rw [List.foldl_cons, ih]
    simp only [lastBytes_cons _ f fs, lastNumber_cons _ f fs]
    obtain ⟨num, val⟩ := f
    unfold PBSignal.field
    dsimp only
    split
    all_goals
      rename_i h
      simp_all [lastBytes, lastNumber]
    cases val <;> simp_all

theorem PBPreKey.fold_eq (fs : List Field) (m : PBPreKey) : fs.foldl PBPreKey.field m =
    { preKeyId := (lastNumber 1 fs).or m.preKeyId, baseKey := (lastBytes 2 fs).or m.baseKey,
      identityKey := (lastBytes 3 fs).or m.identityKey, message := (lastBytes 4 fs).or m.message,
      registrationId := (lastNumber 5 fs).or m.registrationId, signedPreKeyId := (lastNumber 6 fs).or m.signedPreKeyId } := by
  induction fs generalizing m with
  | nil => simp [lastBytes, lastNumber]
  | cons f fs ih =>
    rw [List.foldl_cons, ih]
    simp only [lastBytes_cons _ f fs, lastNumber_cons _ f fs]
    obtain ⟨num, val⟩ := f
    unfold PBPreKey.field
    dsimp only
    split
    all_goals
      rename_i h
      simp_all [lastBytes, lastNumber]
    cases val <;> simp_all

theorem PBSenderKey.fold_eq (fs : List Field) (m : PBSenderKey) : fs.foldl PBSenderKey.field m =
    { distributionUuid := (lastBytes 1 fs).or m.distributionUuid, chainId := (lastNumber 2 fs).or m.chainId,
      iteration := (lastNumber 3 fs).or m.iteration, ciphertext := (lastBytes 4 fs).or m.ciphertext } := by
  induction fs generalizing m with
  | nil => simp [lastBytes, lastNumber]
  | cons f fs ih =>
    rw [List.foldl_cons, ih]
    simp only [lastBytes_cons _ f fs, lastNumber_cons _ f fs]
    obtain ⟨num, val⟩ := f
    unfold PBSenderKey.field
    dsimp only
    split
    all_goals
      rename_i h
      simp_all [lastBytes, lastNumber]
    cases val <;> simp_all

theorem PBDistribution.fold_eq (fs : List Field) (m : PBDistribution) : fs.foldl PBDistribution.field m =
    { distributionUuid := (lastBytes 1 fs).or m.distributionUuid, chainId := (lastNumber 2 fs).or m.chainId,
      iteration := (lastNumber 3 fs).or m.iteration, chainKey := (lastBytes 4 fs).or m.chainKey,
      signingKey := (lastBytes 5 fs).or m.signingKey } := by
  induction fs generalizing m with
  | nil => simp [lastBytes, lastNumber]
  | cons f fs ih =>
    rw [List.foldl_cons, ih]
    simp only [lastBytes_cons _ f fs, lastNumber_cons _ f fs]
    obtain ⟨num, val⟩ := f
    unfold PBDistribution.field
    dsimp only
    split
    all_goals
      rename_i h
      simp_all [lastBytes, lastNumber]
    cases val <;> simp_all

end Verif
