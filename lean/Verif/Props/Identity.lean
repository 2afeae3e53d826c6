import Verif.Model.Identity
import Verif.Model.World
import Verif.Model.Toy

/-!
# The in-memory identity store: C47, C48
-/

namespace Verif

/-- Specification: the key last stored for an address since the last `Clear`, reading the history backwards. -/
def lastStored (mem : Ptr → PubKey) (a : Address) : (newestFirst : List IdOp) → Option PubKey
  | [] => none
  | .clear :: _ => none
  | .store b k :: older => if b = a then some (mem k) else lastStored mem a older

theorem run_knownKeys (mem : Ptr → PubKey) (ops : List IdOp) (a : Address) :
    ((IdStore.run ops).knownKeys a).map mem = lastStored mem a ops.reverse := by
  unfold IdStore.run
  rw [← List.foldr_reverse]
  induction ops.reverse with
  | nil => rfl
  | cons op older ih =>
    cases op with
    | clear => rfl
    | store b k =>
      simp only [List.foldr_cons, IdStore.step, IdStore.store, lastStored]
      by_cases h : a = b
      · simp [h]
      · have h' : ¬ b = a := fun e => h e.symm
        simp only [h, h', if_false]
        exact ih

/-- C47: after any history of calls, a key is trusted exactly when the address is unknown or the key equals the
one last stored for it. -/
theorem C47_trust_on_first_use (mem : Ptr → PubKey) (ops : List IdOp) (a : Address) (k : Ptr) (d : Direction) :
    (IdStore.run ops).isTrusted mem a k d = true ↔
      lastStored mem a ops.reverse = none ∨ lastStored mem a ops.reverse = some (mem k) := by
  rw [← run_knownKeys]
  unfold IdStore.isTrusted
  cases (IdStore.run ops).knownKeys a with
  | none => simp
  | some known =>
    simp only [keyEqual, PubKey.equal_iff, Option.map_some, Option.some.injEq, reduceCtorEq, false_or]
    exact eq_comm

/-- C47: `Load` returns the key last stored. -/
theorem C47_load (mem : Ptr → PubKey) (ops : List IdOp) (a : Address) :
    ((IdStore.run ops).load a).map mem = lastStored mem a ops.reverse := run_knownKeys mem ops a

/-- C47: the trust policy the session model calls `tofu` is this store. -/
theorem C47_tofu_agrees (mem : Ptr → PubKey) (s : IdStore) (a : Address) (k : Ptr) (d : Direction) :
    s.isTrusted mem a k d = tofu (fun b => (s.knownKeys b).map mem) a (mem k) d := by
  unfold IdStore.isTrusted tofu
  cases h : s.knownKeys a <;> simp [keyEqual, h]

/-- C48 does not hold: storing an equal key that was parsed into a new object reports a replacement. -/
theorem C48_replacement_false :
    ∃ (mem : Ptr → PubKey) (ops : List IdOp) (a : Address) (k : Ptr),
      lastStored mem a ops.reverse = some (mem k) ∧ ((IdStore.run ops).store a k).1 = true :=
  ⟨fun _ => (⟨List.replicate 32 9, by simp⟩ : PubKey), [.store ⟨[1], 1⟩ 0], ⟨[1], 1⟩, 1, by decide, by decide⟩

/-- C48, what holds: a replacement by a different key is always reported, nothing is reported for an unknown
address, and if the caller keeps a single object per key the report is exact. -/
theorem C48_replacement_partial (mem : Ptr → PubKey) (ops : List IdOp) (a : Address) (k : Ptr) :
    (∀ old, lastStored mem a ops.reverse = some old → old ≠ mem k → ((IdStore.run ops).store a k).1 = true) ∧
    (lastStored mem a ops.reverse = none → ((IdStore.run ops).store a k).1 = false) ∧
    ((∀ p q, mem p = mem q → p = q) → (((IdStore.run ops).store a k).1 = true ↔
      ∃ old, lastStored mem a ops.reverse = some old ∧ old ≠ mem k)) := by
  rw [← run_knownKeys]
  unfold IdStore.store
  cases (IdStore.run ops).knownKeys a with
  | none => simp
  | some known =>
    refine ⟨?_, by simp, ?_⟩
    · intro old h1 h2
      simp at h1
      subst h1
      have : k ≠ known := fun e => h2 (by rw [e])
      simp [this]
    · intro inj
      simp only [Option.map_some, Option.some.injEq, exists_eq_left', decide_eq_true_eq]
      exact ⟨fun h e => h (inj _ _ e).symm, fun h e => h (by rw [e])⟩

/-- Both cases of C48 occur: a replaced key and a re-stored one. -/
example : ((IdStore.run [.store ⟨[1], 1⟩ 0]).store ⟨[1], 1⟩ 1).1 = true ∧
    ((IdStore.run [.store ⟨[1], 1⟩ 0]).store ⟨[1], 1⟩ 0).1 = false := by decide

end Verif
