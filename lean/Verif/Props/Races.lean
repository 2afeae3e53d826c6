import Verif.Proofs.Races
import Verif.Spec.Example
import Verif.Spec.GroupExample

/-!
# Data races on the in-memory stores: C110, and the goroutine of `Clear`: C111

Several calls run at the same time on one set of in-memory stores. The answers of the store calls are arbitrary in these theorems: what
the stores contain, and which records the calls share, makes no difference.
-/

namespace Verif

open Ex

/-- **C110**. Two calls on sessions that run in different goroutines race as soon as one of them succeeds, also when they are about
different peers, whatever the schedule. -/
theorem C110_success_races {S : Type} (answer : ∀ {β}, StoreOp β → S → β × S) (E : Env) (cs : List Call) (schedule : List Nat) (w : S)
    (i j : Nat) (hij : i ≠ j) (c d : Call) (hi : cs[i]? = some c) (hj : cs[j]? = some d) (hc : c.op.OnSession) (hd : d.op.OnSession)
    (hfc : c.faults = []) (hfd : d.faults = []) (o p : Out) (ho : sessionResult answer E cs schedule w i = some o)
    (hp : sessionResult answer E cs schedule w j = some p) (h : ¬ o.Failed) :
    DataRace (sessionAccesses answer E cs schedule w) i j := by
  obtain ⟨as, r, rfl, ⟨-, hr⟩, hm⟩ := sessionAccesses_of hi hfc ho (session_accesses E c.op hc)
  obtain ⟨bs, q, rfl, ⟨hq, -⟩, hn⟩ := sessionAccesses_of hj hfd hp (session_accesses E d.op hd)
  cases r with
  | err e => exact absurd trivial h
  | panic => exact absurd trivial h
  | ok a =>
    rcases hq with hq | hq
    · exact ⟨hij, _, _, (hm _).1 hr.1, (hn _).1 hq, rfl, .inl rfl⟩
    · exact ⟨hij, _, _, (hm _).1 hr.2, (hn _).1 hq, rfl, .inl rfl⟩

/-- C110, the exact condition: of calls to EncryptMessage, ProcessPreKeyBundle and to DecryptMessage on plain messages, two race exactly if
one of them succeeds. -/
theorem C110_race_exactly {S : Type} (answer : ∀ {β}, StoreOp β → S → β × S) (E : Env) (cs : List Call) (schedule : List Nat) (w : S)
    (i j : Nat) (hij : i ≠ j) (c d : Call) (hi : cs[i]? = some c) (hj : cs[j]? = some d) (hc : c.op.Plain) (hd : d.op.Plain)
    (hfc : c.faults = []) (hfd : d.faults = []) (o p : Out) (ho : sessionResult answer E cs schedule w i = some o)
    (hp : sessionResult answer E cs schedule w j = some p) :
    DataRace (sessionAccesses answer E cs schedule w) i j ↔ ¬ o.Failed ∨ ¬ p.Failed := by
  have plain : ∀ {x : Op}, x.Plain → x.OnSession := by
    intro x hx
    cases x with
    | decrypt a m => cases m <;> first | trivial | exact hx.elim
    | _ => first | trivial | exact hx.elim
  constructor
  · rintro ⟨-, x, y, hx, hy, -, hw⟩
    obtain ⟨as, r, rfl, ⟨⟨-, hr⟩, ha⟩, hm⟩ := sessionAccesses_of hi hfc ho (plain_accesses E c.op hc)
    obtain ⟨bs, q, rfl, ⟨⟨-, hq⟩, hb⟩, hn⟩ := sessionAccesses_of hj hfd hp (plain_accesses E d.op hd)
    rcases hw with hw | hw
    · cases r with
      | ok a => exact .inl (ha a rfl)
      | err e => rw [hr x ((hm x).2 hx)] at hw; cases hw
      | panic => rw [hr x ((hm x).2 hx)] at hw; cases hw
    · cases q with
      | ok a => exact .inr (hb a rfl)
      | err e => rw [hq y ((hn y).2 hy)] at hw; cases hw
      | panic => rw [hq y ((hn y).2 hy)] at hw; cases hw
  · rintro (h | h)
    · exact C110_success_races answer E cs schedule w i j hij c d hi hj (plain hc) (plain hd) hfc hfd o p ho hp h
    · obtain ⟨-, x, y, hx, hy, he, hw⟩ :=
        C110_success_races answer E cs schedule w j i (Ne.symm hij) d c hj hi (plain hd) (plain hc) hfd hfc p o hp ho h
      exact ⟨hij, y, x, hy, hx, he.symm, hw.symm⟩

/-- C110 for groups: two calls to EncryptMessage, DecryptMessage or ProcessSenderKeyDistribution race exactly if one of them succeeds,
also when they are about different groups. -/
theorem C110_group_race_exactly {S : Type} (answer : ∀ {β}, GStoreOp β → S → β × S) (C : Crypto) (cs : List GCall) (schedule : List Nat)
    (w : S) (i j : Nat) (hij : i ≠ j) (c d : GCall) (hi : cs[i]? = some c) (hj : cs[j]? = some d) (hc : c.op.UsesKey) (hd : d.op.UsesKey)
    (hfc : c.faults = []) (hfd : d.faults = []) (o p : GOut) (ho : groupResult answer C cs schedule w i = some o)
    (hp : groupResult answer C cs schedule w j = some p) :
    DataRace (groupAccesses answer C cs schedule w) i j ↔ ¬ o.Failed ∨ ¬ p.Failed := by
  obtain ⟨as, r, rfl, ⟨⟨has, hae, hr⟩, ha⟩, hm⟩ := groupAccesses_of hi hfc ho (group_accesses C c.op hc)
  obtain ⟨bs, q, rfl, ⟨⟨hbs, hbe, hq⟩, hb⟩, hn⟩ := groupAccesses_of hj hfd hp (group_accesses C d.op hd)
  constructor
  · rintro ⟨-, x, y, hx, hy, -, hw⟩
    rcases hw with hw | hw
    · cases r with
      | ok a => exact .inl (ha a rfl)
      | err e => rw [hr x ((hm x).2 hx)] at hw; cases hw
      | panic => rw [hr x ((hm x).2 hx)] at hw; cases hw
    · cases q with
      | ok a => exact .inr (hb a rfl)
      | err e => rw [hq y ((hn y).2 hy)] at hw; cases hw
      | panic => rw [hq y ((hn y).2 hy)] at hw; cases hw
  · rintro (h | h)
    · cases r with
      | err e => exact absurd trivial h
      | panic => exact absurd trivial h
      | ok a =>
        obtain ⟨y, hy⟩ := List.exists_mem_of_ne_nil _ hbe
        exact ⟨hij, _, y, (hm _).1 hr, (hn y).1 hy, (hbs y hy).symm, .inl rfl⟩
    · cases q with
      | err e => exact absurd trivial h
      | panic => exact absurd trivial h
      | ok a =>
        obtain ⟨x, hx⟩ := List.exists_mem_of_ne_nil _ hae
        exact ⟨hij, x, _, (hm x).1 hx, (hn _).1 hq, has x hx, .inr rfl⟩

/-- C110, the accesses are the right ones: a store call is listed with a write of a map exactly if it can change the contents of the map, and
if it is listed with no access to a map, then its answer does not depend on the contents. -/
theorem C110_accesses (E : Env) {β : Type} (op : StoreOp β) (map : GoMap) :
    (⟨map, true⟩ ∈ op.accesses ↔ ∃ w, ¬ World.SameMap map w (op.act E w).2) ∧
    ((∀ x ∈ op.accesses, x.map ≠ map) → ∀ w w', World.SameButMap map w w' → (op.act E w').1 = (op.act E w).1) := by
  have hne : ∀ {α γ : Type} [DecidableEq α] (m : α → Option γ) (k : α) (v : Option γ), m k ≠ v → upd m k v ≠ m := by
    intro α γ _ m k v h he
    exact h (by rw [← he, upd_same])
  constructor
  · constructor
    · intro h
      cases op with
      | storeSession a r =>
        simp only [StoreOp.accesses, List.mem_singleton, MapAccess.mk.injEq, and_true] at h
        subst h
        exact ⟨{ bob0 with sessions := fun _ => none }, hne _ _ _ (by simp)⟩
      | storePreKey id k =>
        simp only [StoreOp.accesses, List.mem_singleton, MapAccess.mk.injEq, and_true] at h
        subst h
        exact ⟨{ bob0 with preKeys := fun _ => none }, hne _ _ _ (by simp)⟩
      | deletePreKey id =>
        simp only [StoreOp.accesses, List.mem_singleton, MapAccess.mk.injEq, and_true] at h
        subst h
        exact ⟨{ bob0 with preKeys := fun _ => some ⟨[], []⟩ }, hne _ _ _ (by simp)⟩
      | storeSignedPreKey id k =>
        simp only [StoreOp.accesses, List.mem_singleton, MapAccess.mk.injEq, and_true] at h
        subst h
        exact ⟨{ bob0 with signedPreKeys := fun _ => none }, hne _ _ _ (by simp)⟩
      | storeIdentity a k =>
        simp only [StoreOp.accesses, List.mem_cons, List.not_mem_nil, or_false, MapAccess.mk.injEq, and_true, Bool.true_eq_false, and_false, false_or] at h
        subst h
        exact ⟨{ bob0 with known := fun _ => none }, hne _ _ _ (by simp)⟩
      | _ => simp [StoreOp.accesses] at h
    · rintro ⟨w, h⟩
      cases op <;> cases map <;> first | exact absurd rfl h | exact absurd trivial h | simp [StoreOp.accesses]
  · intro h w w' hs
    cases op with
    | loadSession a => exact congrFun (hs.1 .sessions fun he => h ⟨.sessions, false⟩ (by simp [StoreOp.accesses]) he) a
    | loadPreKey id => exact congrFun (hs.1 .preKeys fun he => h ⟨.preKeys, false⟩ (by simp [StoreOp.accesses]) he) id
    | loadSignedPreKey id => exact congrFun (hs.1 .signedPreKeys fun he => h ⟨.signedPreKeys, false⟩ (by simp [StoreOp.accesses]) he) id
    | isTrusted a k d => exact congrArg (E.trusted · a k d) (hs.1 .knownKeys fun he => h ⟨.knownKeys, false⟩ (by simp [StoreOp.accesses]) he)
    | keyPair => exact hs.2.1
    | registrationID => exact hs.2.2
    | _ => rfl

/-- Two senders that run at the same time on the stores of the library: one to a peer, one to a stranger. The first succeeds, the second
does not, and they race on the session map. -/
example : DataRace (sessionAccesses (StoreOp.act copying) copying
    [⟨.encrypt bob [1], [], []⟩, ⟨.encrypt alice [2], [], []⟩] [0, 1, 0, 0, 0, 1] alice1) 0 1 := by
  have h : (match sessionResult (StoreOp.act copying) copying [⟨.encrypt bob [1], [], []⟩, ⟨.encrypt alice [2], [], []⟩]
        [0, 1, 0, 0, 0, 1] alice1 0, sessionResult (StoreOp.act copying) copying [⟨.encrypt bob [1], [], []⟩, ⟨.encrypt alice [2], [], []⟩]
        [0, 1, 0, 0, 0, 1] alice1 1 with
      | some (.ciphertext _ _), some (.error _) => true
      | _, _ => false) = true := by decide +kernel
  split at h
  · rename_i o p ho hp
    exact (C110_race_exactly _ copying _ _ alice1 0 1 (by decide) ⟨.encrypt bob [1], [], []⟩ ⟨.encrypt alice [2], [], []⟩ rfl rfl trivial trivial
      rfl rfl _ _ ho hp).2 (.inl id)
  · cases h

/-! ## C111 -/

theorem IdHeap.step_view {h : IdHeap} (hf : h.field ∉ h.emptying) (hl : ∀ g ∈ h.emptying, g < h.next) (hn : h.field < h.next) (e : IdEvent) :
    (h.step e).field ∉ (h.step e).emptying ∧ (∀ g ∈ (h.step e).emptying, g < (h.step e).next) ∧ (h.step e).field < (h.step e).next ∧
    (h.step e).knownKeys = match e with
      | .call op => (IdStore.step ⟨h.knownKeys⟩ op).knownKeys
      | .deletes _ _ => h.knownKeys := by
  cases e with
  | call op =>
    cases op with
    | store a k =>
      refine ⟨hf, hl, hn, ?_⟩
      simp only [IdHeap.step, IdHeap.knownKeys, IdStore.step, IdStore.store, upd_same]
      rfl
    | clear =>
      refine ⟨?_, ?_, Nat.lt_succ_self _, ?_⟩
      · simp only [IdHeap.step, List.mem_cons, not_or]
        exact ⟨by omega, fun hm => by have := hl _ hm; omega⟩
      · intro g hg
        simp only [IdHeap.step, List.mem_cons] at hg ⊢
        rcases hg with rfl | hg
        · omega
        · have := hl g hg; omega
      · simp [IdHeap.step, IdHeap.knownKeys, IdStore.step, IdStore.clear]
  | deletes g a =>
    simp only [IdHeap.step]
    split
    · rename_i hg
      refine ⟨hf, hl, hn, ?_⟩
      have : h.field ≠ g := fun he => hf (he ▸ hg)
      simp [IdHeap.knownKeys, upd_ne _ _ this]
    · exact ⟨hf, hl, hn, rfl⟩

/-- **C111**. Whenever and in whatever order the goroutines that Clear starts get to delete their entries, the store holds what it would
hold without them. -/
theorem C111_clear_at_once (es : List IdEvent) : (IdHeap.run es).knownKeys = (IdStore.run (callsOf es)).knownKeys := by
  suffices h : ∀ (es : List IdEvent) (h : IdHeap) (s : IdStore), h.field ∉ h.emptying → (∀ g ∈ h.emptying, g < h.next) → h.field < h.next →
      h.knownKeys = s.knownKeys → (es.foldl IdHeap.step h).knownKeys = ((callsOf es).foldl IdStore.step s).knownKeys from
    h es _ _ (by simp [IdHeap.new]) (by simp [IdHeap.new]) (by simp [IdHeap.new]) rfl
  intro es
  induction es with
  | nil => exact fun h s _ _ _ he => he
  | cons e es ih =>
    intro h s hf hl hn he
    obtain ⟨h1, h2, h3, h4⟩ := IdHeap.step_view hf hl hn e
    cases e with
    | call op => exact ih _ _ h1 h2 h3 (by rw [h4]; obtain ⟨k⟩ := s; simp only at he ⊢; rw [he])
    | deletes g a => exact ih _ _ h1 h2 h3 (by rw [h4, he])

/-- C111: no goroutine that Clear starts ever touches the map that the store uses, so they cannot race with it. -/
theorem C111_never_touches (es : List IdEvent) : (IdHeap.run es).field ∉ (IdHeap.run es).emptying := by
  suffices h : ∀ (es : List IdEvent) (h : IdHeap), h.field ∉ h.emptying → (∀ g ∈ h.emptying, g < h.next) → h.field < h.next →
      (es.foldl IdHeap.step h).field ∉ (es.foldl IdHeap.step h).emptying from
    h es _ (by simp [IdHeap.new]) (by simp [IdHeap.new]) (by simp [IdHeap.new])
  intro es
  induction es with
  | nil => exact fun h hf _ _ => hf
  | cons e es ih =>
    intro h hf hl hn
    obtain ⟨h1, h2, h3, -⟩ := IdHeap.step_view hf hl hn e
    exact ih _ h1 h2 h3

/-- A key is stored, the store is cleared, the key is stored again, and only then the goroutine deletes it from the old map. -/
example : (IdHeap.run [.call (.store alice 7), .call .clear, .call (.store alice 8), .deletes 0 alice]).knownKeys alice = some 8 := by
  rw [C111_clear_at_once]; decide

end Verif
