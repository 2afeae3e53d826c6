import Verif.Proofs.ThreadGroups
import Verif.Props.Reuse
import Verif.Props.Group

/-!
# Calls that run at the same time: C63–C67

The stores hand out copies and every store call is atomic; see `Verif.Spec.Threads` for schedules.
-/

namespace Verif

open Ex

/-! ## C63 -/

/-- C63: run any calls at the same time, each with its own random bytes and store failures, under any schedule in which a call waits
for earlier calls that use the same entries of the stores; when all have returned, every call has returned what it returns
when the calls are made one after the other, and the stores are the same too. Calls that use different entries need not wait for each other. -/
theorem C63_calls_at_once (E : Env) (hE : E.aliased = false) (hT : E.TrustIsLocal) (cs : List Call) (schedule : List Nat)
    (w : World) (hs : InTurn cs schedule) (hdone : ∀ o ∈ (runAtOnce E cs schedule w).1, o ≠ none) :
    (runAtOnce E cs schedule w).1 = (runCalls E cs w).1.map some ∧
      (runAtOnce E cs schedule w).2.SameStores (runCalls E cs w).2 :=
  runAtOnce_eq hE hT cs schedule w hs hdone

/-- C63: in particular calls about different remote addresses that name different one-time pre-keys, under every schedule. -/
theorem C63_different_peers (E : Env) (hE : E.aliased = false) (hT : E.TrustIsLocal) (cs : List Call) (schedule : List Nat)
    (w : World) (haddr : cs.Pairwise fun c d => ∀ a b, c.op.address = some a → d.op.address = some b → a ≠ b)
    (hops : ∀ c ∈ cs, c.op.address ≠ none)
    (hpre : cs.Pairwise fun c d => ∀ a m b n id, c.op = .decrypt a (.preKey m) → d.op = .decrypt b (.preKey n) →
      m.preKeyID = some id → n.preKeyID ≠ some id)
    (hdone : ∀ o ∈ (runAtOnce E cs schedule w).1, o ≠ none) :
    (runAtOnce E cs schedule w).1 = (runCalls E cs w).1.map some ∧
      (runAtOnce E cs schedule w).2.SameStores (runCalls E cs w).2 := by
  refine runAtOnce_eq hE hT cs schedule w ?_ hdone
  refine (List.pairwise_of_forall (l := schedule) fun j i => ?_)
  intro hij c d hi hj hcl
  obtain ⟨hi', rfl⟩ := List.getElem?_eq_some_iff.1 hi
  obtain ⟨hj', rfl⟩ := List.getElem?_eq_some_iff.1 hj
  have h1 := List.pairwise_iff_getElem.1 haddr i j hi' hj' hij
  have h2 := List.pairwise_iff_getElem.1 hpre i j hi' hj' hij
  have h3 := hops _ (List.getElem_mem hi')
  have h4 := hops _ (List.getElem_mem hj')
  generalize cs[i].op = o at hcl h1 h2 h3
  generalize cs[j].op = p at hcl h1 h2 h4
  have hw : ∀ (o : Op) (e : Entry), o.address ≠ none → e ∈ o.writes →
      (∃ a, o.address = some a ∧ e = .peer a) ∨ ∃ a m id, o = .decrypt a (.preKey m) ∧ m.preKeyID = some id ∧ e = .preKey id := by
    intro o e ho he
    cases o with
    | encrypt a pt => exact .inl ⟨a, rfl, by simpa [Op.writes] using he⟩
    | bundle a b => exact .inl ⟨a, rfl, by simpa [Op.writes] using he⟩
    | addPreKey id k => exact absurd rfl ho
    | addSignedPreKey id k => exact absurd rfl ho
    | decrypt a m =>
      cases m with
      | preKey m =>
        simp only [Op.writes, List.mem_cons, List.mem_map, Option.mem_toList] at he
        rcases he with he | ⟨id, hid, rfl⟩
        · exact .inl ⟨a, rfl, he⟩
        · exact .inr ⟨a, m, id, rfl, hid, rfl⟩
      | signal m => exact .inl ⟨a, rfl, by simpa [Op.writes] using he⟩
      | senderKey m => exact .inl ⟨a, rfl, by simpa [Op.writes] using he⟩
      | plaintext m => exact .inl ⟨a, rfl, by simpa [Op.writes] using he⟩
  have hr : ∀ (o : Op) (e : Entry), e ∈ o.reads → ∃ id, e = .signedPreKey id := by
    intro o e he
    cases o with
    | decrypt a m => cases m <;> simp [Op.reads] at he; exact ⟨_, he⟩
    | _ => simp [Op.reads] at he
  rcases hcl with ⟨e, he, hf | hf⟩ | ⟨e, he, hf⟩
  · rcases hw o e h3 he with ⟨a, ha, rfl⟩ | ⟨a, m, id, rfl, hid, rfl⟩
    · rcases hw p _ h4 hf with ⟨b, hb, hab⟩ | ⟨_, _, _, _, _, hab⟩
      · cases hab; exact h1 a a ha hb rfl
      · cases hab
    · rcases hw p _ h4 hf with ⟨b, hb, hab⟩ | ⟨b, n, id', rfl, hid', hab⟩
      · cases hab
      · cases hab; exact h2 _ _ _ _ _ rfl rfl hid hid'
  · obtain ⟨id, rfl⟩ := hr p e hf
    rcases hw o _ h3 he with ⟨a, ha, hab⟩ | ⟨a, m, id, rfl, hid, hab⟩ <;> cases hab
  · obtain ⟨id, rfl⟩ := hr o e hf
    rcases hw p _ h4 he with ⟨a, ha, hab⟩ | ⟨a, m, id, rfl, hid, hab⟩ <;> cases hab

/-- C63: whatever the others do, a call returns after at most ten turns. -/
theorem C63_every_call_returns (E : Env) (cs : List Call) (schedule : List Nat) (w : World)
    (hturns : ∀ i < cs.length, 10 ≤ schedule.count i) : ∀ o ∈ (runAtOnce E cs schedule w).1, o ≠ none := by
  intro o ho
  simp only [runAtOnce, List.mem_map, List.mem_range] at ho
  obtain ⟨i, hi, rfl⟩ := ho
  have := interleave_ends (StoreOp.act E) schedule (threads E cs) w i 10 ?_ (hturns i hi)
  · intro hn
    rw [Option.map_eq_none_iff] at hn
    exact this hn
  · simp only [threads, List.getElem?_eq_getElem hi]
    exact Op.prog_ends E _

theorem tofu_local (C : Crypto) (al : Bool) : Env.TrustIsLocal ⟨C, al, tofu⟩ := by
  intro known known' a k d h
  simp [tofu, h]

namespace Ex

def carol : Address := ⟨[67], 1⟩
def carol0 : World := { alice0 with identity := pair 9, regId := 33, rand := randomness 77 }
/-- Carol's first message to Bob, with the same bundle that Alice used. -/
def c1 : Ciphertext := outMsg (encryptMessage copying bob [7, 7] (processPreKeyBundle copying bob bundle carol0).2)
/-- Carol's first message to Bob, with another one-time pre-key. -/
def c2 : Ciphertext :=
  outMsg (encryptMessage copying bob [8] (processPreKeyBundle copying bob { bundle with preKeyID := some 8, preKeyPublic := some (pair 10).pub } carol0).2)

/-- Bob, with a second one-time pre-key. -/
def bobTwo : World := after copying [⟨.addPreKey 8 (PreKeyRec.new (pair 10)), [], []⟩] bob0

/-- The first messages of Alice and Carol arrive together. -/
def firstMessages : List Call := [⟨.decrypt alice m1, randomness 2, []⟩, ⟨.decrypt carol c2, randomness 5, []⟩]
/-- The same, and they name the same one-time pre-key. -/
def clashing : List Call := [⟨.decrypt alice m1, randomness 2, []⟩, ⟨.decrypt carol c1, randomness 5, []⟩]

/-- Everybody's turn, round by round. -/
def rounds (n k : Nat) : List Nat := (List.replicate k (List.range n)).flatten

def texts (outs : List (Option Out)) : List (Option Bytes) :=
  outs.filterMap fun
    | some (.plaintext _ p) => some p
    | _ => none

end Ex

/-- Bob decrypts the two messages at the same time, step by step in turn, and gets both. -/
example : texts (runAtOnce copying firstMessages (rounds 2 10) bobTwo).1 = [some [1, 2, 3], some [8]] := by decide +kernel

example : (runAtOnce copying firstMessages (rounds 2 10) bobTwo).1 = (runCalls copying firstMessages bobTwo).1.map some := by
  refine (C63_different_peers copying rfl (tofu_local _ _) firstMessages (rounds 2 10) bobTwo ?_ ?_ ?_ ?_).1
  · simp [firstMessages, Op.address, alice, carol]
  · simp [firstMessages, Op.address]
  · have h : ∀ m n id, m1 = .preKey m → c2 = .preKey n → m.preKeyID = some id → n.preKeyID ≠ some id := by
      intro m n id hm hn h1 h2
      have e1 : (match m1 with | .preKey m => m.preKeyID | _ => none) = some 5 := by decide +kernel
      have e2 : (match c2 with | .preKey m => m.preKeyID | _ => none) = some 8 := by decide +kernel
      rw [hm] at e1
      rw [hn] at e2
      simp only at e1 e2
      rw [h1] at e1
      rw [h2] at e2
      cases e1
      cases e2
    simp only [firstMessages, List.pairwise_cons, List.mem_singleton, forall_eq, Op.decrypt.injEq, and_imp]
    refine ⟨fun a m b n id _ hm _ hn => h m n id hm hn, by simp⟩
  · exact C63_every_call_returns _ _ _ _ (by decide)

/-! ## C64 -/

namespace Ex

/-- Alice sends Bob two messages. -/
def twoSends : List Call := [⟨.bundle bob bundle, randomness 1, []⟩, ⟨.encrypt bob [1], [], []⟩, ⟨.encrypt bob [2], [], []⟩]
/-- The session is set up first; then the two calls run at the same time. -/
def overlapping : List Nat := List.replicate 10 0 ++ (List.replicate 10 [1, 2]).flatten
/-- The second call starts when the first one has returned. -/
def waiting : List Nat := List.replicate 10 0 ++ List.replicate 10 1 ++ List.replicate 10 2

end Ex

/-- C64: two EncryptMessage calls for the same address at the same time return messages with the same ratchet key and counter. -/
theorem C64_concurrent_sends_false :
    ∃ (E : Env) (w0 : World) (cs : List Call) (schedule : List Nat) (a : Address), E.aliased = false ∧ E.TrustIsLocal ∧
      w0.NoSessions ∧ cs.length < 2 ^ 32 ∧ FreshCalls E.C cs ∧ (∀ c ∈ cs, c.faults = []) ∧
      (∀ o ∈ (runAtOnce E cs schedule w0).1, o ≠ none) ∧
      ¬ (sentTo a ((runAtOnce E cs schedule w0).1.filterMap id)).Nodup :=
  ⟨copying, alice0, twoSends, overlapping, bob, rfl, tofu_local _ _, fun _ => rfl, by decide, freshCalls_of (by decide +kernel),
    by simp [twoSends], C63_every_call_returns _ _ _ _ (by decide), by decide +kernel⟩

/-- C64, as far as it goes: when calls that use the same entries wait for each other, as with a lock for each address and for
each one-time pre-key, no two messages for an address have the same ratchet key and counter, whatever else runs in between. -/
theorem C64_concurrent_sends_partial (E : Env) (hE : E.aliased = false) (hT : E.TrustIsLocal) (w0 : World) (h0 : w0.NoSessions)
    (cs : List Call) (hlen : cs.length < 2 ^ 32) (hfresh : FreshCalls E.C cs) (schedule : List Nat) (hs : InTurn cs schedule)
    (hdone : ∀ o ∈ (runAtOnce E cs schedule w0).1, o ≠ none) (a : Address) :
    (sentTo a ((runAtOnce E cs schedule w0).1.filterMap id)).Nodup := by
  rw [(runAtOnce_eq hE hT cs schedule w0 hs hdone).1]
  have h : ((runCalls E cs w0).1.map some).filterMap id = (runCalls E cs w0).1 := by simp [List.filterMap_map]
  rw [h]
  exact C07_no_reuse_partial E w0 h0 cs hlen hfresh (by simp [hE]) a

/-- A schedule that goes through the calls in order is in turn. -/
theorem InTurn.of_sorted {cs : List Call} {schedule : List Nat} (h : schedule.Pairwise (· ≤ ·)) : InTurn cs schedule :=
  h.imp fun h' hij => absurd hij (by omega)

example : (sentTo bob ((runAtOnce copying twoSends waiting alice0).1.filterMap id)).length = 2 := by decide +kernel

example : (sentTo bob ((runAtOnce copying twoSends waiting alice0).1.filterMap id)).Nodup :=
  C64_concurrent_sends_partial copying rfl (tofu_local _ _) alice0 (fun _ => rfl) twoSends (by decide) (freshCalls_of (by decide +kernel))
    waiting (InTurn.of_sorted (by decide)) (C63_every_call_returns _ _ _ _ (by decide)) bob

/-! ## C65 -/

/-- C65: run any group calls at the same time under any schedule in which calls about the same sender address and distribution id wait for
earlier ones; when all have returned, every call has returned what it returns when the calls are made one after the
other, and the stored records are the same too. -/
theorem C65_group_calls_at_once (C : Crypto) (cs : List GCall) (schedule : List Nat) (w : GWorld) (hs : GInTurn cs schedule)
    (hdone : ∀ o ∈ (runGAtOnce C cs schedule w).1, o ≠ none) :
    (runGAtOnce C cs schedule w).1 = (runGCalls ⟨C, false⟩ cs w).1.map some ∧
      (runGAtOnce C cs schedule w).2.records = (runGCalls ⟨C, false⟩ cs w).2.records :=
  runGAtOnce_eq C cs schedule w hs hdone

/-- C65: in particular calls about different sender keys, under every schedule. -/
theorem C65_different_groups (C : Crypto) (cs : List GCall) (schedule : List Nat) (w : GWorld)
    (hkeys : cs.Pairwise fun c d => c.op.key ≠ d.op.key) (hdone : ∀ o ∈ (runGAtOnce C cs schedule w).1, o ≠ none) :
    (runGAtOnce C cs schedule w).1 = (runGCalls ⟨C, false⟩ cs w).1.map some ∧
      (runGAtOnce C cs schedule w).2.records = (runGCalls ⟨C, false⟩ cs w).2.records := by
  refine runGAtOnce_eq C cs schedule w (List.pairwise_of_forall fun j i hij c d hi hj => ?_) hdone
  obtain ⟨hi', rfl⟩ := List.getElem?_eq_some_iff.1 hi
  obtain ⟨hj', rfl⟩ := List.getElem?_eq_some_iff.1 hj
  exact List.pairwise_iff_getElem.1 hkeys i j hi' hj' hij

/-- C65: whatever the others do, a group call returns after at most five turns. -/
theorem C65_every_call_returns (C : Crypto) (cs : List GCall) (schedule : List Nat) (w : GWorld)
    (hturns : ∀ i < cs.length, 5 ≤ schedule.count i) : ∀ o ∈ (runGAtOnce C cs schedule w).1, o ≠ none := by
  intro o ho
  simp only [runGAtOnce, List.mem_map, List.mem_range] at ho
  obtain ⟨i, hi, rfl⟩ := ho
  have := interleave_ends GStoreOp.act schedule (gThreads C cs) w i 5 ?_ (hturns i hi)
  · intro hn
    rw [Option.map_eq_none_iff] at hn
    exact this hn
  · simp only [gThreads, List.getElem?_eq_getElem hi]
    exact GOp.prog_ends C _

namespace Ex

def dist2 : DistId := ⟨List.replicate 16 8, by simp⟩

/-- Alice creates sender keys for two groups. -/
def twoGroups : List GCall :=
  [⟨.distribute alice dist, randomness 1, randomness 9, []⟩, ⟨.distribute alice dist2, randomness 3, randomness 7, []⟩]

/-- Alice creates a sender key and sends two messages. -/
def twoGroupSends : List GCall :=
  [⟨.distribute alice dist, randomness 1, randomness 9, []⟩, ⟨.encrypt alice dist [1], randomness 3, [], []⟩,
   ⟨.encrypt alice dist [2], randomness 4, [], []⟩]

def created (w : GWorld) : List Bool := [(w.records (alice, dist)).isSome, (w.records (alice, dist2)).isSome]

end Ex

example : (runGAtOnce toy twoGroups (rounds 2 5) group0).2.records = (runGCalls ⟨toy, false⟩ twoGroups group0).2.records ∧
    created (runGAtOnce toy twoGroups (rounds 2 5) group0).2 = [true, true] :=
  ⟨(C65_different_groups toy twoGroups (rounds 2 5) group0 (by simp [twoGroups, GOp.key, dist, dist2])
    (C65_every_call_returns _ _ _ _ (by decide))).2, by decide +kernel⟩

/-! ## C66 -/

/-- C66: two group sends at the same time under one sender key use the same iteration. -/
theorem C66_concurrent_group_sends_false :
    ∃ (C : Crypto) (w0 : GWorld) (cs : List GCall) (schedule : List Nat) (k : Address × DistId), w0.Empty ∧
      (cs.map (GCall.reach k)).sum < 2 ^ 32 ∧ (∀ c ∈ cs, c.faults = []) ∧
      (∀ o ∈ (runGAtOnce C cs schedule w0).1, o ≠ none) ∧
      ¬ (sentIterations k ((runGAtOnce C cs schedule w0).1.filterMap id)).Pairwise (· ≠ ·) :=
  ⟨toy, group0, twoGroupSends, overlapping, (alice, dist), fun _ => rfl, by decide, by simp [twoGroupSends],
    C65_every_call_returns _ _ _ _ (by decide), by decide +kernel⟩

/-- C66, as far as it goes: when calls about the same sender key wait for each other, no two messages under a sender key
have the same iteration. -/
theorem C66_concurrent_group_sends_partial (C : Crypto) (w0 : GWorld) (h0 : w0.Empty) (cs : List GCall) (a : Address) (d : DistId)
    (hlen : (cs.map (GCall.reach (a, d))).sum < 2 ^ 32) (schedule : List Nat) (hs : GInTurn cs schedule)
    (hdone : ∀ o ∈ (runGAtOnce C cs schedule w0).1, o ≠ none) :
    (sentIterations (a, d) ((runGAtOnce C cs schedule w0).1.filterMap id)).Pairwise (· ≠ ·) := by
  rw [(runGAtOnce_eq C cs schedule w0 hs hdone).1]
  have h : ((runGCalls ⟨C, false⟩ cs w0).1.map some).filterMap id = (runGCalls ⟨C, false⟩ cs w0).1 := by simp [List.filterMap_map]
  rw [h]
  exact C44_iterations_distinct ⟨C, false⟩ w0 h0 cs a d hlen

theorem GInTurn.of_sorted {cs : List GCall} {schedule : List Nat} (h : schedule.Pairwise (· ≤ ·)) : GInTurn cs schedule :=
  h.imp fun h' hij => absurd hij (by omega)

example : (sentIterations (alice, dist) ((runGAtOnce toy twoGroupSends waiting group0).1.filterMap id)) = [0, 1] ∧
    GInTurn twoGroupSends waiting := ⟨by decide +kernel, GInTurn.of_sorted (by decide)⟩

/-! ## C67 -/

/-- C67: two messages that name the same one-time pre-key arrive at the same time; both set up a session with it. One after the
other, the second one is refused. -/
theorem C67_one_time_preKey_false :
    ∃ (E : Env) (w0 : World) (cs : List Call) (schedule : List Nat), E.aliased = false ∧ E.TrustIsLocal ∧ w0.NoSessions ∧
      (∀ c ∈ cs, c.faults = []) ∧ (∀ o ∈ (runAtOnce E cs schedule w0).1, o ≠ none) ∧
      (texts (runAtOnce E cs schedule w0).1).length = 2 ∧ (texts ((runCalls E cs w0).1.map some)).length = 1 :=
  ⟨copying, bob0, clashing, rounds 2 10, rfl, tofu_local _ _, fun _ => rfl, by simp [clashing],
    C63_every_call_returns _ _ _ _ (by decide), by decide +kernel, by decide +kernel⟩

/-- A call that does not add a one-time pre-key does not bring it back. -/
theorem Call.run_preKey_none {E : Env} {w : World} {c : Call} {id : UInt32} (h : w.preKeys id = none)
    (hc : ∀ k, c.op ≠ .addPreKey id k) : (c.run E w).2.preKeys id = none := by
  obtain ⟨op, rd, fs⟩ := c
  cases op with
  | encrypt a pt =>
    simp only [Call.run]
    have ho := encrypt_outcome E a pt { w with rand := rd, faults := fs }
    generalize encryptMessage E a pt { w with rand := rd, faults := fs } = x at ho ⊢
    obtain ⟨r, w'⟩ := x
    simp only at ho ⊢
    cases ho <;> exact h
  | bundle a b =>
    simp only [Call.run]
    have ho := bundle_outcome E a b { w with rand := rd, faults := fs }
    generalize processPreKeyBundle E a b { w with rand := rd, faults := fs } = x at ho ⊢
    obtain ⟨r, w'⟩ := x
    simp only at ho ⊢
    cases ho <;> exact h
  | addPreKey id' k =>
    have : id ≠ id' := fun e => hc k (by rw [e])
    simp only [Call.run]
    rw [upd_ne _ _ this]; exact h
  | addSignedPreKey id' k => exact h
  | decrypt a m =>
    simp only [Call.run]
    have hd : ∀ o, dropPreKey w.preKeys o id = none := by
      intro o
      cases o with
      | none => exact h
      | some id' =>
        simp only [dropPreKey, upd]
        split
        · rfl
        · exact h
    cases m with
    | preKey m =>
      rw [decryptMessage_preKey]
      have ho := preKey_outcome E a m { w with rand := rd, faults := fs }
      generalize decryptPreKey E a m { w with rand := rd, faults := fs } = x at ho ⊢
      obtain ⟨r, w'⟩ := x
      simp only at ho ⊢
      cases ho with
      | early => exact h
      | processed => exact h
      | decrypted _ _ _ _ _ _ _ _ _ _ _ _ _ hs =>
        rcases hs with ⟨_, rfl, _⟩ | ⟨_, rfl, _⟩ | ⟨_, rfl, _⟩
        · exact h
        · exact h
        · exact hd _
      | done => exact hd _
    | signal m =>
      show (decryptSignal E a m { w with rand := rd, faults := fs }).2.preKeys id = none
      have ho := signal_outcome E a m { w with rand := rd, faults := fs }
      generalize decryptSignal E a m { w with rand := rd, faults := fs } = x at ho ⊢
      obtain ⟨r, w'⟩ := x
      simp only at ho ⊢
      cases ho <;> exact h
    | senderKey m => exact h
    | plaintext m => exact h

theorem after_preKey_none {E : Env} {w : World} {cs : List Call} {id : UInt32} (h : w.preKeys id = none)
    (hc : ∀ c ∈ cs, ∀ k, c.op ≠ .addPreKey id k) : (after E cs w).preKeys id = none := by
  induction cs generalizing w with
  | nil => exact h
  | cons c cs ih => exact ih (Call.run_preKey_none h (hc c (by simp))) fun d hd => hc d (by simp [hd])

/-- C67, as far as it goes: when calls that use the same entries wait for each other, a message that set up a session
with a one-time pre-key and was decrypted leaves no pre-key for any later call to use. -/
theorem C67_one_time_preKey_partial (E : Env) (hE : E.aliased = false) (hT : E.TrustIsLocal) (w : World) (hw : Reachable E w)
    (pre post : List Call) (a : Address) (m : PreKeyMsg) (rand : Bytes) (faults : List Fault) (schedule : List Nat)
    (cs : List Call) (hcs : cs = pre ++ ⟨.decrypt a (.preKey m), rand, faults⟩ :: post)
    (hs : InTurn cs schedule) (hdone : ∀ o ∈ (runAtOnce E cs schedule w).1, o ≠ none)
    (id : UInt32) (hid : m.preKeyID = some id) (hadd : ∀ c ∈ post, ∀ k, c.op ≠ .addPreKey id k)
    (hnew : ∀ r, (after E pre w).sessions a = some r → ¬ r.Knows m.version.toUInt32 m.baseKey)
    (p : Bytes) (hout : (runAtOnce E cs schedule w).1[pre.length]? = some (some (.plaintext a (some p)))) :
    (runAtOnce E cs schedule w).2.preKeys id = none ∧
      ∀ n, (after E (pre ++ ⟨.decrypt a (.preKey m), rand, faults⟩ :: post.take n) w).preKeys id = none := by
  obtain ⟨h1, h2⟩ := runAtOnce_eq hE hT cs schedule w hs hdone
  have hlen : ∀ (ds : List Call) (v : World), (runCalls E ds v).1.length = ds.length := by
    intro ds
    induction ds with
    | nil => exact fun _ => rfl
    | cons d ds ih => intro v; simp [runCalls, ih]
  have happ : ∀ (ds es : List Call) (v : World), (runCalls E (ds ++ es) v).1 = (runCalls E ds v).1 ++ (runCalls E es (after E ds v)).1 := by
    intro ds es
    induction ds with
    | nil => exact fun _ => rfl
    | cons d ds ih => intro v; simp [runCalls, ih, after]
  have hok : (decryptMessage E a (.preKey m) { after E pre w with rand := rand, faults := faults }).1 = .ok (some p) := by
    rw [h1, hcs, happ, List.map_append, List.getElem?_append_right (by simp [hlen])] at hout
    simp only [List.length_map, hlen, Nat.sub_self, runCalls, List.map_cons, List.getElem?_cons_zero, Option.some.injEq, Call.run] at hout
    generalize (decryptMessage E a (.preKey m) { after E pre w with rand := rand, faults := faults }).1 = r at hout ⊢
    cases r <;> simp [Out.of] at hout
    rw [hout]
  have hgone : (after E (pre ++ [⟨.decrypt a (.preKey m), rand, faults⟩]) w).preKeys id = none := by
    rw [runCalls_append]
    have := C13_success_consumes_the_named_preKey E _ ((hw.after pre).other rand faults) a m p hok hnew id
    rw [if_pos hid] at this
    exact this
  have hall : ∀ n, (after E (pre ++ ⟨.decrypt a (.preKey m), rand, faults⟩ :: post.take n) w).preKeys id = none := by
    intro n
    rw [← List.singleton_append, ← List.append_assoc, runCalls_append]
    exact after_preKey_none hgone fun c hc => hadd c (List.mem_of_mem_take hc)
  refine ⟨?_, hall⟩
  rw [h2.2.1, hcs]
  have := hall post.length
  rwa [List.take_length] at this

/-- In turn, the first of the two messages is decrypted, as a new session, and the pre-key is gone. -/
example : InTurn clashing (List.replicate 10 0 ++ List.replicate 10 1) ∧
    texts ((runAtOnce copying clashing (List.replicate 10 0 ++ List.replicate 10 1) bob0).1.take 1) = [some [1, 2, 3]] ∧
    (match m1 with | .preKey m => m.preKeyID | _ => none) = some 5 ∧ bob0.preKeys 5 ≠ none ∧
    (runAtOnce copying clashing (List.replicate 10 0 ++ List.replicate 10 1) bob0).2.preKeys 5 = none :=
  ⟨InTurn.of_sorted (by decide), by decide +kernel, by decide +kernel, by decide +kernel, by decide +kernel⟩

end Verif
