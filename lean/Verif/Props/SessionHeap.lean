import Verif.Proofs.SessionKeptCalls
import Verif.Spec.Example

/-!
# Sessions on pointers and slices: C99 to C102
-/

namespace Verif

open Ex

/-- The heap a process has reached after a history that began without sessions. -/
abbrev zReached (E : HEnv) (grow : Nat → Nat) (w : World) (cs : List Call) : ZWorld := (sliceRun E cs (.start grow w)).2

/-! ## C99 -/

/-- C99: the session code as it runs, on shared objects and on slices that share arrays and are overwritten in place, gives the results and leaves the stored
sessions that the functions on values give. So every theorem about histories on values holds for the code on slices. -/
theorem C99_agrees (E : HEnv) (grow : Nat → Nat) (w : World) (hw : w.NoSessions) (cs : List Call) :
    (sliceRun E cs (.start grow w)).1 = (runCalls E.toEnv cs w).1 ∧ (zReached E grow w cs).values = (runCalls E.toEnv cs w).2 :=
  ⟨(sliceRun_sim E grow w hw cs).1, (sliceRun_sim E grow w hw cs).2.1⟩

/-- C99: neither how much room the runtime leaves in new arrays, nor whether `Store` keeps the pointer or a copy, makes a difference to any result or to any
stored session. -/
theorem C99_room_does_not_matter (E E' : HEnv) (hE : E.toEnv = E'.toEnv) (grow grow' : Nat → Nat) (w : World) (hw : w.NoSessions) (cs : List Call) :
    (sliceRun E cs (.start grow w)).1 = (sliceRun E' cs (.start grow' w)).1 ∧ (zReached E grow w cs).values = (zReached E' grow' w cs).values := by
  obtain ⟨a1, a2⟩ := C99_agrees E grow w hw cs
  obtain ⟨b1, b2⟩ := C99_agrees E' grow' w hw cs
  rw [a1, a2, b1, b2, hE]
  exact ⟨rfl, rfl⟩

/-! ## C100 -/

/-- C100: whatever has happened and whatever the store, the array behind the receiving chains of a stored session points only to chains that the session has. A
chain that was pushed out by newer ones is no longer there. -/
theorem C100_no_chain_hidden (E : HEnv) (grow : Nat → Nat) (w : World) (hw : w.NoSessions) (cs : List Call) (a : Address) (r p : Nat)
    (_ : (zReached E grow w cs).store a = some r) (_ : ((zReached E grow w cs).records r).current = some p) : ((zReached E grow w cs).states p).chains.hidden = [] :=
  ((sliceRun_sim E grow w hw cs).2.2.states p).chains.hidden

/-- C100: no slot of the receiving chains, of the kept message keys or of the archived sessions of a stored record is nil: the code never follows a nil pointer that
it has left in one of its own slices. -/
theorem C100_no_nil (E : HEnv) (grow : Nat → Nat) (w : World) (hw : w.NoSessions) (cs : List Call) (a : Address) (r p : Nat)
    (_ : (zReached E grow w cs).store a = some r) (_ : ((zReached E grow w cs).records r).current = some p) :
    (∀ x ∈ ((zReached E grow w cs).records r).previous.items, x ≠ none) ∧ (∀ x ∈ ((zReached E grow w cs).states p).chains.items, x ≠ none) ∧
      ∀ c ∈ ((zReached E grow w cs).states p).chains.live, ∀ x ∈ c.keys.items, x ≠ none := by
  have hk := (sliceRun_sim E grow w hw cs).2.2
  have key : ∀ {α : Type} {s : PtrSlice α}, s.Shows s.live → ∀ x ∈ s.items, x ≠ none := by
    intro α s hs x hx hn
    rw [hs.items] at hx
    subst hn
    simp at hx
  exact ⟨key (hk.records r), key (hk.states p).chains.shows, fun c hc => key ((hk.states p).keys c hc)⟩

/-! ## C101 -/

namespace Ex

/-- The in-memory store, and arrays that are made twice as long as needed. -/
def zhInMem : HEnv := ⟨sharing, false⟩

/-- Bob reads Alice's second message, then the first, which was late. -/
def zhLate : List Call := [⟨.decrypt alice m2, bob0.rand, []⟩, ⟨.decrypt alice m1, randomness 3, []⟩]

end Ex

/-- C101 does not hold as stated for the in-memory store: Bob has read both messages and the stored session has no message key left, but one of its arrays still
points to the key of the message that was late. -/
theorem C101_used_keys_gone_false : ∃ (E : HEnv) (grow : Nat → Nat) (w : World) (cs : List Call) (a : Address) (r p : Nat), w.NoSessions ∧ (zReached E grow w cs).store a = some r ∧
    ((zReached E grow w cs).records r).current = some p ∧ (∀ c ∈ ((zReached E grow w cs).states p).value.receiverChains, c.messageKeys = []) ∧
      ((zReached E grow w cs).states p).hiddenKeys.map (·.index) = [0] ∧ ((sliceRun E cs (.start grow w)).1.map fun | .plaintext _ pt => pt | _ => none) = [some [4], some [1, 2, 3]] ∧
      cs.map (·.op) = [.decrypt a m2, .decrypt a m1] ∧ m1.position.map Prod.snd = some 0 :=
  ⟨zhInMem, fun n => n, bob0, zhLate, alice, 0, 2, fun _ => rfl, by decide +kernel, by decide +kernel, by decide +kernel, by decide +kernel, by decide +kernel, rfl, by decide +kernel⟩

/-- C101, stores that keep serialised records: no array of a stored session points to a message key that the session no longer has, so used and dropped keys are
gone. -/
theorem C101_serialised_partial (E : HEnv) (hE : E.Serialises) (grow : Nat → Nat) (w : World) (cs : List Call) (a : Address) (r p : Nat)
    (hr : (zReached E grow w cs).store a = some r) (hp : ((zReached E grow w cs).records r).current = some p) : ((zReached E grow w cs).states p).hiddenKeys = [] :=
  (((ZInv.start E grow w).run cs).serial hE a r hr |>.2 p hp).hiddenKeys

/-- C101, all stores: at most one message key stays behind in a stored session, however many have been used or dropped. -/
theorem C101_at_most_one_partial (E : HEnv) (grow : Nat → Nat) (w : World) (cs : List Call) (a : Address) (r p : Nat)
    (_ : (zReached E grow w cs).store a = some r) (hp : ((zReached E grow w cs).records r).current = some p) : ((zReached E grow w cs).states p).hiddenKeys.length ≤ 1 :=
  (((ZInv.start E grow w).run cs).linked r p hp).2

/-- C101, all stores: when a message is read that had not been skipped, nothing stays behind: also a key that stayed behind before is gone. -/
theorem C101_next_message_partial (E : HEnv) (grow : Nat → Nat) (w : World) (hw : w.NoSessions) (cs : List Call) (c : Call) (a : Address) (m : Ciphertext) (sig : Signal) (pt : Bytes)
    (hc : c.op = .decrypt a m) (hm : m.inner = some sig) (ho : (c.sliceRun E (zReached E grow w cs)).1 = .plaintext a (some pt))
    (hk : ∀ rec, (runCalls E.toEnv cs w).2.sessions a = some rec → ¬rec.KeepsKeyFor sig) :
    ∃ r p, (c.sliceRun E (zReached E grow w cs)).2.store a = some r ∧ ((c.sliceRun E (zReached E grow w cs)).2.records r).current = some p ∧
      ((c.sliceRun E (zReached E grow w cs)).2.states p).hiddenKeys = [] := by
  have hv := (sliceRun_sim E grow w hw cs).2.1
  obtain ⟨r, p, e1, e2, e3⟩ := ((ZInv.start E grow w).run cs).callTidy hc ho hm fun r hr => hk _ (by rw [← hv]; show ((zReached E grow w cs).store a).map _ = _; rw [hr]; rfl)
  exact ⟨r, p, e1, e2, (e3 trivial).hiddenKeys⟩

/-- C101, all stores: setting up a new session leaves no message key behind in it. -/
theorem C101_new_session_partial (E : HEnv) (grow : Nat → Nat) (w : World) (cs : List Call) (c : Call) (a : Address) (b : Bundle) (hc : c.op = .bundle a b)
    (ho : (c.sliceRun E (zReached E grow w cs)).1 = .done) : ∃ r p, (c.sliceRun E (zReached E grow w cs)).2.store a = some r ∧
      ((c.sliceRun E (zReached E grow w cs)).2.records r).current = some p ∧ ((c.sliceRun E (zReached E grow w cs)).2.states p).hiddenKeys = [] := by
  obtain ⟨r, p, e1, e2, e3⟩ := ((ZInv.start E grow w).run cs).callBundle hc ho
  exact ⟨r, p, e1, e2, (e3 trivial).hiddenKeys⟩

/-! ## C102 -/

/-- C102 does not hold as stated for the in-memory store: after forty-three set-ups the record has forty archived sessions, and its array still points to one that
was pushed out. -/
theorem C102_evicted_sessions_gone_false : ∃ (E : HEnv) (grow : Nat → Nat) (w : World) (cs : List Call) (a : Address) (r : Nat), w.NoSessions ∧ (zReached E grow w cs).store a = some r ∧
    ∃ b ∈ ((zReached E grow w cs).records r).previous.hidden, b ∉ ((zReached E grow w cs).records r).previous.live ∧ ∃ s, SState.unmarshal b = .ok s ∧ s.senderChain.isSome := by
  have key : let h := zReached zhInMem (fun n => n) alice0 ((List.range 43).map fun i => ⟨.bundle bob bundle, randomness i, []⟩)
      h.store bob = some 0 ∧ ∃ b ∈ (h.records 0).previous.hidden, b ∉ (h.records 0).previous.live ∧ (match SState.unmarshal b with | .ok s => s.senderChain.isSome | _ => false) = true := by decide +kernel
  obtain ⟨k1, b, k2, k3, k4⟩ := key
  refine ⟨_, _, _, _, _, _, fun _ => rfl, k1, b, k2, k3, ?_⟩
  cases hs : SState.unmarshal b with
  | ok s => rw [hs] at k4; exact ⟨s, rfl, k4⟩
  | err e => rw [hs] at k4; cases k4
  | panic => rw [hs] at k4; cases k4

/-- C102, stores that keep serialised records: the array behind the archived sessions of a stored record points only to sessions that the record has. -/
theorem C102_serialised_partial (E : HEnv) (hE : E.Serialises) (grow : Nat → Nat) (w : World) (cs : List Call) (a : Address) (r : Nat) (hr : (zReached E grow w cs).store a = some r) :
    ((zReached E grow w cs).records r).previous.hidden = [] :=
  (((ZInv.start E grow w).run cs).serial hE a r hr).1.hidden

/-- C102, all stores: as long as fewer than forty sessions are archived, nothing stays behind: also a session that was archived and has been made the current one
again is no longer among them. -/
theorem C102_before_the_limit_partial (E : HEnv) (grow : Nat → Nat) (w : World) (hw : w.NoSessions) (cs : List Call) (a : Address) (r : Nat) (_ : (zReached E grow w cs).store a = some r)
    (hlen : ((zReached E grow w cs).records r).previous.live.length < maxArchivedStates) : ((zReached E grow w cs).records r).previous.hidden = [] := by
  rcases ((ZInv.start E grow w).run cs).prev r with hc | hc
  · exact hc.hidden
  · rw [((sliceRun_sim E grow w hw cs).2.2.records r).length] at hc
    exact absurd hlen (Nat.not_lt.mpr hc)

/-! ## Concrete cases -/

/-- Both messages are read, with every kind of store, also when arrays have no room. -/
example : ∀ aliased copies : Bool, ∀ room ∈ [0, 3], (sliceRun ⟨⟨toy, aliased, tofu⟩, copies⟩ zhLate (.start (fun _ => room) bob0)).1.map (fun | .plaintext _ p => p | _ => none) =
    [some [4], some [1, 2, 3]] := by decide +kernel

/-- The store that keeps copies: nothing is hidden after the late message. -/
example : let h := zReached ⟨copying, true⟩ (fun n => n) bob0 zhLate
    ((h.store alice).bind fun r => (h.records r).current).map (fun p => (h.states p).hiddenKeys.length) = some 0 := by decide +kernel

namespace Ex

/-- Whether the call returned this text. -/
def Out.isText (a : Address) (pt : Bytes) : Out → Bool
  | .plaintext b p => b = a && p = some pt
  | _ => false

theorem Out.isText_eq {a : Address} {pt : Bytes} {o : Out} (h : Out.isText a pt o = true) : o = .plaintext a (some pt) := by
  cases o <;> simp_all [Out.isText]

/-- Whether the call returned nothing but success. -/
def Out.isDone : Out → Bool
  | .done => true
  | _ => false

theorem Out.isDone_eq {o : Out} (h : Out.isDone o = true) : o = .done := by
  cases o <;> simp_all [Out.isDone]

/-- Alice's third message. -/
def zhThird : Ciphertext := outMsg (encryptMessage copying bob [7] alice3)

end Ex

/-- The in-memory store: one key stays behind, also when Bob answers; it is gone after the third message. -/
example : (let h := zReached zhInMem (fun n => n) bob0 (zhLate ++ [⟨.encrypt alice [9], [], []⟩]);
      ((h.store alice).bind fun r => (h.records r).current).map (fun p => (h.states p).hiddenKeys.length) = some 1) ∧
    (let h := zReached zhInMem (fun n => n) bob0 (zhLate ++ [⟨.encrypt alice [9], [], []⟩, ⟨.decrypt alice zhThird, [], []⟩]);
      ((h.store alice).bind fun r => (h.records r).current).map (fun p => (h.states p).hiddenKeys.length) = some 0) := by decide +kernel

/-- The hypotheses of `C101_next_message_partial` are met by the third message after the late one. -/
example : zhThird.inner.isSome ∧ ((⟨.decrypt alice zhThird, [], []⟩ : Call).sliceRun zhInMem (zReached zhInMem (fun n => n) bob0 zhLate)).1 = .plaintext alice (some [7]) ∧
    ∀ sig rec, (runCalls zhInMem.toEnv zhLate bob0).2.sessions alice = some rec → ¬rec.KeepsKeyFor sig := by
  refine ⟨by decide +kernel, Ex.Out.isText_eq (by decide +kernel), fun sig rec hr => ?_⟩
  have key : ((runCalls zhInMem.toEnv zhLate bob0).2.sessions alice).map (fun r => (r.current.map fun s => s.receiverChains.map (·.messageKeys), r.previous)) = some (some [[]], []) := by decide +kernel
  rw [hr] at key
  simp only [Option.map_some, Option.some.injEq, Prod.mk.injEq] at key
  rintro (⟨s, hs, c, hc, _, k, hk, _⟩ | ⟨b, hb, _⟩)
  · have key := key.1
    rw [hs] at key
    simp only [Option.map_some, Option.some.injEq] at key
    have : c.messageKeys ∈ s.receiverChains.map (·.messageKeys) := List.mem_map_of_mem hc
    rw [key, List.mem_singleton] at this
    rw [this] at hk
    cases hk
  · rw [key.2] at hb
    cases hb

/-- The hypotheses of `C101_new_session_partial` and `C102_before_the_limit_partial` are met: Alice sets up a session twice. -/
example : let c : Call := ⟨.bundle bob bundle, randomness 1, []⟩
    (c.sliceRun zhInMem (zReached zhInMem (fun n => n) alice0 [c])).1 = .done ∧ (zReached zhInMem (fun n => n) alice0 [c, c]).store bob = some 0 ∧
      ((zReached zhInMem (fun n => n) alice0 [c, c]).records 0).previous.live.length = 1 := by
  exact ⟨Ex.Out.isDone_eq (by decide +kernel), by decide +kernel, by decide +kernel⟩

end Verif
