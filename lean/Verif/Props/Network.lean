import Verif.Proofs.Network
import Verif.Props.Trouble

/-!
# Delivery in a network of users: C116
-/

namespace Verif

open Ex

variable {ι : Type} [DecidableEq ι]

theorem Net.between_start (w : ι → World) (i j : ι) : (NSys.between { world := w } i j) = { world := fun s => w (pick i j s) } := rfl

/-- **C116.** Any number of users start sessions with each other and exchange messages, each with any others at the same time, from the same
stores. Store calls may fail, calls may be cut off by crashes, messages may be lost, reordered, repeated and invented. Whenever after
all this a message that user `j` has sent to user `i` is delivered to a store that works, and is inside the windows of the session in
which it was sent, DecryptMessage returns its plaintext. What is asked of random bytes, of the number of sessions and of the windows is asked
only of these two users. -/
theorem C116_delivery (N : Net ι) (w : ι → World) (h : N.NoSessionYet w) (es : List (NEvent ι)) (hok : N.Ok { world := w } es)
    (hlen : es.length ≤ 2 ^ 32) (i j : ι) (hij : i ≠ j) (n : Nat) (rand : Bytes)
    (hf : MFreshKeys N.C (es.filterMap (NEvent.between i j) ++ [.deliver .alice n rand]))
    (hfew : ((es.filterMap (NEvent.between i j)).filterMap MEvent.opens).length ≤ 41) (c : Ciphertext) (pt name : Bytes) (k : PubKey) (m : UInt32)
    (hc : ((N.run { world := w } es).sent j i)[n]? = some (c, pt, name)) (hp : c.position = some (k, m))
    (hdel : ((N.run { world := w } es).between i j).DeliveryOk (N.duo i j) .alice c name k m rand)
    (hw : InWindow (((N.run { world := w } es).between i j).gotIn .alice name) k m) :
    ((N.duo i j).receive .alice c rand ((N.run { world := w } es).world i)).1 = .ok (some pt) := by
  obtain ⟨hs, h1, h2, h3, h4⟩ := h.inv.run h.address hij es hok
  have hi : (N.run { world := w } es).world i = ((N.run { world := w } es).between i j).world .alice := rfl
  have hc' : (((N.run { world := w } es).between i j).sent Side.alice.other)[n]? = some (c, pt, name) := hc
  rw [hi]
  rw [h1] at hc' hdel hw ⊢
  rw [Net.between_start] at hc' hdel hw h2 ⊢
  rw [← h3] at hf hfew
  exact C82_delivery (N.duo i j) (fun s => w (pick i j s)) (h.pair i j hij) hs .alice n rand hf h2 (by omega) hfew c pt name k m hc' hp hdel hw

/-- **C116.** Even when store calls fail during the call, a plaintext that is returned for a message of user `j` is the one that `j` encrypted
for user `i`. -/
theorem C116_exact (N : Net ι) (w : ι → World) (h : N.NoSessionYet w) (es : List (NEvent ι)) (hok : N.Ok { world := w } es)
    (hlen : es.length ≤ 2 ^ 32) (i j : ι) (n : Nat) (rand : Bytes) (faults : List Fault)
    (hf : MFreshKeys N.C (es.filterMap (NEvent.between i j) ++ [.deliver .alice n rand]))
    (hfew : ((es.filterMap (NEvent.between i j)).filterMap MEvent.opens).length ≤ 41) (c : Ciphertext) (pt name p : Bytes)
    (hc : ((N.run { world := w } es).sent j i)[n]? = some (c, pt, name))
    (hev : NEvent.Ok N (N.run { world := w } es) (.deliver i j n rand faults))
    (hr : ((N.duo i j).receiveWith .alice c rand faults ((N.run { world := w } es).world i)).1 = .ok (some p)) : p = pt := by
  obtain ⟨hij, hfa, hdel⟩ := hev
  obtain ⟨hs, h1, h2, h3, h4⟩ := h.inv.run h.address hij es hok
  have hi : (N.run { world := w } es).world i = ((N.run { world := w } es).between i j).world .alice := rfl
  have hc' : (((N.run { world := w } es).between i j).sent Side.alice.other)[n]? = some (c, pt, name) := hc
  have hev' : HEvent.Ok (N.duo i j) ((N.run { world := w } es).between i j) (.deliver .alice n rand faults) := ⟨hfa, hdel⟩
  rw [hi] at hr
  rw [h1] at hc' hev' hr
  rw [Net.between_start] at hc' hev' hr h2
  rw [← h3] at hf hfew
  exact C82_exact (N.duo i j) (fun s => w (pick i j s)) (h.pair i j hij) hs .alice n rand faults hf h2 (by omega) hfew c pt name p hc' hev' hr

/-- **C116.** After any such schedule, whoever has a stored session with another user or has accepted a message of theirs can send to them, once the
stores work. -/
theorem C116_sending (N : Net ι) (w : ι → World) (h : N.NoSessionYet w) (es : List (NEvent ι)) (hok : N.Ok { world := w } es)
    (hlen : es.length ≤ 2 ^ 32) (i j : ι) (hij : i ≠ j) (hf : MFreshKeys N.C (es.filterMap (NEvent.between i j)))
    (hfew : ((es.filterMap (NEvent.between i j)).filterMap MEvent.opens).length ≤ 41)
    (hs : ((N.run { world := w } es).world i).sessions (N.address j) ≠ none ∨ (N.run { world := w } es).got i j ≠ []) (pt : Bytes) :
    ∃ c, (encryptMessage (N.env i) (N.address j) pt { (N.run { world := w } es).world i with faults := [] }).1 = .ok c := by
  obtain ⟨hs', h1, h2, h3, h4⟩ := h.inv.run h.address hij es hok
  rw [Net.between_start] at h1 h2
  rw [← h3] at hf hfew
  have := C82_sending (N.duo i j) (fun s => w (pick i j s)) (h.pair i j hij) hs' hf h2 (by omega) hfew .alice (by rw [← h1]; exact hs) pt
  rw [← h1] at this
  exact this

/-- **C116.** Any user can start a session with any other at any time: ProcessPreKeyBundle succeeds once the stores work. -/
theorem C116_starting (N : Net ι) (w : ι → World) (h : N.NoSessionYet w) (es : List (NEvent ι)) (hok : N.Ok { world := w } es)
    (hlen : es.length ≤ 2 ^ 32) (i j : ι) (b : Bundle) (rand : Bytes)
    (hf : MFreshKeys N.C (es.filterMap (NEvent.between i j) ++ [.start .alice b rand]))
    (hfew : ((es.filterMap (NEvent.between i j)).filterMap MEvent.opens).length ≤ 40)
    (hev : NEvent.Ok N (N.run { world := w } es) (.start i j b rand [])) :
    (processPreKeyBundle (N.env i) (N.address j) b { (N.run { world := w } es).world i with rand := rand, faults := [] }).1 = .ok () := by
  obtain ⟨hij, hoff, honce⟩ := hev
  obtain ⟨hs, h1, h2, h3, h4⟩ := h.inv.run h.address hij es hok
  have hev' : HEvent.Ok (N.duo i j) ((N.run { world := w } es).between i j) (.start .alice b rand []) := by
    refine ⟨hoff, fun x hx hside => ?_⟩
    simp only [NSys.between, List.mem_filterMap, Option.map_eq_some_iff] at hx
    obtain ⟨⟨k, l, b', name⟩, hmem, s', hs', rfl⟩ := hx
    simp only at hside hs' ⊢
    subst hside
    obtain ⟨rfl, rfl⟩ := sideOf_some hs'
    exact honce _ _ _ hmem
  rw [Net.between_start] at h1 h2
  rw [← h3] at hf hfew
  rw [h1] at hev'
  have := C82_starting (N.duo i j) (fun s => w (pick i j s)) (h.pair i j hij) hs .alice b rand hf h2 hev' (by omega) hfew
  rw [← h1] at this
  exact this

/-! ### A network that meets the hypotheses -/

namespace Ex

/-- Alice, Bob and Carol. Carol uses the in-memory store. -/
def three : Net (Fin 3) :=
  { C := toy, aliased := fun i => decide (i = 2), trusted := fun _ => tofu, address := fun i => match i with | 0 => alice | 1 => bob | 2 => thirdUser }

def threeWorlds : Fin 3 → World
  | 0 => alice0
  | 1 => { bob0 with preKeys := fun i => if i = 5 then some (PreKeyRec.new (pair 3)) else if i = 8 then some (PreKeyRec.new (pair 7)) else none }
  | 2 => { alice0 with identity := pair 5, regId := 33 }

/-- A bundle of Bob's with another one-time pre-key. -/
def bundleForCarol : Bundle := { bundle with preKeyID := some 8, preKeyPublic := some (pair 7).pub }

def carolsFirst : Ciphertext :=
  outMsg (encryptMessage sharing bob [7] (processPreKeyBundle sharing bob bundleForCarol { threeWorlds 2 with rand := randomness 2 }).2)
def carolsForged : Ciphertext :=
  match carolsFirst with
  | .preKey m => .preKey { m with message := { m.message with serialized := m.message.serialized.map (· ^^^ 1) } }
  | c => c

/-- Alice and Carol both start a session with Bob and write to him. Bob gets a forged copy of Carol's message, then her message, then Alice's, and
answers Alice. Bob's store fails when Carol's message is first delivered. -/
def meeting : List (NEvent (Fin 3)) :=
  [.start 0 1 bundle (randomness 1) [], .start 2 1 bundleForCarol (randomness 2) [], .send 2 1 [7] [], .send 0 1 [1] [],
    .inject 1 thirdUser carolsForged (supply 6) [], .deliver 1 2 0 (supply 3) [.before], .deliver 1 2 0 (supply 3) [],
    .deliver 1 0 0 (supply 4) [],
    .send 1 0 [2] []]

def meetingAt (i : Nat) : NSys (Fin 3) := three.run { world := threeWorlds } (meeting.take i)

def bobsAnswer : Ciphertext := ((((meetingAt 9).sent 1 0)[0]?).map (·.1)).getD noMessage
def bobsAnswerName : Bytes := ((((meetingAt 9).sent 1 0)[0]?).map (·.2.2)).getD []
def bobsAnswerPosition : PubKey × UInt32 := bobsAnswer.position.getD ((pair 1).pub, 0)

end Ex

theorem Ex.nstep_WF {N : Net ι} {S : NSys ι} (h : ∀ i, (S.world i).WF) (e : NEvent ι) : ∀ i, ((N.step S e).world i).WF := by
  have up : ∀ (t : ι) (W : World), W.WF → ∀ s, (upd S.world t W s).WF := by
    intro t W hW s
    by_cases hs : s = t
    · subst hs; rw [upd_same]; exact hW
    · rw [upd_ne _ _ hs]; exact h s
  cases e with
  | start k l b rand faults => exact up k _ ((h k).call (E := N.env k) (c := ⟨.bundle (N.address l) b, rand, faults⟩))
  | send k l pt faults =>
    have hW := (h k).call (E := N.env k) (c := ⟨.encrypt (N.address l) pt, (S.world k).rand, faults⟩)
    simp only [Net.step]
    split <;> exact up k _ hW
  | deliver k l n rand faults =>
    simp only [Net.step]
    split
    · exact h
    · rename_i c _ _ _
      have hW : ((N.duo k l).receiveWith .alice c rand faults (S.world k)).2.WF := by
        unfold Duo.receiveWith
        split
        · exact (h k).call (E := N.env k) (c := ⟨.decrypt (N.address l) _, rand, faults⟩)
        · exact h k
        · exact h k
      split <;> exact up k _ hW
  | inject k a c rand faults => exact up k _ ((h k).call (E := N.env k) (c := ⟨.decrypt a c, rand, faults⟩))
  | keys k pk spk => exact up k _ (h k)

theorem Ex.nrun_WF {N : Net ι} (es : List (NEvent ι)) : ∀ {S : NSys ι}, (∀ i, (S.world i).WF) → ∀ i, ((N.run S es).world i).WF := by
  induction es with
  | nil => exact fun h => h
  | cons e es ih => exact fun h => ih (nstep_WF h e)

theorem Ex.meeting_WF (n : Nat) (i : Fin 3) : ((meetingAt n).world i).WF :=
  nrun_WF _ (fun i a r hr => by
    match i with
    | 0 => cases hr
    | 1 => cases hr
    | 2 => cases hr) i

theorem Ex.nok_of {N : Net ι} (es : List (NEvent ι)) : ∀ (S : NSys ι), (∀ (i : Nat) (e : NEvent ι), es[i]? = some e → e.Ok N (N.run S (es.take i))) → N.Ok S es := by
  induction es with
  | nil => intro _ _; trivial
  | cons e es ih =>
    intro S h
    refine ⟨h 0 e rfl, ih _ fun i e' he => ?_⟩
    have := h (i + 1) e' (by simpa using he)
    simpa [Net.run] using this

theorem Ex.three_new : three.NoSessionYet threeWorlds := by
  have htofu : ∀ (known : Address → Option PubKey) (a : Address) (k : PubKey) (dir : Direction), known a = none ∨ known a = some k → tofu known a k dir = true := by
    intro known a k dir h
    rcases h with h | h <;> simp [tofu, h]
  refine ⟨?_, by decide, ?_⟩
  · intro i
    refine .start fun a => ?_
    match i with
    | 0 => rfl
    | 1 => rfl
    | 2 => rfl
  · have hk : ∀ i a, (threeWorlds i).known a = none ∧ (threeWorlds i).sessions a = none ∧ (threeWorlds i).identity.Matched toy := by
      intro i a
      match i with
      | 0 => exact ⟨rfl, rfl, rfl⟩
      | 1 => exact ⟨rfl, rfl, rfl⟩
      | 2 => exact ⟨rfl, rfl, rfl⟩
    intro i j _
    exact ⟨fun s => (hk _ _).2.1, fun s => (hk _ alice).2.2, fun s => ⟨.inl (hk _ _).1, fun known dir h => htofu known _ _ dir h⟩⟩

theorem Ex.meeting_fresh : MFreshKeys three.C (meeting.filterMap (NEvent.between 0 1) ++ [.deliver .alice 0 (supply 5)]) := by
  refine ⟨⟨?_, ?_⟩, ?_, ?_⟩ <;> decide +kernel

theorem Ex.meeting_check : deliveryCheck (three.duo 1 2) ((meetingAt 5).between 1 2) .alice 0 = true ∧
    deliveryCheck (three.duo 1 2) ((meetingAt 6).between 1 2) .alice 0 = true ∧
    deliveryCheck (three.duo 1 0) ((meetingAt 7).between 1 0) .alice 0 = true ∧
    deliveryCheck (three.duo 0 1) ((meetingAt 9).between 0 1) .alice 0 = true := by decide +kernel

theorem Ex.meeting_deliver {S : NSys (Fin 3)} {i j : Fin 3} {n : Nat} {rand : Bytes} {faults : List Fault} (hij : i ≠ j)
    (hf : faults = [] ∨ three.aliased i = false) (hw : (S.world i).WF) (h : deliveryCheck (three.duo i j) (S.between i j) .alice n = true) :
    NEvent.Ok three S (.deliver i j n rand faults) := by
  have hd : MEvent.Ok (three.duo i j) (S.between i j) (.deliver .alice n rand) := deliveryCheck_ok rfl hw h
  exact ⟨hij, hf, fun c pt name k m hc hp => hd c pt name k m hc hp⟩

theorem Ex.meeting_injection : ((meetingAt 4).between 1 2).InjectionOk (three.duo 1 2) .alice carolsForged (supply 6) := by
  refine ⟨?_, ?_, fun _ _ => rfl⟩
  · intro p hp
    have : (match (decryptMessage ((three.duo 1 2).env .alice) ((three.duo 1 2).address Side.alice.other) carolsForged
        { ((meetingAt 4).between 1 2).world .alice with rand := supply 6, faults := [] }).1 with
      | .ok (some _) => false
      | _ => true) = true := by decide +kernel
    rw [hp] at this
    cases this
  · intro m hm _
    have : (match carolsForged with
      | .preKey m => decide (m.identityKey = (((meetingAt 4).between 1 2).world Side.alice.other).identity.pub)
      | _ => true) = true := by decide +kernel
    rw [hm] at this
    exact of_decide_eq_true this

theorem Ex.meeting_six : NEvent.Ok three (meetingAt 6) (.deliver 1 2 0 (supply 3) []) :=
  meeting_deliver (by decide) (.inr rfl) (meeting_WF 6 1) meeting_check.2.1
theorem Ex.meeting_seven : NEvent.Ok three (meetingAt 7) (.deliver 1 0 0 (supply 4) []) :=
  meeting_deliver (by decide) (.inr rfl) (meeting_WF 7 1) meeting_check.2.2.1

theorem Ex.meeting_ok : three.Ok { world := threeWorlds } meeting := by
  refine nok_of _ _ ?_
  intro i e he
  change e.Ok three (meetingAt i)
  match i, he with
  | 0, he =>
    simp only [meeting, List.getElem?_cons_zero, Option.some.injEq] at he; subst he
    refine ⟨by decide, ⟨⟨rfl, rfl⟩, ⟨pair 4, rfl, rfl, rfl⟩, by decide +kernel, .inr ⟨5, pair 3, by decide, rfl, rfl, rfl, rfl⟩⟩, ?_⟩
    intro k b' name hmem
    exact absurd hmem List.not_mem_nil
  | 1, he =>
    simp only [meeting, List.getElem?_cons_zero, List.getElem?_cons_succ, Option.some.injEq] at he; subst he
    refine ⟨by decide, ⟨⟨rfl, rfl⟩, ⟨pair 4, rfl, rfl, rfl⟩, by decide +kernel, .inr ⟨8, pair 7, by decide, rfl, rfl, rfl, rfl⟩⟩, ?_⟩
    intro k b' name hmem id hid
    have : b' = bundle := by
      rw [show (meetingAt 1).started = [(0, 1, bundle, _)] from rfl, List.mem_singleton] at hmem
      exact congrArg (fun x => x.2.2.1) hmem
    subst this
    simp only [bundle, Option.some.injEq] at hid
    subst hid
    decide
  | 2, he => simp only [meeting, List.getElem?_cons_zero, List.getElem?_cons_succ, Option.some.injEq] at he; subst he; exact ⟨by decide, by decide⟩
  | 3, he => simp only [meeting, List.getElem?_cons_zero, List.getElem?_cons_succ, Option.some.injEq] at he; subst he; exact ⟨by decide, by decide⟩
  | 4, he =>
    simp only [meeting, List.getElem?_cons_zero, List.getElem?_cons_succ, Option.some.injEq] at he; subst he
    refine ⟨?_, ?_⟩
    · intro j hj ha
      have : j = 2 := by
        revert ha
        match j with
        | 0 => decide
        | 1 => decide
        | 2 => decide
      subst this
      exact meeting_injection
    · intro h
      exact absurd rfl (h 2 (by decide))
  | 5, he =>
    simp only [meeting, List.getElem?_cons_zero, List.getElem?_cons_succ, Option.some.injEq] at he
    subst he; exact meeting_deliver (S := meetingAt 5) (by decide) (.inr rfl) (meeting_WF 5 1) meeting_check.1
  | 6, he =>
    simp only [meeting, List.getElem?_cons_zero, List.getElem?_cons_succ, Option.some.injEq] at he
    subst he; exact meeting_six
  | 7, he =>
    simp only [meeting, List.getElem?_cons_zero, List.getElem?_cons_succ, Option.some.injEq] at he
    subst he; exact meeting_seven
  | 8, he => simp only [meeting, List.getElem?_cons_zero, List.getElem?_cons_succ, Option.some.injEq] at he; subst he; exact ⟨by decide, by decide⟩
  | i + 9, he => simp [meeting] at he

/-- Bob has taken in both messages, and both one-time pre-keys are gone. -/
example : ((meetingAt 9).got 1 2).length = 1 ∧ ((meetingAt 9).got 1 0).length = 1 ∧ (((meetingAt 9).world 1).preKeys 5).isNone = true ∧
    (((meetingAt 9).world 1).preKeys 8).isNone = true := by decide +kernel

theorem Ex.bobsAnswer_sent : ((meetingAt 9).sent 1 0)[0]? = some (bobsAnswer, [2], bobsAnswerName) := by decide +kernel
theorem Ex.bobsAnswer_position : bobsAnswer.position = some (bobsAnswerPosition.1, bobsAnswerPosition.2) := by decide +kernel
theorem Ex.bobsAnswer_inWindow : InWindow (((meetingAt 9).between 0 1).gotIn .alice bobsAnswerName) bobsAnswerPosition.1 bobsAnswerPosition.2 := by
  refine ⟨.inr ?_, ?_, ?_, ?_⟩ <;> decide +kernel

/-- Alice reads Bob's answer. -/
example : ((three.duo 0 1).receive .alice bobsAnswer (supply 5) ((meetingAt 9).world 0)).1 = .ok (some [2]) := by
  have h := C116_delivery three threeWorlds three_new meeting meeting_ok (by decide) 0 1 (by decide) 0 (supply 5) meeting_fresh (by decide) bobsAnswer [2]
    bobsAnswerName bobsAnswerPosition.1 bobsAnswerPosition.2
  have e : three.run { world := threeWorlds } meeting = meetingAt 9 := rfl
  rw [e] at h
  have hd : NEvent.Ok three (meetingAt 9) (.deliver 0 1 0 (supply 5) []) := meeting_deliver (by decide) (.inl rfl) (meeting_WF 9 0) meeting_check.2.2.2
  exact h bobsAnswer_sent bobsAnswer_position (hd.2.2 _ _ _ _ _ bobsAnswer_sent bobsAnswer_position) bobsAnswer_inWindow

end Verif
