import Verif.Proofs.Sessions7
import Verif.Spec.Example

/-!
# Delivery between two users with several sessions: C77
-/

namespace Verif

open Ex

/-- **C77.** Two users process bundles of each other, at any time and in any order, up to 41 times, so that sessions are started from
both sides at once and replaced while messages are on their way; between these, messages are sent and delivered, lost, reordered and
repeated. Whenever a message of the other side is delivered (as bytes) and is inside the windows of the session in which it was sent,
DecryptMessage returns its plaintext, whichever session is current by then. The session stores may be of either kind. -/
theorem C77_delivery (d : Duo) (w : Side → World) (h : d.NoSessionYet w) (es : List MEvent) (s : Side) (i : Nat) (rand : Bytes)
    (hf : MFreshKeys d.C (es ++ [.deliver s i rand])) (hok : d.MOk { world := w } (es ++ [.deliver s i rand])) (hlen : es.length ≤ 2 ^ 32)
    (hfew : (es.filterMap MEvent.opens).length ≤ 41) (c : Ciphertext) (pt name : Bytes) (k : PubKey) (n : UInt32)
    (hc : ((d.mrun { world := w } es).sent s.other)[i]? = some (c, pt, name)) (hp : c.position = some (k, n))
    (hw : InWindow ((d.mrun { world := w } es).gotIn s name) k n) :
    (d.receive s c rand ((d.mrun { world := w } es).world s)).1 = .ok (some pt) := by
  obtain ⟨hok1, hok2⟩ := Duo.MOk.split _ es _ hok
  obtain ⟨htr, hI, ha⟩ := h.inv hf
  obtain ⟨Ts, hI, ha, hl⟩ := MInv.run htr _ es hI ha hok1 (by omega) (by simpa using hfew)
  have := (MInv.delivered htr (F' := []) (by simpa using ha.made) (by simpa using ha.nodup) (by simpa using hI) (by simp at hl; omega) hok2).2 c pt name hc
  exact this.2 k n hp hw

/-- **C77.** A plaintext that is returned is the one that was encrypted; and after that, the session of the message is the one that the
receiver answers in. -/
theorem C77_exact (d : Duo) (w : Side → World) (h : d.NoSessionYet w) (es : List MEvent) (s : Side) (i : Nat) (rand : Bytes)
    (hf : MFreshKeys d.C (es ++ [.deliver s i rand])) (hok : d.MOk { world := w } (es ++ [.deliver s i rand])) (hlen : es.length ≤ 2 ^ 32)
    (hfew : (es.filterMap MEvent.opens).length ≤ 41) (c : Ciphertext) (pt name p : Bytes)
    (hc : ((d.mrun { world := w } es).sent s.other)[i]? = some (c, pt, name))
    (hr : (d.receive s c rand ((d.mrun { world := w } es).world s)).1 = .ok (some p)) :
    p = pt ∧ (d.receive s c rand ((d.mrun { world := w } es).world s)).2.talksIn (d.address s.other) = name := by
  obtain ⟨hok1, hok2⟩ := Duo.MOk.split _ es _ hok
  obtain ⟨htr, hI, ha⟩ := h.inv hf
  obtain ⟨Ts, hI, ha, hl⟩ := MInv.run htr _ es hI ha hok1 (by omega) (by simpa using hfew)
  have := (MInv.delivered htr (F' := []) (by simpa using ha.made) (by simpa using ha.nodup) (by simpa using hI) (by simp at hl; omega) hok2).2 c pt name hc
  exact this.1 p hr

/-- **C77.** Whoever has started a session or accepted a message can send. -/
theorem C77_sending (d : Duo) (w : Side → World) (h : d.NoSessionYet w) (es : List MEvent) (hf : MFreshKeys d.C es)
    (hok : d.MOk { world := w } es) (hlen : es.length ≤ 2 ^ 32) (hfew : (es.filterMap MEvent.opens).length ≤ 41) (s : Side)
    (hs : (∃ x ∈ (d.mrun { world := w } es).started, x.1 = s) ∨ (d.mrun { world := w } es).got s ≠ []) (pt : Bytes) :
    ∃ c, (encryptMessage (d.env s) (d.address s.other) pt { (d.mrun { world := w } es).world s with faults := [] }).1 = .ok c := by
  obtain ⟨htr, hI, ha⟩ := h.inv hf
  obtain ⟨Ts, hI, _, _⟩ := MInv.run htr [] es (by simpa using hI) (by simpa using ha) hok (by omega) (by simpa using hfew)
  obtain ⟨rec, hr⟩ := hI.hasRecord hs
  obtain ⟨_, _, _, _, out, _, _, _, _, _, hrun⟩ := hI.sending htr s hr pt
  exact ⟨out, by rw [hrun]⟩

/-- **C77.** A session can be started at any time: ProcessPreKeyBundle succeeds, and the next message is sent in a session that has not
been used before. -/
theorem C77_starting (d : Duo) (w : Side → World) (h : d.NoSessionYet w) (es : List MEvent) (s : Side) (b : Bundle) (rand : Bytes)
    (hf : MFreshKeys d.C (es ++ [.start s b rand])) (hok : d.MOk { world := w } (es ++ [.start s b rand])) (hlen : es.length ≤ 2 ^ 32)
    (hfew : (es.filterMap MEvent.opens).length ≤ 40) :
    (processPreKeyBundle (d.env s) (d.address s.other) b { (d.mrun { world := w } es).world s with rand := rand, faults := [] }).1 = .ok () ∧
    ((∃ k : PubKey, publicKeyOf d.C rand = some k ∧ ((d.mrun { world := w } (es ++ [.start s b rand])).world s).talksIn (d.address s.other) = k.bytes) ∧
      ∀ x ∈ (d.mrun { world := w } es).started, x.2.2 ≠ ((d.mrun { world := w } (es ++ [.start s b rand])).world s).talksIn (d.address s.other)) := by
  obtain ⟨hok1, hok2⟩ := Duo.MOk.split _ es _ hok
  obtain ⟨htr, hI, ha⟩ := h.inv hf
  obtain ⟨Ts, hI, ha, hl⟩ := MInv.run htr _ es hI ha hok1 (by omega) (by have := hfew; simp only [List.length_nil]; omega)
  have hb := ha.names (rand, b.signedPreKeyPublic) (by simp [MEvent.opens])
  obtain ⟨h1, T, h2, h3, h4⟩ := MInv.starts htr (F' := []) (by simpa using ha.made) (by simpa using ha.nodup) (by simpa using hI)
    (by simp at hl; omega) hok2 (ha.signed (rand, b.signedPreKeyPublic) (by simp [MEvent.opens])) hb
  have hrun : d.mrun { world := w } (es ++ [.start s b rand]) = d.mstep (d.mrun { world := w } es) (.start s b rand) := by
    simp [Duo.mrun, List.foldl_append]
  rw [hrun]
  refine ⟨h1, ⟨T.base, h2, h4⟩, ?_⟩
  intro x hx
  rw [h4]
  rw [hI.list, List.mem_map] at hx
  obtain ⟨U, hU, rfl⟩ := hx
  exact (hb T.base h2 U hU).symm

/-! ### A conversation that meets the hypotheses -/

namespace Ex

/-- Alice's store returns copies, Bob uses the in-memory store; both trust on first use. -/
def pairOfUsers : Duo :=
  { C := toy, aliased := fun s => decide (s = .bob), trusted := fun _ => tofu, address := fun | .alice => alice | .bob => bob }

def bothWorlds : Side → World
  | .alice => { alice0 with signedPreKeys := fun i => if i = 7 then some (PreKeyRec.new (pair 9)) else none }
  | .bob => bob0

def bundleOfAlice : Bundle :=
  ⟨11, none, none, 7, (pair 9).pub, toy.sign (pair 1).priv.key [] (pair 9).pub.bytes, (pair 1).pub⟩

/-- Enough randomness for a delivery: 41 key pairs. -/
def supply (n : UInt8) : Bytes := (List.range 41).flatMap fun i => List.replicate 30 (UInt8.ofNat i) ++ [n, 0x41]

/-- Both start a session and send a message in it; each receives the other's message, and Alice answers. -/
def crossing : List MEvent :=
  [.start .alice bundle (randomness 1), .start .bob bundleOfAlice (randomness 2), .send .alice [1], .send .bob [2],
    .deliver .bob 0 (supply 3), .deliver .alice 0 (supply 4), .send .alice [3]]

def crossed : MSys := pairOfUsers.mrun { world := bothWorlds } crossing

def crossedLast : Ciphertext := (((crossed.sent .alice)[1]?).map (·.1)).getD noMessage
def crossedName : Bytes := (((crossed.sent .alice)[1]?).map (·.2.2)).getD []
def crossedPosition : PubKey × UInt32 := crossedLast.position.getD ((pair 1).pub, 0)

end Ex

theorem Ex.notYet : pairOfUsers.NoSessionYet bothWorlds := by
  have htofu : ∀ (known : Address → Option PubKey) (a : Address) (k : PubKey) (dir : Direction), known a = none ∨ known a = some k → tofu known a k dir = true := by
    intro known a k dir h
    rcases h with h | h <;> simp [tofu, h]
  refine ⟨?_, ?_, ?_⟩
  · intro s; cases s <;> rfl
  · intro s; cases s <;> rfl
  · intro s; cases s <;> exact ⟨.inl rfl, fun known dir h => htofu known _ _ dir h⟩

theorem Ex.crossing_fresh : MFreshKeys pairOfUsers.C (crossing ++ [.deliver .bob 1 (supply 5)]) := by
  refine ⟨⟨?_, ?_⟩, ?_, ?_⟩ <;> decide +kernel

/-- A check of a delivery: few chains, and the other sessions of the receiver reject the message. -/
def Ex.deliveryCheck (d : Duo) (S : MSys) (s : Side) (i : Nat) : Bool :=
  match (S.sent s.other)[i]? with
  | none => true
  | some (c, _, name) =>
    decide ((chainsSeen (S.gotIn s name)).length ≤ 5) &&
    match c.inner with
    | none => true
    | some m =>
      !((m.senderRatchetKey.key.map (· ^^^ 0x55)).all (· == 0)) && decide (m.counter.toNat ≤ 25000) &&
      match (S.world s).sessions (d.address s.other) with
      | none => true
      | some r =>
        let rejects (u : SState) : Bool :=
          u.aliceBaseKey == name || match (decryptMessageSession toy u m (List.replicate 32 1)).1 with
            | .ok _ => false
            | _ => true
        r.current.all rejects && r.previous.all fun b => match SState.unmarshal b with
          | .ok u => rejects u
          | _ => true

theorem Ex.deliveryCheck_ok {d : Duo} {S : MSys} {s : Side} {i : Nat} {rand : Bytes} (hC : d.C = toy) (hw : (S.world s).WF)
    (h : deliveryCheck d S s i = true) : MEvent.Ok d S (.deliver s i rand) := by
  intro c pt name k n hc hp
  unfold deliveryCheck at h
  rw [hc] at h
  simp only [Bool.and_eq_true, decide_eq_true_eq] at h
  obtain ⟨h1, h2⟩ := h
  obtain ⟨m, hm, hk, hn⟩ : ∃ m, c.inner = some m ∧ m.senderRatchetKey = k ∧ m.counter = n := by
    cases c <;> simp [Ciphertext.position, Ciphertext.inner] at hp ⊢ <;> exact hp
  rw [hm] at h2
  simp only [Bool.and_eq_true, decide_eq_true_eq] at h2
  obtain ⟨⟨h3, h4⟩, h5⟩ := h2
  refine ⟨?_, ?_, fun _ _ _ _ => by rw [← hn]; exact h4⟩
  · intro a1 a2
    rw [recentChains_eq, lastN_of_le h1] at a2
    exact absurd a1 a2
  · intro r u hr hu hne m' p hm' hread
    rw [hm] at hm'
    simp only [Option.some.injEq] at hm'
    subst hm'
    rw [hC] at hread
    obtain ⟨s', rd', hrun⟩ := ((hw _ r hr).state_of hu).reads hread (List.replicate 32 1) (by simp) (fun a => by
      simp only [Bool.not_eq_true'] at h3
      simp only [toy, toyDh, h3]
      rfl)
    rw [hr] at h5
    simp only [Bool.and_eq_true] at h5
    have : u.aliceBaseKey == name || (match (decryptMessageSession toy u m (List.replicate 32 1)).1 with
        | .ok _ => false
        | _ => true) = true := by
      rcases hu with hu | ⟨x, hx, hu⟩
      · have := h5.1
        rw [hu] at this
        simpa using this
      · have := List.all_eq_true.mp h5.2 x hx
        rw [hu] at this
        simpa using this
    rw [hrun] at this
    simp [hne] at this

theorem Ex.mstep_reachable {d : Duo} {S : MSys} (h : ∀ s, Reachable (d.env s) (S.world s)) (e : MEvent) : ∀ s, Reachable (d.env s) ((d.mstep S e).world s) := by
  have up : ∀ (t : Side) (W : World), Reachable (d.env t) W → ∀ s, Reachable (d.env s) (upd S.world t W s) := by
    intro t W hW s
    by_cases hs : s = t
    · subst hs; rw [upd_same]; exact hW
    · rw [upd_ne _ _ hs]; exact h s
  cases e with
  | start t b rand =>
    have hW := ((h t).other rand []).bundle (d.address t.other) b
    simp only [Duo.mstep]
    split <;> exact up t _ hW
  | send t pt =>
    have hW := ((h t).other (S.world t).rand []).encrypt (d.address t.other) pt
    simp only [Duo.mstep]
    split <;> exact up t _ hW
  | deliver t i rand =>
    simp only [Duo.mstep]
    split
    · exact h
    · rename_i c _ _ _
      have hW : Reachable (d.env t) (d.receive t c rand (S.world t)).2 := by
        unfold Duo.receive
        split
        · exact ((h t).other rand []).decrypt (d.address t.other) _
        · exact h t
        · exact h t
      split <;> exact up t _ hW

theorem Ex.mrun_reachable {d : Duo} (es : List MEvent) : ∀ {S : MSys}, (∀ s, Reachable (d.env s) (S.world s)) → ∀ s, Reachable (d.env s) ((d.mrun S es).world s) := by
  induction es with
  | nil => exact fun h => h
  | cons e es ih => exact fun h => ih (mstep_reachable h e)

theorem Ex.crossing_reachable (es : List MEvent) (s : Side) : Reachable (pairOfUsers.env s) ((pairOfUsers.mrun { world := bothWorlds } es).world s) :=
  mrun_reachable es (fun s => .start (by intro a; cases s <;> rfl)) s

theorem Ex.short_msend {d : Duo} {S : MSys} {s : Side} {pt : Bytes} (h : pt.length ≤ 100) : MEvent.Ok d S (.send s pt) := by
  show pt.length < 2 ^ 62
  omega

theorem Ex.mok_of {d : Duo} (es : List MEvent) : ∀ (S : MSys), (∀ (i : Nat) (e : MEvent), es[i]? = some e → e.Ok d (d.mrun S (es.take i))) → d.MOk S es := by
  induction es with
  | nil => intro _ _; trivial
  | cons e es ih =>
    intro S h
    refine ⟨h 0 e rfl, ih _ fun i e' he => ?_⟩
    have := h (i + 1) e' (by simpa using he)
    simpa [Duo.mrun] using this

/-- The conversation after the first `i` steps. -/
def Ex.crossingAt (i : Nat) : MSys := pairOfUsers.mrun { world := bothWorlds } ((crossing ++ [MEvent.deliver .bob 1 (supply 5)]).take i)

theorem Ex.crossing_start1 : MEvent.Ok pairOfUsers (crossingAt 0) (.start .alice bundle (randomness 1)) :=
  ⟨⟨⟨rfl, rfl⟩, ⟨pair 4, rfl, rfl, rfl⟩, by decide +kernel, .inr ⟨5, pair 3, by decide, rfl, rfl, rfl, rfl⟩⟩, by simp [crossingAt, Duo.mrun]⟩

theorem Ex.crossing_start2 : MEvent.Ok pairOfUsers (crossingAt 1) (.start .bob bundleOfAlice (randomness 2)) := by
  have h : (crossingAt 1).world .alice = (crossingAt 1).world .alice ∧ ((crossingAt 1).world Side.bob.other).identity = pair 1 ∧
    ((crossingAt 1).world Side.bob.other).signedPreKeys bundleOfAlice.signedPreKeyID = some (PreKeyRec.new (pair 9)) := ⟨rfl, by decide +kernel, by decide +kernel⟩
  refine ⟨⟨⟨?_, ?_⟩, ⟨pair 9, rfl, rfl, h.2.2⟩, by decide +kernel, .inl ⟨rfl, rfl⟩⟩, ?_⟩
  · rw [h.2.1]; rfl
  · rw [h.2.1]; rfl
  · intro _ _ _ _ _
    simp [bundleOfAlice]

theorem Ex.crossing_check : deliveryCheck pairOfUsers (crossingAt 4) .bob 0 = true ∧ deliveryCheck pairOfUsers (crossingAt 5) .alice 0 = true ∧
    deliveryCheck pairOfUsers (crossingAt 7) .bob 1 = true := by decide +kernel

theorem Ex.crossing_ok : pairOfUsers.MOk { world := bothWorlds } (crossing ++ [.deliver .bob 1 (supply 5)]) := by
  refine mok_of _ _ ?_
  intro i e he
  change e.Ok pairOfUsers (crossingAt i)
  have reach : ∀ i s, Reachable (pairOfUsers.env s) ((crossingAt i).world s) := fun i s => crossing_reachable _ s
  match i, he with
  | 0, he => simp only [crossing, List.cons_append, List.getElem?_cons_zero, Option.some.injEq] at he; subst he; exact crossing_start1
  | 1, he => simp only [crossing, List.cons_append, List.getElem?_cons_zero, List.getElem?_cons_succ, Option.some.injEq] at he; subst he; exact crossing_start2
  | 2, he => simp only [crossing, List.cons_append, List.getElem?_cons_zero, List.getElem?_cons_succ, Option.some.injEq] at he; subst he; exact short_msend (by decide)
  | 3, he => simp only [crossing, List.cons_append, List.getElem?_cons_zero, List.getElem?_cons_succ, Option.some.injEq] at he; subst he; exact short_msend (by decide)
  | 4, he =>
    simp only [crossing, List.cons_append, List.getElem?_cons_zero, List.getElem?_cons_succ, Option.some.injEq] at he
    subst he; exact deliveryCheck_ok rfl (reach 4 .bob).WF crossing_check.1
  | 5, he =>
    simp only [crossing, List.cons_append, List.getElem?_cons_zero, List.getElem?_cons_succ, Option.some.injEq] at he
    subst he; exact deliveryCheck_ok rfl (reach 5 .alice).WF crossing_check.2.1
  | 6, he => simp only [crossing, List.cons_append, List.getElem?_cons_zero, List.getElem?_cons_succ, Option.some.injEq] at he; subst he; exact short_msend (by decide)
  | 7, he =>
    simp only [crossing, List.cons_append, List.nil_append, List.getElem?_cons_zero, List.getElem?_cons_succ, Option.some.injEq] at he
    subst he; exact deliveryCheck_ok rfl (reach 7 .bob).WF crossing_check.2.2
  | i + 8, he => simp [crossing] at he

/-- There are two sessions, both have accepted a message, and the two users now send in different sessions: the one that the other
started. -/
example : crossed.started.length = 2 ∧ (crossed.got .alice).length = 1 ∧ (crossed.got .bob).length = 1 ∧
    (crossed.world .alice).talksIn bob ≠ (crossed.world .bob).talksIn alice := by decide +kernel

theorem Ex.crossedLast_sent : (crossed.sent Side.bob.other)[1]? = some (crossedLast, [3], crossedName) := by decide +kernel
theorem Ex.crossedLast_position : crossedLast.position = some (crossedPosition.1, crossedPosition.2) := by decide +kernel
theorem Ex.crossedLast_inWindow : InWindow (crossed.gotIn .bob crossedName) crossedPosition.1 crossedPosition.2 := by
  refine ⟨.inr ?_, ?_, ?_, ?_⟩ <;> decide +kernel

/-- Alice's answer is readable, although Bob's current session is another one by then. -/
example : (pairOfUsers.receive .bob crossedLast (supply 5) (crossed.world .bob)).1 = .ok (some [3]) := by
  have h := C77_delivery pairOfUsers bothWorlds notYet crossing .bob 1 (supply 5) crossing_fresh crossing_ok (by decide) (by decide) crossedLast [3] crossedName
    crossedPosition.1 crossedPosition.2
  have e : pairOfUsers.mrun { world := bothWorlds } crossing = crossed := rfl
  rw [e] at h
  exact h crossedLast_sent crossedLast_position crossedLast_inWindow

end Verif
