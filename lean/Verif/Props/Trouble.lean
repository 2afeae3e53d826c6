import Verif.Proofs.Trouble3
import Verif.Props.Sessions

/-!
# Delivery between two users under attack and with failing stores: C82
-/

namespace Verif

open Ex

/-- **C82.** Two users start sessions with each other and exchange messages as in C77; but any store call may fail, with or without effect,
and a call may be cut off by a crash (all its further store calls fail); anyone may hand them messages in the other's name that are not
forgeries; they talk to other users; and they add and remove pre-keys that no session on its way needs. Whenever after all this a message
that EncryptMessage has returned to the other side is delivered to a store that works, and is inside the windows of the session in which
it was sent, DecryptMessage returns its plaintext. Neither a failed call nor a rejected message destroys a session. -/
theorem C82_delivery (d : Duo) (w : Side → World) (h : d.NoSessionYet w) (es : List HEvent) (s : Side) (i : Nat) (rand : Bytes)
    (hf : MFreshKeys d.C (es.filterMap HEvent.plain ++ [.deliver s i rand])) (hok : d.HOk { world := w } es) (hlen : es.length ≤ 2 ^ 32)
    (hfew : ((es.filterMap HEvent.plain).filterMap MEvent.opens).length ≤ 41) (c : Ciphertext) (pt name : Bytes) (k : PubKey) (n : UInt32)
    (hc : ((d.hrun { world := w } es).sent s.other)[i]? = some (c, pt, name)) (hp : c.position = some (k, n))
    (hdel : (d.hrun { world := w } es).DeliveryOk d s c name k n rand) (hw : InWindow ((d.hrun { world := w } es).gotIn s name) k n) :
    (d.receive s c rand ((d.hrun { world := w } es).world s)).1 = .ok (some pt) := by
  obtain ⟨htr, hI, ha⟩ := h.inv hf
  obtain ⟨S1, Ts, hI, ha, hsh, hl⟩ := MInv.hrun htr _ es hI ha ⟨rfl, rfl, fun _ _ hp => hp, fun _ hx => hx⟩ hok (by omega) (by simpa using hfew)
  obtain ⟨i', hi'⟩ := List.getElem?_of_mem (hsh.sent _ _ (List.mem_of_getElem? hc))
  have hpool : (MEvent.deliver s i' rand).pool = (MEvent.deliver s i rand).pool := rfl
  have hev : MEvent.Ok d S1 (.deliver s i' rand) := by
    intro c' pt' name' k' n' hj hp'
    rw [hi'] at hj
    simp only [Option.some.injEq, Prod.mk.injEq] at hj
    obtain ⟨rfl, rfl, rfl⟩ := hj
    rw [hp] at hp'
    simp only [Option.some.injEq, Prod.mk.injEq] at hp'
    obtain ⟨rfl, rfl⟩ := hp'
    exact hsh.delivery hdel
  have := (MInv.delivered htr (F' := []) (i := i') (by simpa [hpool] using ha.made) (by simpa [hpool] using ha.nodup) (by simpa [hpool] using hI) (by simp at hl; omega) hev).2 c pt name hi'
  rw [← hsh.world]
  exact this.2 k n hp (by rw [hsh.gotIn]; exact hw)

/-- **C82.** Even when store calls fail during the call, a plaintext that is returned for a message of the other side is the one that was
encrypted. -/
theorem C82_exact (d : Duo) (w : Side → World) (h : d.NoSessionYet w) (es : List HEvent) (s : Side) (i : Nat) (rand : Bytes) (faults : List Fault)
    (hf : MFreshKeys d.C (es.filterMap HEvent.plain ++ [.deliver s i rand])) (hok : d.HOk { world := w } es) (hlen : es.length ≤ 2 ^ 32)
    (hfew : ((es.filterMap HEvent.plain).filterMap MEvent.opens).length ≤ 41) (c : Ciphertext) (pt name p : Bytes)
    (hc : ((d.hrun { world := w } es).sent s.other)[i]? = some (c, pt, name))
    (hev : HEvent.Ok d (d.hrun { world := w } es) (.deliver s i rand faults))
    (hr : (d.receiveWith s c rand faults ((d.hrun { world := w } es).world s)).1 = .ok (some p)) : p = pt := by
  obtain ⟨htr, hI, ha⟩ := h.inv hf
  obtain ⟨S1, Ts, hI, ha, hsh, hl⟩ := MInv.hrun htr _ es hI ha ⟨rfl, rfl, fun _ _ hp => hp, fun _ hx => hx⟩ hok (by omega) (by simpa using hfew)
  obtain ⟨i', hi'⟩ := List.getElem?_of_mem (hsh.sent _ _ (List.mem_of_getElem? hc))
  have hpool : (MEvent.deliver s i' rand).pool = (MEvent.deliver s i rand).pool := rfl
  obtain ⟨hfa, hdel⟩ := hev
  rw [← hsh.world] at hr
  rcases hfa with rfl | hal
  · have hev : MEvent.Ok d S1 (.deliver s i' rand) := by
      intro c' pt' name' k' n' hj hp'
      rw [hi'] at hj
      simp only [Option.some.injEq, Prod.mk.injEq] at hj
      obtain ⟨rfl, rfl, rfl⟩ := hj
      exact hsh.delivery (hdel c pt name k' n' hc hp')
    have := (MInv.delivered htr (F' := []) (i := i') (by simpa [hpool] using ha.made) (by simpa [hpool] using ha.nodup) (by simpa [hpool] using hI) (by simp at hl; omega) hev).2 c pt name hi'
    exact (this.1 p hr).1
  · exact (MInv.delivered_faulty htr (F' := []) (i := i') (by simpa [hpool] using ha.made) (by simpa [hpool] using ha.nodup) (by simpa [hpool] using hI) (by simp at hl; omega) hi'
      (fun k n hp => hsh.delivery (hdel c pt name k n hc hp)) hal).1 p hr

/-- **C82.** After any such schedule, whoever has a stored session or has accepted a message can send, once the stores work. -/
theorem C82_sending (d : Duo) (w : Side → World) (h : d.NoSessionYet w) (es : List HEvent) (hf : MFreshKeys d.C (es.filterMap HEvent.plain))
    (hok : d.HOk { world := w } es) (hlen : es.length ≤ 2 ^ 32) (hfew : ((es.filterMap HEvent.plain).filterMap MEvent.opens).length ≤ 41) (s : Side)
    (hs : ((d.hrun { world := w } es).world s).sessions (d.address s.other) ≠ none ∨ (d.hrun { world := w } es).got s ≠ []) (pt : Bytes) :
    ∃ c, (encryptMessage (d.env s) (d.address s.other) pt { (d.hrun { world := w } es).world s with faults := [] }).1 = .ok c := by
  obtain ⟨htr, hI, ha⟩ := h.inv hf
  obtain ⟨S1, Ts, hI, ha, hsh, hl⟩ := MInv.hrun htr [] es (by simpa using hI) (by simpa using ha) ⟨rfl, rfl, fun _ _ hp => hp, fun _ hx => hx⟩ hok (by omega)
    (by simpa using hfew)
  rw [← hsh.world, ← hsh.got] at hs
  have hrec : ∃ rec, (S1.world s).sessions (d.address s.other) = some rec := by
    rcases hs with hs | hs
    · exact Option.ne_none_iff_exists'.mp hs
    · exact hI.hasRecord (.inr hs)
  obtain ⟨rec, hr⟩ := hrec
  obtain ⟨_, _, _, _, out, _, _, _, _, _, hrun⟩ := hI.sending htr s hr pt
  rw [hsh.world] at hrun
  exact ⟨out, by rw [hrun]⟩

/-- **C82.** A session can be started at any time: ProcessPreKeyBundle succeeds once the stores work. -/
theorem C82_starting (d : Duo) (w : Side → World) (h : d.NoSessionYet w) (es : List HEvent) (s : Side) (b : Bundle) (rand : Bytes)
    (hf : MFreshKeys d.C (es.filterMap HEvent.plain ++ [.start s b rand])) (hok : d.HOk { world := w } es)
    (hev : HEvent.Ok d (d.hrun { world := w } es) (.start s b rand [])) (hlen : es.length ≤ 2 ^ 32)
    (hfew : ((es.filterMap HEvent.plain).filterMap MEvent.opens).length ≤ 40) :
    (processPreKeyBundle (d.env s) (d.address s.other) b { (d.hrun { world := w } es).world s with rand := rand, faults := [] }).1 = .ok () := by
  obtain ⟨htr, hI, ha⟩ := h.inv hf
  obtain ⟨S1, Ts, hI, ha, hsh, hl⟩ := MInv.hrun htr _ es hI ha ⟨rfl, rfl, fun _ _ hp => hp, fun _ hx => hx⟩ hok (by omega)
    (by have := hfew; simp only [List.length_nil]; omega)
  have hb := ha.names (rand, b.signedPreKeyPublic) (by simp [MEvent.opens])
  obtain ⟨h1, _⟩ := MInv.starts htr (F' := []) (s := s) (b := b) (rand := rand) (by simpa using ha.made) (by simpa using ha.nodup) (by simpa using hI)
    (by simp at hl; omega) ⟨by rw [hsh.world]; exact hev.1, fun x hx => hev.2 x (hsh.started x hx)⟩ (ha.signed (rand, b.signedPreKeyPublic) (by simp [MEvent.opens])) hb
  rw [hsh.world] at h1
  exact h1

/-! ### A conversation that meets the hypotheses -/

namespace Ex

def thirdUser : Address := ⟨[67], 1⟩

/-- Bob's first message to Alice, and a copy of it with another ciphertext. -/
def roughFirst : Ciphertext := outMsg (encryptMessage sharing alice [2] (processPreKeyBundle sharing alice bundleOfAlice { bob0 with rand := randomness 2 }).2)
def forged : Ciphertext :=
  match roughFirst with
  | .preKey m => .preKey { m with message := { m.message with serialized := m.message.serialized.map (· ^^^ 1) } }
  | c => c

/-- The store fails when Bob starts a session with Alice, and he starts another one. He sends two messages; the second is lost because the
store fails. Alice gets a forged copy of the first message, and then the message itself, but her store reports an error after it has stored
the session. She tries to write to Carol, and makes new one-time pre-keys. Bob sends another message. -/
def rough : List HEvent :=
  [.start .bob bundleOfAlice (randomness 1) [.none, .before], .start .bob bundleOfAlice (randomness 2) [], .send .bob [2] [],
    .send .bob [9] [.none, .none, .before], .inject .alice forged (supply 6) [], .deliver .alice 0 (supply 3) [.none, .none, .none, .none, .after],
    .call .alice ⟨.encrypt thirdUser [1], [], []⟩,
    .keys .alice (fun i => if i = 30 then some (PreKeyRec.new (pair 8)) else none) (fun i => if i = 7 then some (PreKeyRec.new (pair 9)) else none),
    .send .bob [3] []]

def roughAt (i : Nat) : MSys := pairOfUsers.hrun { world := bothWorlds } (rough.take i)

def roughLast : Ciphertext := ((((roughAt 9).sent .bob)[1]?).map (·.1)).getD noMessage
def roughName : Bytes := ((((roughAt 9).sent .bob)[1]?).map (·.2.2)).getD []
def roughPosition : PubKey × UInt32 := roughLast.position.getD ((pair 1).pub, 0)

end Ex

theorem Ex.hstep_WF {d : Duo} {S : MSys} (h : ∀ s, (S.world s).WF) (e : HEvent) : ∀ s, ((d.hstep S e).world s).WF := by
  have up : ∀ (t : Side) (W : World), W.WF → ∀ s, (upd S.world t W s).WF := by
    intro t W hW s
    by_cases hs : s = t
    · subst hs; rw [upd_same]; exact hW
    · rw [upd_ne _ _ hs]; exact h s
  cases e with
  | start t b rand faults =>
    have h' : World.WF { S.world t with rand := rand, faults := faults } := h t
    exact up t _ h'.bundle
  | send t pt faults =>
    have h' : World.WF { S.world t with faults := faults } := h t
    have hW := h'.encrypt (E := d.env t) (a := d.address t.other) (pt := pt)
    rw [hstep_send]
    split <;> exact up t _ hW
  | deliver t i rand faults =>
    simp only [Duo.hstep]
    split
    · exact h
    · rename_i c _ _ _
      have hW : (d.receiveWith t c rand faults (S.world t)).2.WF := by
        unfold Duo.receiveWith
        split
        · have h' : World.WF { S.world t with rand := rand, faults := faults } := h t
          exact h'.decrypt
        · exact h t
        · exact h t
      split <;> exact up t _ hW
  | inject t c rand faults =>
    have h' : World.WF { S.world t with rand := rand, faults := faults } := h t
    exact up t _ h'.decrypt
  | call t c => exact up t _ (h t).call
  | keys t pk sk =>
    have h' : World.WF { S.world t with preKeys := pk, signedPreKeys := sk } := h t
    exact up t _ h'

theorem Ex.hrun_WF {d : Duo} (es : List HEvent) : ∀ {S : MSys}, (∀ s, (S.world s).WF) → ∀ s, ((d.hrun S es).world s).WF := by
  induction es with
  | nil => exact fun h => h
  | cons e es ih => exact fun h => ih (hstep_WF h e)

theorem Ex.rough_WF (i : Nat) (s : Side) : ((roughAt i).world s).WF :=
  hrun_WF _ (fun s a r hr => by cases s <;> simp [bothWorlds, alice0, bob0] at hr) s

theorem Ex.hok_of {d : Duo} (es : List HEvent) : ∀ (S : MSys), (∀ (i : Nat) (e : HEvent), es[i]? = some e → e.Ok d (d.hrun S (es.take i))) → d.HOk S es := by
  induction es with
  | nil => intro _ _; trivial
  | cons e es ih =>
    intro S h
    refine ⟨h 0 e rfl, ih _ fun i e' he => ?_⟩
    have := h (i + 1) e' (by simpa using he)
    simpa [Duo.hrun] using this

theorem Ex.rough_fresh : MFreshKeys pairOfUsers.C (rough.filterMap HEvent.plain ++ [.deliver .alice 1 (supply 5)]) := by
  refine ⟨⟨?_, ?_⟩, ?_, ?_⟩ <;> decide +kernel

theorem Ex.rough_start {i : Nat} {rand : Bytes} {faults : List Fault} (h1 : ((roughAt i).world .alice).identity = pair 1)
    (h2 : ((roughAt i).world .alice).signedPreKeys 7 = some (PreKeyRec.new (pair 9))) :
    HEvent.Ok pairOfUsers (roughAt i) (.start .bob bundleOfAlice rand faults) := by
  refine ⟨⟨⟨?_, ?_⟩, ⟨pair 9, rfl, rfl, h2⟩, by decide +kernel, .inl ⟨rfl, rfl⟩⟩, ?_⟩
  · change _ = ((roughAt i).world .alice).identity.pub
    rw [h1]; rfl
  · change ((roughAt i).world .alice).identity.Matched toy
    rw [h1]; rfl
  · intro _ _ _ _ _
    simp [bundleOfAlice]

theorem Ex.rough_check : deliveryCheck pairOfUsers (roughAt 5) .alice 0 = true ∧ deliveryCheck pairOfUsers (roughAt 9) .alice 1 = true := by decide +kernel

/-- All sessions were started from the same bundle. -/
theorem Ex.rough_keeps {i : Nat} {w : World} (h : ((roughAt i).started.all fun x => decide (x.2.1.signedPreKeyID = 7) && decide (x.2.1.preKeyID = none)) = true)
    (hw : w.signedPreKeys 7 = ((roughAt i).world .alice).signedPreKeys 7) : (roughAt i).Keeps pairOfUsers .alice w := by
  intro x hx _ _
  have := List.all_eq_true.mp h x hx
  simp only [Bool.and_eq_true, decide_eq_true_eq] at this
  refine ⟨by rw [this.1]; exact hw, ?_⟩
  intro id hid
  rw [this.2] at hid
  cases hid

theorem Ex.rough_injection : (roughAt 4).InjectionOk pairOfUsers .alice forged (supply 6) := by
  refine ⟨?_, ?_, fun _ _ => rfl⟩
  · intro p hp
    have : (match (decryptMessage (pairOfUsers.env .alice) (pairOfUsers.address Side.alice.other) forged { (roughAt 4).world .alice with rand := supply 6, faults := [] }).1 with
      | .ok (some _) => false
      | _ => true) = true := by decide +kernel
    rw [hp] at this
    cases this
  · intro m hm _
    have : (match forged with
      | .preKey m => decide (m.identityKey = ((roughAt 4).world Side.alice.other).identity.pub)
      | _ => true) = true := by decide +kernel
    rw [hm] at this
    have := of_decide_eq_true this
    exact this

theorem Ex.rough_ok : pairOfUsers.HOk { world := bothWorlds } rough := by
  refine hok_of _ _ ?_
  intro i e he
  change e.Ok pairOfUsers (roughAt i)
  have short : ∀ {S : MSys} {s : Side} {pt : Bytes} {faults : List Fault}, pt.length ≤ 100 → HEvent.Ok pairOfUsers S (.send s pt faults) := by
    intro S s pt _ h
    show pt.length < 2 ^ 62
    omega
  match i, he with
  | 0, he => simp only [rough, List.getElem?_cons_zero, Option.some.injEq] at he; subst he; exact rough_start (by decide +kernel) (by decide +kernel)
  | 1, he => simp only [rough, List.getElem?_cons_zero, List.getElem?_cons_succ, Option.some.injEq] at he; subst he; exact rough_start (by decide +kernel) (by decide +kernel)
  | 2, he => simp only [rough, List.getElem?_cons_zero, List.getElem?_cons_succ, Option.some.injEq] at he; subst he; exact short (by decide)
  | 3, he => simp only [rough, List.getElem?_cons_zero, List.getElem?_cons_succ, Option.some.injEq] at he; subst he; exact short (by decide)
  | 4, he => simp only [rough, List.getElem?_cons_zero, List.getElem?_cons_succ, Option.some.injEq] at he; subst he; exact rough_injection
  | 5, he =>
    simp only [rough, List.getElem?_cons_zero, List.getElem?_cons_succ, Option.some.injEq] at he
    subst he; exact ⟨.inr rfl, deliveryCheck_ok rfl (rough_WF 5 .alice) rough_check.1⟩
  | 6, he =>
    simp only [rough, List.getElem?_cons_zero, List.getElem?_cons_succ, Option.some.injEq] at he
    subst he; exact ⟨by decide, rough_keeps (by decide +kernel) (by decide +kernel)⟩
  | 7, he =>
    simp only [rough, List.getElem?_cons_zero, List.getElem?_cons_succ, Option.some.injEq] at he
    subst he; exact rough_keeps (by decide +kernel) (by decide +kernel)
  | 8, he => simp only [rough, List.getElem?_cons_zero, List.getElem?_cons_succ, Option.some.injEq] at he; subst he; exact short (by decide)
  | i + 9, he => simp [rough] at he

/-- Bob's first attempt to start a session left nothing behind; one of his messages is lost; Alice has taken in the other one, although
the call returned an error. -/
example : (((roughAt 1).world .bob).sessions alice).isNone = true ∧ (((roughAt 2).world .bob).sessions alice).isSome = true ∧ ((roughAt 9).sent .bob).length = 2 ∧
    ((roughAt 9).got .alice).length = 1 ∧ (match (pairOfUsers.receiveWith .alice roughFirst (supply 3) [.none, .none, .none, .none, .after] ((roughAt 5).world .alice)).1 with
      | .err _ => true
      | _ => false) = true := by decide +kernel

theorem Ex.roughLast_sent : ((roughAt 9).sent Side.alice.other)[1]? = some (roughLast, [3], roughName) := by decide +kernel
theorem Ex.roughLast_position : roughLast.position = some (roughPosition.1, roughPosition.2) := by decide +kernel
theorem Ex.roughLast_inWindow : InWindow ((roughAt 9).gotIn .alice roughName) roughPosition.1 roughPosition.2 := by
  refine ⟨.inl ?_, ?_, ?_, ?_⟩ <;> decide +kernel

/-- Bob's last message is readable. -/
example : (pairOfUsers.receive .alice roughLast (supply 5) ((roughAt 9).world .alice)).1 = .ok (some [3]) := by
  have h := C82_delivery pairOfUsers bothWorlds notYet rough .alice 1 (supply 5) rough_fresh rough_ok (by decide) (by decide) roughLast [3] roughName
    roughPosition.1 roughPosition.2
  have e : pairOfUsers.hrun { world := bothWorlds } rough = roughAt 9 := rfl
  rw [e] at h
  exact h roughLast_sent roughLast_position (deliveryCheck_ok rfl (rough_WF 9 .alice) rough_check.2 _ _ _ _ _ roughLast_sent roughLast_position) roughLast_inWindow

end Verif
