import Verif.Proofs.Recovery
import Verif.Props.Delivery

/-!
# C90: a new bundle repairs a conversation, whatever happened before
-/

namespace Verif

open Ex

/-- **C90.** Take two users after any histories of calls, including failed, attacked and interrupted ones, with whatever sessions these have
left behind on either side. Alice processes a bundle of Bob's; then follows any schedule of sends and of deliveries inside the windows
(`DEvent.Smooth`), lost and reordered. Every message delivered inside the windows is read: DecryptMessage returns its plaintext. -/
theorem C90_delivery (d : Duo) (alice bob : World) (b : Bundle) (rand : Bytes) (h : d.Afresh alice bob b rand)
    (es : List DEvent) (s : Side) (i : Nat) (r : Bytes) (hf : FreshKeys d.C b rand (es ++ [.deliver s i r]))
    (hok : d.Smooth (d.start alice bob b rand) es) (hlen : es.length < 2 ^ 32) (c : Ciphertext) (pt : Bytes) (k : PubKey) (n : UInt32)
    (hc : ((d.run (d.start alice bob b rand) es).sent s.other)[i]? = some (c, pt)) (hp : c.position = some (k, n))
    (hw : InWindow ((d.run (d.start alice bob b rand) es).got s) k n) :
    (d.receive s c r ((d.run (d.start alice bob b rand) es).world s)).1 = .ok (some pt) := by
  obtain ⟨_, base, o, L, lev, cnt, st, S0, hI, ha⟩ := h.begins hf
  obtain ⟨ha', L', lev', cnt', st', hI'⟩ := Alike.run h.strangers.trusts es [.deliver s i r] ha hI hok (by omega)
  rw [ha'.sent] at hc
  rw [ha'.got] at hw
  exact (Alike.receive h.strangers.trusts ha' (F := []) hI' (List.mem_of_getElem? hc) hp hw).1

/-- **C90.** ProcessPreKeyBundle succeeds, and after any such schedule EncryptMessage succeeds, for Alice, and for Bob once Bob has
received a message. -/
theorem C90_sending (d : Duo) (alice bob : World) (b : Bundle) (rand : Bytes) (h : d.Afresh alice bob b rand)
    (es : List DEvent) (hf : FreshKeys d.C b rand es) (hok : d.Smooth (d.start alice bob b rand) es) (hlen : es.length < 2 ^ 32) :
    (processPreKeyBundle (d.env .alice) (d.address .bob) b { alice with rand := rand, faults := [] }).1 = .ok () ∧
    ∀ (s : Side) (pt : Bytes), (s = .bob → (d.run (d.start alice bob b rand) es).got .bob ≠ []) →
      ∃ c, (encryptMessage (d.env s) (d.address s.other) pt { (d.run (d.start alice bob b rand) es).world s with faults := [] }).1 = .ok c := by
  obtain ⟨hp, base, o, L, lev, cnt, st, S0, hI, ha⟩ := h.begins hf
  obtain ⟨ha', L', lev', cnt', st', hI'⟩ := Alike.run h.strangers.trusts es [] ha (by rw [List.append_nil]; exact hI) hok (by omega)
  refine ⟨hp, fun s pt hs => ?_⟩
  obtain ⟨c, hc⟩ := hI'.canSend h.strangers.trusts s (by rw [← ha'.got]; exact hs) pt
  exact ⟨c, ((ha'.world s).encrypt hc).1⟩

/-! ### Two users whose sessions do not fit together -/

namespace Ex

def copyingDuo : Duo := { C := toy, aliased := fun _ => false, trusted := fun _ => tofu, address := fun | .alice => alice | .bob => bob }

/-- Bob's bundle when the one-time pre-key has been used. -/
def laterBundle : Bundle := { bundle with preKeyID := none, preKeyPublic := none }

/-- Alice's device was restored to a copy from before Bob's first answer arrived. -/
theorem afresh : copyingDuo.Afresh alice3 bob3 laterBundle (randomness 30) := by
  have htofu : ∀ (known : Address → Option PubKey) (a : Address) (k : PubKey) (dir : Direction), known a = none ∨ known a = some k → tofu known a k dir = true := by
    intro known a k dir h
    rcases h with h | h <;> simp [tofu, h]
  have hid : alice3.identity = (pair 1) ∧ bob3.identity = pair 2 := by decide +kernel
  have hrec : (match bob3.sessions alice with
      | some r => r.previous == [] && (match r.current, publicKeyOf toy (randomness 30) with | some t, some k => t.aliceBaseKey != k.bytes | _, _ => false)
      | none => false) = true := by decide +kernel
  refine ⟨alice3_reachable, bob3_reachable, ?_, ⟨⟨?_, ?_⟩, ⟨pair 4, rfl, rfl, ?_⟩, ?_, .inl ⟨rfl, rfl⟩⟩, ⟨.inr ?_, fun known dir h => htofu known _ _ dir h⟩,
    ⟨.inr ?_, fun known dir h => htofu known _ _ dir h⟩, ?_⟩
  · rw [hid.1]; rfl
  · rw [hid.2]; rfl
  · rw [hid.2]; rfl
  · decide +kernel
  · decide +kernel
  · rw [hid.2]; decide +kernel
  · rw [hid.1]; decide +kernel
  · intro r u k hr hu hk
    rw [show copyingDuo.address .alice = alice from rfl] at hr
    rw [show copyingDuo.C = toy from rfl] at hk
    rw [hr, hk] at hrec
    simp only [Bool.and_eq_true, beq_iff_eq] at hrec
    rcases hu with hu | ⟨x, hx, _⟩
    · rw [hu] at hrec
      simpa using hrec.2
    · rw [hrec.1] at hx
      simp at hx

/-- Alice writes two messages; Bob gets the second, and answers. -/
def repair : List DEvent :=
  [.send .alice [1], .send .alice [2], .deliver .bob 1 (randomness 3), .send .bob [9], .deliver .alice 0 (randomness 4)]

def repaired : DSys := copyingDuo.run (copyingDuo.start alice3 bob3 laterBundle (randomness 30)) repair

/-- A check of `InWindow`. -/
def windowOk (got : List (PubKey × UInt32)) (k : PubKey) (n : UInt32) : Bool :=
  (decide (k ∈ recentChains got) || decide (k ∉ chainsSeen got)) && decide ((k, n) ∉ got) &&
    decide (n.toNat ≤ newestUnder got k + 25000) && decide (newestUnder got k ≤ n.toNat + 2000)

theorem windowOk_spec {got : List (PubKey × UInt32)} {k : PubKey} {n : UInt32} (h : windowOk got k n = true) : InWindow got k n := by
  simp only [windowOk, Bool.and_eq_true, Bool.or_eq_true, decide_eq_true_eq] at h
  exact ⟨h.1.1.1, h.1.1.2, h.1.2, h.2⟩

theorem smooth_deliver {S : DSys} {s : Side} {i : Nat} {r : Bytes}
    (h : ((S.sent s.other)[i]?.bind fun x => x.1.position).map (fun p => windowOk (S.got s) p.1 p.2) = some true) : DEvent.Smooth S (.deliver s i r) := by
  intro c pt k n hc hp
  rw [hc] at h
  simp only [Option.bind_some, hp, Option.map_some, Option.some.injEq] at h
  exact windowOk_spec h

theorem smooth_send {S : DSys} {s : Side} {pt : Bytes} (h : pt.length ≤ 100) (hb : (decide (s = .bob) && (S.got .bob).isEmpty) = false) :
    DEvent.Smooth S (.send s pt) := by
  refine ⟨by omega, ?_⟩
  rintro rfl
  intro he
  rw [he] at hb
  simp at hb

theorem repair_smooth : copyingDuo.Smooth (copyingDuo.start alice3 bob3 laterBundle (randomness 30)) repair := by
  refine ⟨smooth_send (by decide) ?_, smooth_send (by decide) ?_, smooth_deliver ?_, smooth_send (by decide) ?_, smooth_deliver ?_, trivial⟩ <;> decide +kernel

theorem repair_fresh : FreshKeys copyingDuo.C laterBundle (randomness 30) (repair ++ [.deliver .bob 0 (randomness 6)]) := by
  unfold FreshKeys
  decide +kernel

def lateMessage : Ciphertext := (((repaired.sent .alice)[0]?).map (·.1)).getD noMessage
def lateAt : PubKey × UInt32 := lateMessage.position.getD ((pair 1).pub, 0)

theorem lateMessage_sent : (repaired.sent Side.bob.other)[0]? = some (lateMessage, [1]) := by decide +kernel
theorem lateMessage_at : lateMessage.position = some (lateAt.1, lateAt.2) := by decide +kernel
theorem lateMessage_window : InWindow (repaired.got .bob) lateAt.1 lateAt.2 := windowOk_spec (by decide +kernel)

/-- Before, the old sessions did not fit: Alice could not read what Bob sent. -/
theorem out_of_step : (match decryptMessage copying bob (outMsg (encryptMessage copying alice [7] { bob3 with rand := randomness 9 })) { alice3 with rand := randomness 8 } with
    | (.ok (some _), _) => true
    | _ => false) = false := by decide +kernel

end Ex

/-- The hypotheses of C90 are met, with sessions on both sides that do not fit together: Bob reads the message that arrives last. -/
example : (copyingDuo.receive .bob lateMessage (randomness 6) (repaired.world .bob)).1 = .ok (some [1]) := by
  have h := C90_delivery copyingDuo alice3 bob3 laterBundle (randomness 30) afresh repair .bob 0 (randomness 6) repair_fresh repair_smooth (by decide)
    lateMessage [1] lateAt.1 lateAt.2
  have e : copyingDuo.run (copyingDuo.start alice3 bob3 laterBundle (randomness 30)) repair = repaired := rfl
  rw [e] at h
  exact h lateMessage_sent lateMessage_at lateMessage_window

/-- Both have read a message by then. -/
example : (repaired.got .bob).length = 1 ∧ (repaired.got .alice).length = 1 := by decide +kernel

end Verif
