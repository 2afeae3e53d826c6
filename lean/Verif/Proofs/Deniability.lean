import Verif.Spec.Deniability
import Verif.Proofs.Reading
import Verif.Proofs.Conformity
import Verif.Proofs.Flood

namespace Verif

open Doc

theorem signalMessage_under (C : Crypto) (first : Bytes) (k : PubKey) (n previous : UInt32) (snd rcv : PubKey) (p : Bytes) :
    signalMessage C first k n previous snd rcv p = signalUnder C (messageSecrets C first n.toNat) k n previous snd rcv p := rfl

theorem messageSecrets_length (C : Crypto) (first : Bytes) (n : Nat) : (messageSecrets C first n).length = 80 := C.hkdf_len _ _ _ _

/-- What is made with 80 secret bytes parses, and carries its plaintext. -/
theorem signalUnder_parses (C : Crypto) {secrets : Bytes} (hs : secrets.length = 80) (k : PubKey) (n previous : UInt32) (snd rcv : PubKey) {p : Bytes}
    (hp : p.length < 2 ^ 60) :
    ∃ m, newSignalFromBytes (signalUnder C secrets k n previous snd rcv p) = .ok m ∧ m.serialized = signalUnder C secrets k n previous snd rcv p ∧
      m.senderRatchetKey = k ∧ m.counter = n ∧ m.Carries C secrets snd rcv p ∧ m.serialized.length < 2 ^ 62 := by
  have l1 : (secrets.take 32).length = 32 := by simp [hs]
  have l2 : (secrets.drop 64).length = 16 := by simp [hs]
  have l3 : ((secrets.drop 32).take 32).length = 32 := by simp [hs]
  have hl := aesCbc_length C p l1 l2
  obtain ⟨m, h1, h2, h3, h4, h5, h6, h7, h8⟩ := signal_round_trip C ((secrets.drop 32).take 32) l3 k previous n
    (aesCbc C (secrets.take 32) (secrets.drop 64) p) (by omega) snd rcv
  have hlen := newSignal_length l3 h1
  have hser : m.serialized = signalUnder C secrets k n previous snd rcv p := by
    simp only [newSignal, messageMac, l3, ne_eq, not_true_eq_false, if_false, Res.bind_ok] at h1
    rw [marshal_signal k _ previous (by omega)] at h1
    simp only [Res.pure_eq, Res.ok.injEq] at h1
    rw [← h1]
    simp only [signalUnder, wireKey_eq, show versionPrefix 3 = version from by decide]
  rw [← hser]
  refine ⟨m, h2, rfl, h4, h6, ⟨h3, ?_, ?_⟩, by omega⟩
  · exact ⟨_, hser⟩
  · refine ⟨pad p, ?_, h7⟩
    refine ⟨List.replicate (16 - p.length % 16) (UInt8.ofNat (16 - p.length % 16)), rfl, by simp, ⟨UInt8.ofNat (16 - p.length % 16), ?_, ?_⟩, ?_⟩
    · have : 16 - p.length % 16 = (16 - p.length % 16 - 1) + 1 := by omega
      rw [this, List.replicate_succ']
      simp
    · simp only [UInt8.toNat_ofNat', List.length_replicate]
      omega
    · simp only [pad, List.length_append, List.length_replicate]
      omega

theorem SState.WF.secrets_length {C : Crypto} {s : SState} (h : s.WF) {k : PubKey} {n : UInt32} {secrets : Bytes} (hs : s.Secrets C k n secrets) :
    secrets.length = 80 := by
  cases hs with
  | stored c x hc hk hx hn =>
    obtain ⟨l1, l2, l3⟩ := (h.chainWF c hc).sizes x hx
    simp [l1, l2, l3]
  | ahead => exact messageSecrets_length _ _ _
  | ratchet => exact messageSecrets_length _ _ _

theorem agree_of {C : Crypto} {a : KeyPair} {q : PubKey} {d : Bytes} (h : C.dh a.priv.key q.key = some d) : agree C a q = d := by
  unfold agree
  rw [h]; rfl

theorem agree_comm {C : Crypto} {a b : KeyPair} (ha : a.Matched C) (hb : b.Matched C) : agree C a b.pub = agree C b a.pub := by
  unfold agree
  rw [ha, hb]
  exact congrArg (·.getD []) (C.dh_comm a.priv.key b.priv.key a.priv.len b.priv.len a.priv.clamped b.priv.clamped)

theorem x3dh_comm {C : Crypto} {identity base bobIdentity signed : KeyPair} {oneTime : Option KeyPair} (h1 : identity.Matched C) (h2 : base.Matched C)
    (h3 : bobIdentity.Matched C) (h4 : signed.Matched C) (h5 : ∀ k, oneTime = some k → k.Matched C) :
    x3dh C identity base bobIdentity.pub signed.pub (oneTime.map (·.pub)) = x3dhBob C bobIdentity signed oneTime identity.pub base.pub := by
  unfold x3dh x3dhBob
  rw [agree_comm h1 h4, agree_comm h2 h3, agree_comm h2 h4]
  cases oneTime with
  | none => rfl
  | some k =>
    simp only [Option.map_some]
    rw [agree_comm h2 (h5 k rfl)]

theorem ratchet_comm {C : Crypto} (start : Keys) (keys : Nat → KeyPair) (t : Nat) (h : ∀ i, i ≤ t → (keys i).Matched C) (i : Nat) (hi : i ≤ t) :
    ratchet C start keys i = ratchetBob C start keys (fun i => (keys i).pub) i := by
  induction i with
  | zero => rfl
  | succ i ih =>
    simp only [ratchet, ratchetBob]
    rw [ih (by omega)]
    split
    · rw [agree_comm (h (i + 1) hi) (h i (by omega))]
    · rfl

theorem chainsSeen_grows (got : List (PubKey × UInt32)) (p : PubKey × UInt32) : (chainsSeen got).length ≤ (chainsSeen (got ++ [p])).length := by
  rw [chainsSeen_append]
  split <;> simp

theorem turn_step (d : Duo) (S : DSys) (e : DEvent) (s : Side) : turn S s ≤ turn (d.step S e) s := by
  suffices (chainsSeen (S.got s)).length ≤ (chainsSeen ((d.step S e).got s)).length by unfold turn; omega
  cases e with
  | send u pt =>
    simp only [Duo.step]
    split <;> exact Nat.le_refl _
  | deliver u i rand =>
    simp only [Duo.step]
    split
    · exact Nat.le_refl _
    · split
      · by_cases h : s = u
        · subst h
          simp only [upd_same]
          exact chainsSeen_grows _ _
        · simp only [upd_ne _ _ h]; exact Nat.le_refl _
      · exact Nat.le_refl _

theorem turn_run (d : Duo) (es : List DEvent) : ∀ (S : DSys) (s : Side), turn S s ≤ turn (d.run S es) s := by
  induction es with
  | nil => exact fun _ _ => Nat.le_refl _
  | cons e es ih => exact fun S s => Nat.le_trans (turn_step d S e s) (ih _ s)

end Verif
