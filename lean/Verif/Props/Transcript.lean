import Verif.Proofs.Transcript
import Verif.Proofs.Records
import Verif.Props.Inspect

/-!
# What everything that is sent tells about the contents: C119
-/

namespace Verif

open Ex Doc

/-- **C119**. Any number of users make any calls, with any random bytes and any store failures. Take the list of all messages that these
calls returned, with another content for every one of them that fits its body, and let the users make the same calls with these contents.
Then there is another AES, different under the keys of these messages only, with which nothing else changes: every message that is
returned is the same byte for byte, every error is the same, all stores are the same after the last call, and whoever read the old content
of a message now reads the new one. So all messages and all stores together tell nothing about the contents, except which ones fit. -/
theorem C119_contents_are_open {I : Type} (C : Crypto) (E : I → Env) (hE : ∀ i, (E i).C = C) (w : I → World) (hw : ∀ i, Reachable (E i) (w i))
    (L : List Sent) (hL : Sendings C L) (cs cs' : I → List Call) (h : ∀ i, Rewritten (E i) L (w i) (cs i) (cs' i)) :
    ∃ C' : Crypto, C.SameButAesOn C' (KeyOf L) ∧ ∀ i,
      (runCalls { E i with C := C' } (cs' i) (w i)).2 = (runCalls (E i) (cs i) (w i)).2 ∧
      AllAlike L (cs i) (runCalls (E i) (cs i) (w i)).1 (runCalls { E i with C := C' } (cs' i) (w i)).1 := by
  obtain ⟨C', h1, h2⟩ := hL.opening
  refine ⟨C', h1, fun i => ?_⟩
  have e := hE i
  subst e
  exact twin_calls h1 hL h2 (h i) (hw i).WF

/-- In particular somebody who sees all messages, and nothing else, sees the same. -/
theorem C119_same_messages {I : Type} (C : Crypto) (E : I → Env) (hE : ∀ i, (E i).C = C) (w : I → World) (hw : ∀ i, Reachable (E i) (w i))
    (L : List Sent) (hL : Sendings C L) (cs cs' : I → List Call) (h : ∀ i, Rewritten (E i) L (w i) (cs i) (cs' i)) :
    ∃ C' : Crypto, C.SameButAesOn C' (KeyOf L) ∧ ∀ (i : I) (n : Nat) (a : Address) (c : Ciphertext),
      (runCalls { E i with C := C' } (cs' i) (w i)).1[n]? = some (.ciphertext a c) ↔ (runCalls (E i) (cs i) (w i)).1[n]? = some (.ciphertext a c) := by
  obtain ⟨C', h1, h2⟩ := C119_contents_are_open C E hE w hw L hL cs cs' h
  refine ⟨C', h1, fun i n a c => ?_⟩
  have key : ∀ (cs : List Call) (os os' : List Out), AllAlike L cs os os' → ∀ n : Nat, os'[n]? = some (.ciphertext a c) ↔ os[n]? = some (.ciphertext a c) := by
    intro cs os os' hh
    induction hh with
    | nil => intro n; simp
    | cons c cs o o' os os' ho _ ih =>
      intro n
      cases n with
      | zero =>
        rcases ho with rfl | ⟨_, _, _, e, _, _, _, _, rfl, rfl⟩
        · simp
        · simp
      | succ n => simpa using ih n
  exact key _ _ _ (h2 i).2 n

/-- Short contents fit without any condition. -/
theorem C119_short_contents {C : Crypto} {L : List Sent} (made : ∀ e ∈ L, cbcEncrypt C e.key e.iv e.old = .ok e.body)
    (once : ∀ e ∈ L, ∀ e' ∈ L, e.key = e'.key → e = e') (short : ∀ e ∈ L, e.old.length < 16 ∧ e.new.length < 16) : Sendings C L := by
  refine ⟨made, fun e he => fits_short _ _ _ ?_ (short e he).2, once⟩
  rw [encrypted_length (made e he)]
  have := (short e he).1
  omega

/-! ## An example -/

namespace Ex

/-- the pre-key message, if it is one -/
def preKeyOf : Ciphertext → Option PreKeyMsg
  | .preKey m => some m
  | _ => none

/-- the secret bytes of the first message of the example -/
def secrets1 : Bytes := messageSecrets toy (((alice1.sessions bob).bind Record.current).elim [] SState.senderKey) 0

/-- the first message of the example, with another content -/
def sent1 : Sent :=
  ⟨secrets1.take 32, secrets1.drop 64, (preKeyOf m1).elim [] fun m => m.message.ciphertext, [1, 2, 3], [7, 7]⟩

/-- what Bob needs to read a pre-key message -/
def bobSecrets (m : PreKeyMsg) : Option Bytes :=
  match bob0.signedPreKeys m.signedPreKeyID, m.preKeyID.bind bob0.preKeys with
  | some r1, some r2 =>
    match r1.keyPair, r2.keyPair with
    | .ok signed, .ok k =>
      match toy.dh signed.priv.key m.identityKey.key, toy.dh bob0.identity.priv.key m.baseKey.key, toy.dh signed.priv.key m.baseKey.key,
          toy.dh k.priv.key m.baseKey.key, toy.dh signed.priv.key m.message.senderRatchetKey.key with
      | some d1, some d2, some d3, some d4, some d =>
        some (messageSecrets toy (derive toy d (derive toy (List.replicate 32 0xFF ++ d1 ++ d2 ++ d3 ++ d4) [] (ascii "WhisperText")).root
          (ascii "WhisperRatchet")).chain m.message.counter.toNat)
      | _, _, _, _, _ => none
    | _, _ => none
  | _, _ => none

theorem bobSecrets_eq : (preKeyOf m1).bind bobSecrets = some secrets1 := by decide +kernel

/-- whatever can read a pre-key message with these keys at Bob's has these secret bytes -/
theorem bob_reader {pm : PreKeyMsg} {s : SState} {sec : Bytes} (hid : (pm.preKeyID.bind bob0.preKeys).isSome = true)
    (hr : bob0.Reader toy alice (.preKey pm) s) (h3 : s.Secrets toy pm.message.senderRatchetKey pm.message.counter sec) :
    bobSecrets pm = some sec ∧ s.remoteIdentityPublic = wireKey pm.identityKey ∧ s.localIdentityPublic = wireKey bob0.identity.pub := by
  cases hr with
  | stored _ r _ h _ => simp [bob0] at h
  | fresh _ _ h hans =>
    obtain ⟨o1, o2, hfresh, rec, signed, oneTime, d1, d2, d3, d4, g1, g2, g3, g4, g5, g6, g7, g8, sc, g9, g10⟩ := hans
    refine ⟨?_, o2, o1⟩
    cases h3 with
    | stored c x hc => rw [hfresh] at hc; simp at hc
    | ahead c ck hc => rw [hfresh] at hc; simp at hc
    | ratchet hk sc' hs' ours ho d hd _ =>
      rw [g9] at hs'
      simp only [Option.some.injEq] at hs'
      subst hs'
      have hours : ours.key = signed.priv.key := by rw [g10] at ho; exact ho.symm
      rcases g3 with ⟨_, g3⟩ | ⟨r2, k, g3, g3', rfl⟩
      · rw [g3] at hid; simp at hid
      simp only at g7
      rw [hours] at hd
      unfold bobSecrets
      simp only [g1, g2, g3, g3', g4, g5, g6, g7, hd, g8]

theorem bob_genuine : bob0.Genuine toy [sent1] alice m1 := by
  have hs := bobSecrets_eq
  have hb : sent1.body = (preKeyOf m1).elim [] fun m => m.message.ciphertext := by decide +kernel
  have hid : (preKeyOf m1).elim false (fun m => (m.preKeyID.bind bob0.preKeys).isSome) = true := by decide +kernel
  generalize m1 = c at hs hb hid ⊢
  cases c with
  | senderKey _ => simp [preKeyOf] at hs
  | plaintext _ => simp [preKeyOf] at hs
  | signal _ => simp [preKeyOf] at hs
  | preKey pm =>
    simp only [preKeyOf, Option.bind_some, Option.elim_some] at hs hb hid
    intro m s snd rcv sec hm hr h1 h2 h3 _ e he _
    simp only [List.mem_singleton] at he
    subst he
    cases hm
    refine ⟨?_, hb⟩
    rw [(bob_reader hid hr h3).1] at hs
    rw [Option.some.inj hs]
    rfl

theorem sent1_sendings : Sendings toy [sent1] := by
  refine C119_short_contents ?_ ?_ ?_
  · simp only [List.mem_singleton, forall_eq]; decide +kernel
  · simp only [List.mem_singleton]; rintro e rfl e' rfl _; rfl
  · simp only [List.mem_singleton, forall_eq]; decide +kernel

theorem alice_rewritten {L : List Sent} (hL : sent1 ∈ L) :
    Rewritten copying L alice1 [⟨.encrypt bob [1, 2, 3], alice1.rand, alice1.faults⟩] [⟨.encrypt bob [7, 7], alice1.rand, alice1.faults⟩] := by
  refine .cons _ _ _ _ _ (.send _ _ _ _ _ ?_) (.nil _)
  intro x m r s hx hm hr hs
  have hrun : ∀ w : World, (Call.run copying ⟨.encrypt bob [1, 2, 3], w.rand, w.faults⟩ w).1 = Out.of (.ciphertext bob) (encryptMessage copying bob [1, 2, 3] w).1 :=
    fun w => rfl
  have hx' := (hrun alice1).symm.trans hx
  have h1 : (encryptMessage copying bob [1, 2, 3] alice1).1 = .ok m1 := by decide +kernel
  rw [h1] at hx'
  simp only [Out.of, Out.ciphertext.injEq, true_and] at hx'
  subst hx'
  have hc : m1.inner = (preKeyOf m1).map PreKeyMsg.message := by decide +kernel
  rw [hc] at hm
  obtain ⟨pm, h2, h3⟩ := Option.map_eq_some_iff.mp hm
  refine Eq.mp (congrArg (· ∈ L) ?_) hL
  unfold sent1 secrets1
  rw [h2, hr]
  simp only [Option.bind_some, hs, Option.elim_some, ← h3]
  rfl

end Ex

/-- the hypotheses are met by Alice, who sends the first message of the example, and Bob, who reads it -/
example : Reachable copying alice1 ∧ Reachable copying bob0 ∧ Sendings toy [sent1] ∧
    Rewritten copying [sent1] alice1 [⟨.encrypt bob [1, 2, 3], alice1.rand, alice1.faults⟩] [⟨.encrypt bob [7, 7], alice1.rand, alice1.faults⟩] ∧
    Rewritten copying [sent1] bob0 [⟨.decrypt alice m1, bob0.rand, bob0.faults⟩] [⟨.decrypt alice m1, bob0.rand, bob0.faults⟩] ∧
    (encryptMessage copying bob [1, 2, 3] alice1).1 = .ok m1 ∧ (decryptMessage copying alice m1 bob0).1 = .ok (some [1, 2, 3]) := by
  refine ⟨alice1_reachable, bob0_reachable, sent1_sendings, ?_, ?_, by decide +kernel, m1_delivered⟩
  · exact alice_rewritten (by simp)
  · exact .cons _ _ _ _ _ (.read _ _ _ _ bob_genuine) (.nil _)

end Verif
