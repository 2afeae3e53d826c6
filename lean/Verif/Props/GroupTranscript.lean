import Verif.Proofs.GroupTranscript
import Verif.Props.Transcript
import Verif.Props.Group

/-!
# What everything that is sent in pairs and in groups tells about the contents: C121
-/

namespace Verif

open Ex Doc

/-- **C121**. Any number of users make any calls of their sessions and of their group sessions, with any random bytes and any store
failures. Take the list of all messages that these calls returned, with another content for every one of them that fits its body, and let
the users make the same calls with these contents. Then there is another AES, different under the keys of these messages only, with which
nothing else changes: every message and every distribution message that is returned is the same byte for byte, every error is the same,
all stores are the same after the last call, and whoever read the old content of a message now reads the new one. -/
theorem C121_group_contents_are_open {I J : Type} (C : Crypto) (E : I → Env) (hE : ∀ i, (E i).C = C) (F : J → GEnv) (hF : ∀ j, (F j).C = C)
    (w : I → World) (hw : ∀ i, Reachable (E i) (w i)) (v : J → GWorld) (hv : ∀ j, GReachable (F j) (v j)) (L : List Sent) (hL : Sendings C L)
    (cs cs' : I → List Call) (h : ∀ i, Rewritten (E i) L (w i) (cs i) (cs' i))
    (gs gs' : J → List GCall) (hg : ∀ j, GRewritten (F j) L (v j) (gs j) (gs' j)) :
    ∃ C' : Crypto, C.SameButAesOn C' (KeyOf L) ∧
      (∀ i, (runCalls { E i with C := C' } (cs' i) (w i)).2 = (runCalls (E i) (cs i) (w i)).2 ∧
        AllAlike L (cs i) (runCalls (E i) (cs i) (w i)).1 (runCalls { E i with C := C' } (cs' i) (w i)).1) ∧
      (∀ j, (runGCalls { F j with C := C' } (gs' j) (v j)).2 = (runGCalls (F j) (gs j) (v j)).2 ∧
        GAllAlike L (gs j) (runGCalls (F j) (gs j) (v j)).1 (runGCalls { F j with C := C' } (gs' j) (v j)).1) := by
  obtain ⟨C', h1, h2⟩ := hL.opening
  refine ⟨C', h1, fun i => ?_, fun j => ?_⟩
  · have e := hE i
    subst e
    exact twin_calls h1 hL h2 (h i) (hw i).WF
  · have e := hF j
    subst e
    exact twin_gcalls h1 hL h2 (hg j) (hv j).WF

/-- In particular somebody who sees all group messages, and nothing else, sees the same. -/
theorem C121_same_group_messages {J : Type} (C : Crypto) (F : J → GEnv) (hF : ∀ j, (F j).C = C) (v : J → GWorld)
    (hv : ∀ j, GReachable (F j) (v j)) (L : List Sent) (hL : Sendings C L) (gs gs' : J → List GCall)
    (hg : ∀ j, GRewritten (F j) L (v j) (gs j) (gs' j)) :
    ∃ C' : Crypto, C.SameButAesOn C' (KeyOf L) ∧ ∀ (j : J) (n : Nat) (o : GOut), (∀ a m p, o ≠ .plaintext a m p) →
      ((runGCalls { F j with C := C' } (gs' j) (v j)).1[n]? = some o ↔ (runGCalls (F j) (gs j) (v j)).1[n]? = some o) := by
  obtain ⟨C', h1, _, h2⟩ := C121_group_contents_are_open (I := Empty) C (fun i => nomatch i) (fun i => nomatch i) F hF (fun i => nomatch i)
    (fun i => nomatch i) v hv L hL (fun i => nomatch i) (fun i => nomatch i) (fun i => nomatch i) gs gs' hg
  refine ⟨C', h1, fun j n o hp => ?_⟩
  have key : ∀ (cs : List GCall) (os os' : List GOut), GAllAlike L cs os os' → ∀ n : Nat, os'[n]? = some o ↔ os[n]? = some o := by
    intro cs os os' hh
    induction hh with
    | nil => intro n; simp
    | cons c cs x x' os os' ho _ ih =>
      intro n
      cases n with
      | zero =>
        rcases ho with rfl | ⟨a, m, e, _, _, _, rfl, rfl⟩
        · simp
        · have y1 := (hp a m e.old).symm
          have y2 := (hp a m e.new).symm
          simp [y1, y2]
      | succ n => simpa using ih n
  exact key _ _ _ (h2 j).2 n

/-- A content that is not changed always fits: so any part of the messages may keep its contents, for example those that carry a
distribution message to a member of a group. -/
theorem C121_unchanged_contents {C : Crypto} {L : List Sent} (made : ∀ e ∈ L, cbcEncrypt C e.key e.iv e.old = .ok e.body)
    (once : ∀ e ∈ L, ∀ e' ∈ L, e.key = e'.key → e = e') (fits : ∀ e ∈ L, e.new ≠ e.old → Fits e.iv e.body e.new) : Sendings C L := by
  refine ⟨made, fun e he => ?_, once⟩
  by_cases hn : e.new = e.old
  rotate_left
  · exact fits e he hn
  have hm := made e he
  have hok : aesKeyOk e.key = true ∧ e.iv.length = 16 := by
    unfold cbcEncrypt at hm
    split at hm
    · simp at hm
    rename_i hk
    split at hm
    · simp at hm
    rename_i hi
    exact ⟨by simpa using hk, by simpa using hi⟩
  exact (fits_iff C e.key e.iv e.body e.new hok.1 hok.2).mpr
    ⟨C, ⟨rfl, rfl, rfl, rfl, rfl, rfl, rfl, fun _ _ _ => rfl, fun _ _ _ => rfl⟩, by rw [hn]; exact hm⟩

/-! ## An example -/

namespace Ex

/-- the secret bytes of the first group message of the example -/
def gsecrets1 : Bytes := groupSecrets toy (((galice1.records (alice, dist)).bind List.head?).elim [] fun s => s.chainKey.seed) 0

/-- the first group message of the example, with another content -/
def gsent1 : Sent := ⟨gsecrets1.drop 16, gsecrets1.take 16, g1.ciphertext, [1, 2, 3], [8]⟩

theorem galice1_reachable : GReachable gCopying galice1 :=
  ⟨group0, [⟨.distribute alice dist, group0.rand, group0.sysRand, []⟩], galice1.rand, galice1.sysRand, galice1.faults, group0_empty, rfl⟩

theorem gbob_genuine : gbob1.Genuine toy [sent1, gsent1] alice g1 := by
  have h1 : g1.distID = dist ∧ g1.iteration = 0 := by decide +kernel
  have h2 : ((gbob1.records (alice, dist)).getD []).all (fun s => s.messageKeys.isEmpty && s.chainKey.iteration == 0 &&
      groupSecrets toy s.chainKey.seed 0 == gsecrets1) = true := by decide +kernel
  have h3 : gsent1.body = g1.ciphertext := rfl
  have h4 : sent1.key ≠ gsecrets1.drop 16 := by decide +kernel
  generalize g1 = m at h1 h3 ⊢
  generalize gbob1 = w at h2 ⊢
  intro g s key secrets hr hs _ _ _ hsec e he hk
  rw [h1.1] at hr
  rw [hr] at h2
  simp only [Option.getD_some, List.all_eq_true] at h2
  have h5 := h2 s hs
  simp only [Bool.and_eq_true, List.isEmpty_iff, beq_iff_eq] at h5
  have : secrets = gsecrets1 := by
    cases hsec with
    | stored b a k hb => rw [h5.1.1] at hb; simp at hb
    | ahead => rw [h5.1.2, h1.2]; exact h5.2
  subst this
  simp only [List.mem_cons, List.not_mem_nil, or_false] at he
  rcases he with rfl | rfl
  · exact absurd hk h4
  · exact ⟨rfl, h3⟩

theorem both_sendings : Sendings toy [sent1, gsent1] := by
  have hne : sent1.key ≠ gsent1.key := by decide +kernel
  refine C119_short_contents ?_ ?_ ?_
  · simp only [List.mem_cons, List.not_mem_nil, or_false, forall_eq_or_imp, forall_eq]; decide +kernel
  · simp only [List.mem_cons, List.not_mem_nil, or_false]
    rintro e (rfl | rfl) e' (rfl | rfl) h
    · rfl
    · exact absurd h hne
    · exact absurd h.symm hne
    · rfl
  · simp only [List.mem_cons, List.not_mem_nil, or_false, forall_eq_or_imp, forall_eq]; decide +kernel

end Ex

/-- the hypotheses are met by Alice, who sends the first message of the example to Bob and the first one to the group, and Bob, who reads the
message of the group -/
example : GReachable gCopying galice1 ∧ GReachable gCopying gbob1 ∧ Sendings toy [sent1, gsent1] ∧
    GRewritten gCopying [sent1, gsent1] galice1 [⟨.encrypt alice dist [1, 2, 3], randomness 3, galice1.sysRand, galice1.faults⟩]
      [⟨.encrypt alice dist [8], randomness 3, galice1.sysRand, galice1.faults⟩] ∧
    GRewritten gCopying [sent1, gsent1] gbob1 [⟨.decrypt alice g1, [], [], []⟩] [⟨.decrypt alice g1, [], [], []⟩] ∧
    Rewritten copying [sent1, gsent1] alice1 [⟨.encrypt bob [1, 2, 3], alice1.rand, alice1.faults⟩] [⟨.encrypt bob [7, 7], alice1.rand, alice1.faults⟩] ∧
    (groupEncrypt toy false alice dist [1, 2, 3] { galice1 with rand := randomness 3 }).1 = .ok g1 ∧ (groupDecrypt toy false alice g1 gbob1).1 = .ok [1, 2, 3] := by
  refine ⟨galice1_reachable, gbob1_reachable, both_sendings, ?_, ?_, ?_, by decide +kernel, by decide +kernel⟩
  · refine .cons _ _ _ _ _ (.send _ _ _ _ _ _ _ ?_) (.nil _)
    intro m s g hx hr
    have hrun : ∀ w : GWorld, (GCall.run gCopying ⟨.encrypt alice dist [1, 2, 3], randomness 3, w.sysRand, w.faults⟩ w).1 =
        GOut.of (.ciphertext alice dist) (groupEncrypt toy false alice dist [1, 2, 3] { w with rand := randomness 3 }).1 := fun w => rfl
    have hx' := (hrun galice1).symm.trans hx
    have h1 : (groupEncrypt toy false alice dist [1, 2, 3] { galice1 with rand := randomness 3 }).1 = .ok g1 := by decide +kernel
    rw [h1] at hx'
    simp only [GOut.of, GOut.ciphertext.injEq, true_and] at hx'
    subst hx'
    refine List.mem_cons_of_mem _ ?_
    simp only [List.mem_singleton]
    unfold gsent1 gsecrets1
    rw [hr]
    rfl
  · exact .cons _ _ _ _ _ (.read _ _ _ _ _ gbob_genuine) (.nil _)
  · exact alice_rewritten (by simp)

end Verif
