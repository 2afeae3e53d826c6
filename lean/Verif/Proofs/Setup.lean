import Verif.Proofs.View
import Verif.Proofs.Messages
import Verif.Proofs.Runs

/-!
Both sides of the session set-up (X3DH) compute the same keys.
-/

namespace Verif

/-- The session Alice sets up from the shared root and chain keys. -/
def aliceInitial (aId : KeyPair) (bId ratchet : PubKey) (ck : ChainKey) (kp : KeyPair) (sr : RootKey) (sc : ChainKey) : SState :=
  (({ sessionVersion := ciphertextVersion, localIdentityPublic := aId.pub.bytes, remoteIdentityPublic := bId.bytes, rootKey := sr.key } : SState).addReceiverChain ratchet ck).setSenderChain kp sc

/-- The session Bob sets up from the shared root and chain keys. -/
def bobInitial (bId : KeyPair) (aId : PubKey) (ratchet : KeyPair) (root : RootKey) (ck : ChainKey) : SState :=
  ({ sessionVersion := ciphertextVersion, localIdentityPublic := bId.pub.bytes, remoteIdentityPublic := aId.bytes, rootKey := root.key } : SState).setSenderChain ratchet ck

theorem x3dh_agree (C : Crypto) {aId base bId signed ratchet : KeyPair} {one : Option KeyPair} (ha : aId.Matched C) (hb : base.Matched C)
    (hi : bId.Matched C) (hs : signed.Matched C) (hr : ratchet.Matched C) (ho : ∀ k, one = some k → k.Matched C) :
    ∃ (root : RootKey) (ck : ChainKey), root.key.length = 32 ∧ ck.key.length = 32 ∧ ck.index = 0 ∧
      Doc.x3dh C aId base bId.pub signed.pub (one.map (·.pub)) = ⟨root.key, ck.key⟩ ∧
      initializeBobSession C ⟨bId, some signed, one, some ratchet, aId.pub, base.pub⟩ = .ok (bobInitial bId aId.pub ratchet root ck) ∧
      ∀ (rd rd' : Bytes) (kp : KeyPair), generateKeyPair C rd = (.ok kp, rd') →
        ∃ sr sc, root.createChain C kp.priv ratchet.pub = .ok (sr, sc) ∧
          initializeAliceSession C ⟨aId, base, bId.pub, signed.pub, one.map (·.pub), ratchet.pub⟩ rd =
            (.ok (aliceInitial aId bId.pub ratchet.pub ck kp sr sc), rd') := by
  obtain ⟨d1, a1, b1, _⟩ := agreement_honest C aId.priv signed.priv
  obtain ⟨d2, a2, b2, _⟩ := agreement_honest C base.priv bId.priv
  obtain ⟨d3, a3, b3, _⟩ := agreement_honest C base.priv signed.priv
  rw [← hs] at a1 a3
  rw [← ha] at b1
  rw [← hi] at a2
  rw [← hb] at b2 b3
  obtain ⟨d4, a4, b4⟩ : ∃ d4, (match one.map (·.pub) with | some k => base.priv.agreement C k | none => .ok []) = .ok d4 ∧
      (match one with | some k => k.priv.agreement C base.pub | none => .ok []) = .ok d4 := by
    cases one with
    | none => exact ⟨[], rfl, rfl⟩
    | some k =>
      obtain ⟨d, h1, h2, _⟩ := agreement_honest C base.priv k.priv
      rw [← ho k rfl] at h1
      rw [← hb] at h2
      exact ⟨d, h1, h2⟩
  have hlen := C.hkdf_len (discontinuityBytes ++ d1 ++ d2 ++ d3 ++ d4) [] initRootInfo 64
  refine ⟨⟨(C.hkdf (discontinuityBytes ++ d1 ++ d2 ++ d3 ++ d4) [] initRootInfo 64).take 32⟩,
    ⟨(C.hkdf (discontinuityBytes ++ d1 ++ d2 ++ d3 ++ d4) [] initRootInfo 64).drop 32, 0⟩, by rw [List.length_take, hlen]; rfl, by rw [List.length_drop, hlen], rfl, ?_, ?_, ?_⟩
  · have ea : ∀ {a : KeyPair} {q : PubKey} {s : Bytes}, a.priv.agreement C q = .ok s → Doc.agree C a q = s := by
      intro a q s h
      exact Doc.agree_eq h
    unfold Doc.x3dh
    rw [ea a1, ea a2, ea a3, Doc.ascii_text]
    cases one with
    | none =>
      simp only [Option.map_none, Res.ok.injEq] at a4
      subst a4
      rfl
    | some k =>
      simp only [Option.map_some] at a4 ⊢
      rw [ea a4]
      rfl
  · cases one with
    | none =>
      simp only [Res.ok.injEq] at b4
      subst b4
      simp only [initializeBobSession, deref, b1, b2, b3, Res.bind_ok, deriveKeys_ok, List.append_nil]
      rfl
    | some k =>
      simp only at b4
      simp only [initializeBobSession, deref, b1, b2, b3, b4, Res.bind_ok, deriveKeys_ok]
      rfl
  · intro rd rd' kp hg
    obtain ⟨o, ho1, _⟩ := createChain_comm C ⟨(C.hkdf (discontinuityBytes ++ d1 ++ d2 ++ d3 ++ d4) [] initRootInfo 64).take 32⟩ (generateKeyPair_ok hg).2.2.1 hr
    refine ⟨o.1, o.2, ho1, ?_⟩
    unfold initializeAliceSession
    rw [M.bind_ok_run hg, M.lift_run]
    cases one with
    | none =>
      simp only [Option.map_none, Res.ok.injEq] at a4
      subst a4
      simp only [a1, a2, a3, Option.map_none, Res.bind_ok, deriveKeys_ok, List.append_nil] at ho1 ⊢
      rw [ho1]
      rfl
    | some k =>
      simp only [Option.map_some] at a4
      simp only [a1, a2, a3, Option.map_some, a4, Res.bind_ok, deriveKeys_ok, ho1]
      rfl

/-- The first two rungs. -/
def firstRungs (ratchet kp : KeyPair) (root : RootKey) (ck : ChainKey) (sr : RootKey) (sc : ChainKey) : Nat → Rung
  | 0 => ⟨ratchet, root, ck, 0⟩
  | _ => ⟨kp, sr, sc, 0⟩

theorem firstRungs_ladder {C : Crypto} {ratchet kp : KeyPair} {root sr : RootKey} {ck sc : ChainKey} (h1 : root.key.length = 32)
    (h2 : ck.key.length = 32) (h3 : ck.index = 0) (hr : ratchet.Matched C) (hk : kp.Matched C)
    (hs : root.createChain C kp.priv ratchet.pub = .ok (sr, sc)) (hd : ratchet.pub ≠ kp.pub) :
    Ladder C (firstRungs ratchet kp root ck sr sc) 1 := by
  obtain ⟨l1, l2, l3⟩ := RootKey.createChain_ok hs
  have two : ∀ i, i ≤ 1 → i = 0 ∨ i = 1 := fun i hi => by omega
  refine ⟨?_, ?_, ?_, ?_, ?_⟩
  · intro i hi; rcases two i hi with rfl | rfl
    · exact hr
    · exact hk
  · intro i hi
    have : i = 0 := by omega
    subst this
    exact hs
  · intro i hi; rcases two i hi with rfl | rfl
    · exact h1
    · exact l1
  · intro i hi; rcases two i hi with rfl | rfl
    · exact ⟨h2, h3⟩
    · exact ⟨l2, l3⟩
  · intro i j hi hj hij
    rcases two i hi with rfl | rfl <;> rcases two j hj with rfl | rfl
    · rfl
    · exact absurd hij hd
    · exact absurd hij.symm hd
    · rfl

/-- What Alice knows after the set-up. -/
theorem alice_view {C : Crypto} {aId ratchet kp : KeyPair} {bId : PubKey} {root sr : RootKey} {ck sc : ChainKey} {s : SState} (hw : s.WF)
    (h1 : s.localIdentityPublic = aId.pub.bytes) (h2 : s.remoteIdentityPublic = bId.bytes) (h3 : s.rootKey = sr.key)
    (h4 : s.senderChain = (aliceInitial aId bId ratchet.pub ck kp sr sc).senderChain)
    (h5 : s.receiverChains = (aliceInitial aId bId ratchet.pub ck kp sr sc).receiverChains) (h6 : s.previousCounter = 0) :
    View C (firstRungs ratchet kp root ck sr sc) 1 aId.pub bId [] 0 s := by
  refine ⟨hw, h1, h2, h3, h6, ⟨_, h4, rfl, rfl, rfl⟩, by rw [h5]; rfl, ?_⟩
  intro c hc e he hce
  have : e = 0 := by omega
  subst this
  rw [h5] at hc
  have hc : c ∈ [({ senderRatchetKey := ratchet.pub.bytes, chainKey := some { index := ck.index, key := ck.key } } : PBChain)] := hc
  rw [List.mem_singleton] at hc
  subst hc
  refine ⟨rfl, by simp, ?_, ?_⟩
  · intro n hn
    simp [newestUnder] at hn
  · intro _
    simp [newestUnder, skipped, lastN]

/-- What Bob knows after the set-up. -/
theorem bob_view {C : Crypto} {bId ratchet kp : KeyPair} {aId : PubKey} {root sr : RootKey} {ck sc : ChainKey} {s : SState} (hw : s.WF)
    (h1 : s.localIdentityPublic = bId.pub.bytes) (h2 : s.remoteIdentityPublic = aId.bytes) (h3 : s.rootKey = root.key)
    (h4 : s.senderChain = (bobInitial bId aId ratchet root ck).senderChain) (h5 : s.receiverChains = []) (h6 : s.previousCounter = 0) :
    View C (firstRungs ratchet kp root ck sr sc) 0 bId.pub aId [] 0 s := by
  refine ⟨hw, h1, h2, h3, h6, ⟨_, h4, rfl, rfl, rfl⟩, by rw [h5]; rfl, ?_⟩
  intro c hc e he
  omega

end Verif
