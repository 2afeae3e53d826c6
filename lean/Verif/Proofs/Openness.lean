import Verif.Spec.Openness
import Verif.Proofs.Envelope
import Verif.Proofs.Chains

/-!
# Helper lemmas for C87 and C88
-/

namespace Verif

/-! ## HKDF with one other output -/

section
variable (C : Crypto) (ikm salt info out : Bytes)

theorem withHkdf_hit (n : Nat) (hn : out.length = n) : (C.withHkdf ikm salt info out).hkdf ikm salt info n = out := by
  simp [Crypto.withHkdf, hn]

theorem withHkdf_miss (i s t : Bytes) (n : Nat) (h : ¬ (i = ikm ∧ s = salt ∧ t = info)) :
    (C.withHkdf ikm salt info out).hkdf i s t n = C.hkdf i s t n := by
  simp only [Crypto.withHkdf]
  rw [if_neg (fun hh => h ⟨hh.1, hh.2.1, hh.2.2.1⟩)]

theorem withHkdf_messageKeys (hs : salt ≠ []) (c : ChainKey) : c.messageKeys (C.withHkdf ikm salt info out) = c.messageKeys C := by
  unfold ChainKey.messageKeys deriveMessageKeys
  rw [withHkdf_miss _ _ _ _ _ _ _ _ _ (fun h => hs h.2.1.symm)]
  rfl

theorem withHkdf_skipLoop (hs : salt ≠ []) (eph : PubKey) (n : UInt32) (f : Nat) (ck : ChainKey) (s : SState) :
    skipLoop (C.withHkdf ikm salt info out) eph n f ck s = skipLoop C eph n f ck s := by
  induction f generalizing ck s with
  | zero => rfl
  | succ f ih =>
    unfold skipLoop
    rw [withHkdf_messageKeys _ _ _ _ _ hs]
    split
    · cases s.setMessageKeys eph (ck.messageKeys C) with
      | ok s' => simp only [Res.bind_ok]; exact ih _ _
      | err e => rfl
      | panic => rfl
    · rfl

theorem withHkdf_messageKeysFor (hs : salt ≠ []) (s : SState) (eph : PubKey) (ck : ChainKey) (n : UInt32) :
    messageKeysFor (C.withHkdf ikm salt info out) s eph ck n = messageKeysFor C s eph ck n := by
  unfold messageKeysFor
  simp only [withHkdf_skipLoop _ _ _ _ _ hs, withHkdf_messageKeys _ _ _ _ _ hs]

/-- What `decryptMessageSession` does after `chainKeyFor`. -/
def finishDecrypt (C : Crypto) (m : Signal) (chainKey : ChainKey) (s : SState) : Res (Bytes × SState) := do
  let (messageKeys, s) ← messageKeysFor C s m.senderRatchetKey chainKey m.counter
  match ← s.remoteIdentityKey with
  | none => .err .noRemoteIdentity
  | some theirIdentityKey =>
    let localIdentityKey ← s.localIdentityKey
    let valid ← m.verifyMAC C messageKeys.macKey theirIdentityKey localIdentityKey
    if valid then
      let plaintext ← cbcDecrypt C messageKeys.cipherKey messageKeys.iv m.ciphertext
      return (plaintext, s.clearUnacknowledgedPreKeyMessage)
    else .err .badMAC

theorem withHkdf_cbcDec (k : Bytes) (n : Nat) (iv ct : Bytes) : cbcDecBlocks (C.withHkdf ikm salt info out) k n iv ct = cbcDecBlocks C k n iv ct := by
  induction n generalizing iv ct with
  | zero => rfl
  | succ n ih => simp only [cbcDecBlocks, ih]; rfl

theorem withHkdf_finish (hs : salt ≠ []) (m : Signal) (ck : ChainKey) (s : SState) :
    finishDecrypt (C.withHkdf ikm salt info out) m ck s = finishDecrypt C m ck s := by
  unfold finishDecrypt
  rw [withHkdf_messageKeysFor _ _ _ _ _ hs]
  have h : ∀ k iv ct, cbcDecrypt (C.withHkdf ikm salt info out) k iv ct = cbcDecrypt C k iv ct := by
    intro k iv ct
    unfold cbcDecrypt
    rw [withHkdf_cbcDec]
  simp only [h]
  rfl

end

theorem decryptMessageSession_split (C : Crypto) (s : SState) (m : Signal) (rd : Bytes) (hc : s.senderChain.isSome)
    (hv : m.version.toUInt32 = s.version) (ck : ChainKey) (s1 : SState) (rd' : Bytes)
    (h : chainKeyFor C s m.senderRatchetKey rd = (.ok (ck, s1), rd')) :
    decryptMessageSession C s m rd = (finishDecrypt C m ck s1, rd') := by
  obtain ⟨c, hc⟩ := Option.isSome_iff_exists.mp hc
  unfold decryptMessageSession
  rw [hc]
  simp only
  rw [if_neg (by simp [hv]), M.bind_ok_run h]
  rfl

/-! ## The ratchet step -/

/-- The new receiving chain, spelled out. -/
structure Step (C : Crypto) (s : SState) (eph : PubKey) (rd rd' : Bytes) (ck : ChainKey) (s' : SState) : Prop where
  absent : s.receiverChainKey eph = .ok none
  parts : ∃ (c : PBChain) (cur : PBChainKey) (ours : PrivKey) (secret secret2 : Bytes) (kp : KeyPair),
    s.rootKey.length = 32 ∧ s.senderChain = some c ∧ c.chainKey = some cur ∧ cur.key.length = 32 ∧
    newPrivateKey c.senderRatchetKeyPrivate = .ok ours ∧ C.dh ours.key eph.keyBytes = some secret ∧
    generateKeyPair C rd = (.ok kp, rd') ∧ C.dh kp.priv.key eph.keyBytes = some secret2 ∧
    ck = ⟨(C.hkdf secret s.rootKey rootInfo 64).drop 32, 0⟩ ∧
    s' = { ({ s with rootKey := (C.hkdf secret2 ((C.hkdf secret s.rootKey rootInfo 64).take 32) rootInfo 64).take 32 } : SState).addReceiverChain eph ck with
        previousCounter := if cur.index > 0 then cur.index - 1 else 0 }.setSenderChain kp
          ⟨(C.hkdf secret2 ((C.hkdf secret s.rootKey rootInfo 64).take 32) rootInfo 64).drop 32, 0⟩

theorem agreement_eq_ok {C : Crypto} {a : PrivKey} {q : PubKey} {s : Bytes} : a.agreement C q = .ok s ↔ C.dh a.key q.keyBytes = some s := by
  unfold PrivKey.agreement
  cases C.dh a.key q.keyBytes <;> simp [Res.ofOption]

theorem createChain_ok_iff {C : Crypto} {r r' : RootKey} {a : PrivKey} {q : PubKey} {ck : ChainKey} :
    r.createChain C a q = .ok (r', ck) ↔
      ∃ s, C.dh a.key q.keyBytes = some s ∧ r' = ⟨(C.hkdf s r.key rootInfo 64).take 32⟩ ∧ ck = ⟨(C.hkdf s r.key rootInfo 64).drop 32, 0⟩ := by
  rw [createChain_eq, Res.bind_eq_ok]
  simp only [agreement_eq_ok, Res.ok.injEq, Prod.mk.injEq]
  constructor
  · rintro ⟨s, h1, h2, h3⟩; exact ⟨s, h1, h2.symm, h3.symm⟩
  · rintro ⟨s, h1, h2, h3⟩; exact ⟨s, h1, h2.symm, h3.symm⟩

theorem Step.of {C : Crypto} {s s' : SState} {eph : PubKey} {rd rd' : Bytes} {ck : ChainKey}
    (hn : s.receiverChainKey eph = .ok none) (h : chainKeyFor C s eph rd = (.ok (ck, s'), rd')) : Step C s eph rd rd' ck s' := by
  rcases chainKeyFor_ok h with ⟨h1, _⟩ | ⟨_, root, ours, rRoot, kp, sRoot, sCk, cur, h1, h2, h3, h4, h5, h6, h7⟩
  · rw [hn] at h1; simp at h1
  · refine ⟨hn, ?_⟩
    obtain ⟨secret, e1, rfl, rfl⟩ := createChain_ok_iff.mp h3
    obtain ⟨secret2, e2, rfl, rfl⟩ := createChain_ok_iff.mp h5
    unfold SState.getRootKey newRootKey at h1
    split at h1
    · simp at h1
    rename_i hl
    simp only [Res.ok.injEq] at h1
    subst h1
    unfold SState.senderRatchetPrivateKey at h2
    unfold SState.senderChainKey at h6
    obtain ⟨c, hc⟩ : ∃ c, s.senderChain = some c := by
      cases hc : s.senderChain with
      | none => simp [hc] at h2
      | some c => exact ⟨c, rfl⟩
    rw [hc] at h2 h6
    simp only at h2 h6
    cases hk : c.chainKey with
    | none => simp [hk] at h6
    | some cur' =>
      rw [hk] at h6
      simp only [newChainKey] at h6
      split at h6
      · simp at h6
      rename_i hl2
      simp only [Res.ok.injEq] at h6
      subst h6
      exact ⟨c, cur', ours, secret, secret2, kp, Decidable.of_not_not hl, hc, hk, Decidable.of_not_not hl2, h2, e1, h4, e2, rfl, h7⟩

theorem Step.run {C : Crypto} {s s' : SState} {eph : PubKey} {rd rd' : Bytes} {ck : ChainKey} (h : Step C s eph rd rd' ck s') :
    chainKeyFor C s eph rd = (.ok (ck, s'), rd') := by
  obtain ⟨hn, c, cur, ours, secret, secret2, kp, h1, h2, h3, h4, h5, h6, h7, h8, rfl, rfl⟩ := h
  unfold chainKeyFor
  rw [M.bind_ok_run (show M.lift (s.receiverChainKey eph) rd = (.ok none, rd) by rw [M.lift_run, hn])]
  simp only
  have e1 : s.getRootKey = .ok ⟨s.rootKey⟩ := by simp [SState.getRootKey, newRootKey, h1]
  have e2 : s.senderRatchetPrivateKey = .ok ours := by simp [SState.senderRatchetPrivateKey, h2, h5]
  have e3 : s.senderChainKey = .ok ⟨cur.key, cur.index⟩ := by simp [SState.senderChainKey, h2, h3, newChainKey, h4]
  rw [M.bind_ok_run (show M.lift s.getRootKey rd = (.ok _, rd) by rw [M.lift_run, e1]),
    M.bind_ok_run (show M.lift s.senderRatchetPrivateKey rd = (.ok _, rd) by rw [M.lift_run, e2]),
    M.bind_ok_run (show M.lift (RootKey.createChain C ⟨s.rootKey⟩ ours eph) rd = (.ok _, rd) by
      rw [M.lift_run, createChain_ok_iff.mpr ⟨secret, h6, rfl, rfl⟩])]
  simp only
  rw [M.bind_ok_run h7,
    M.bind_ok_run (show M.lift (RootKey.createChain C _ kp.priv eph) rd' = (.ok _, rd') by
      rw [M.lift_run, createChain_ok_iff.mpr ⟨secret2, h8, rfl, rfl⟩])]
  simp only
  rw [M.bind_ok_run (show M.lift s.senderChainKey rd' = (.ok _, rd') by rw [M.lift_run, e3])]
  rfl

/-! ## The call -/

/-- What `decryptSignal` does after decryption. -/
def signalTail (E : Env) (a : Address) (record : Record) (plaintext : Option Bytes) : M World (Option Bytes) := do
  touch E a true record
  match record.current with
  | none => M.throw .mustHaveState
  | some state =>
    match state.remoteIdentityKey with
    | .ok (some theirIdentityKey) =>
      let trusted ← isTrusted E a theirIdentityKey .receiving
      if trusted then
        storeIdentity a theirIdentityKey
        storeSession a record
        return plaintext
      else M.throw (.untrustedIdentity a)
    | .panic => M.panic
    | _ => M.throw .mustHaveIdentity

theorem loadSession_cases (a : Address) (w : World) :
    (∃ fs, loadSession a w = (.ok (w.sessions a), { w with faults := fs }) ∧ ∀ w', w'.faults = w.faults → loadSession a w' = (.ok (w'.sessions a), { w' with faults := fs })) ∨
    ∃ fs, loadSession a w = (.err .store, { w with faults := fs }) := by
  unfold loadSession storeCall
  cases hf : w.faults with
  | nil =>
    left
    refine ⟨[], ?_, ?_⟩
    · simp only [← hf]
    · intro w' h'
      cases w'
      subst h'
      rfl
  | cons f fs =>
    cases f with
    | none => exact .inl ⟨fs, rfl, fun w' h' => by rw [h']⟩
    | before => exact .inr ⟨fs, rfl⟩
    | after => exact .inr ⟨fs, rfl⟩

theorem decryptSignal_split (E : Env) (a : Address) (m : Signal) (w : World) (fs : List Fault) (r x : Record) (p rd : Bytes)
    (hl : loadSession a w = (.ok (some r), { w with faults := fs })) (hd : decryptRecord E.C r m w.rand = (.ok (p, x), rd)) :
    decryptSignal E a m w = signalTail E a x (some p) { w with faults := fs, rand := rd } := by
  unfold decryptSignal
  rw [M.bind_ok_run hl]
  simp only
  have : M.attempt (withRand (decryptRecord E.C r m)) { w with faults := fs } = (.ok (.ok (p, x)), { w with faults := fs, rand := rd }) := by
    unfold M.attempt withRand
    simp only [hd]
  rw [M.bind_ok_run this]
  rfl

theorem storeCall_same {α β} (act : World → α × World) (act' : World → β × World) (w w' : World) (hf : w'.faults = w.faults) :
    (∃ fs, storeCall act w = (.ok (act { w with faults := fs }).1, (act { w with faults := fs }).2) ∧
      storeCall act' w' = (.ok (act' { w' with faults := fs }).1, (act' { w' with faults := fs }).2)) ∨
    ∃ w1, storeCall act w = (.err .store, w1) := by
  unfold storeCall
  rw [hf]
  cases h : w.faults with
  | nil =>
    left
    rw [h] at hf
    cases w'
    cases w
    subst h hf
    exact ⟨[], rfl, rfl⟩
  | cons f fs =>
    cases f with
    | none => exact .inl ⟨fs, rfl, rfl⟩
    | before => exact .inr ⟨_, rfl⟩
    | after => exact .inr ⟨_, rfl⟩

theorem signalTail_swap (E E' : Env) (ha : E'.aliased = E.aliased) (ht : E'.trusted = E.trusted) (a : Address) (x x' : Record)
    (hx : x'.current.map SState.remoteIdentityKey = x.current.map SState.remoteIdentityKey) (o : Option Bytes) (w w' : World) (hw : SameBut a w w')
    (out : Option Bytes) (w1 : World) (h : signalTail E a x o w = (.ok out, w1)) :
    signalTail E' a x' o w' = (.ok out, { w1 with sessions := upd w1.sessions a (some x') }) := by
  unfold signalTail at h ⊢
  rw [M.bind_ok_run (touch_run E a true _ _)] at h
  rw [M.bind_ok_run (touch_run E' a true _ _)]
  have hw2 : SameBut a { w with sessions := mid E a true w.sessions x } { w' with sessions := mid E' a true w'.sessions x' } := by
    have := (touch_sim E a true x x' w w' hw).1
    rw [touch_run, touch_run] at this
    simpa [mid, ha] using this
  revert h hw2
  generalize ({ w with sessions := mid E a true w.sessions x } : World) = v
  generalize ({ w' with sessions := mid E' a true w'.sessions x' } : World) = v'
  intro h hw2
  cases hc : x.current with
  | none => rw [hc] at h; simp at h
  | some s =>
    rw [hc] at hx h
    cases hc' : x'.current with
    | none => rw [hc'] at hx; simp at hx
    | some s' =>
      rw [hc'] at hx
      simp only [Option.map_some, Option.some.injEq] at hx
      simp only [hx]
      simp only at h
      cases hk : s.remoteIdentityKey with
      | panic => rw [hk] at h; simp [M.panic] at h
      | err e => rw [hk] at h; simp at h
      | ok ok =>
        cases ok with
        | none => rw [hk] at h; simp at h
        | some k =>
          rw [hk] at h
          simp only at h ⊢
          have hf : v'.faults = v.faults := by rw [hw2.1]
          have hkn : v'.known = v.known := by rw [hw2.1]
          rcases storeCall_same (fun w => (E.trusted w.known a k .receiving, w)) (fun w => (E'.trusted w.known a k .receiving, w)) v v' hf with
            ⟨fs, e1, e2⟩ | ⟨_, e1⟩
          rotate_left
          · rw [M.bind_err_run (x := isTrusted E a k .receiving) e1] at h; simp at h
          rw [M.bind_ok_run (x := isTrusted E a k .receiving) e1] at h
          rw [M.bind_ok_run (x := isTrusted E' a k .receiving) e2]
          have htk : E'.trusted v'.known a k .receiving = E.trusted v.known a k .receiving := by rw [ht, hkn]
          simp only [htk] at h ⊢
          split at h
          rotate_left
          · simp at h
          rename_i htr
          rw [if_pos htr]
          rcases storeCall_same (fun w => ((), { w with known := upd w.known a (some k) })) (fun w => ((), { w with known := upd w.known a (some k) }))
            { v with faults := fs } { v' with faults := fs } rfl with ⟨fs2, e3, e4⟩ | ⟨_, e3⟩
          rotate_left
          · rw [M.bind_err_run (x := storeIdentity a k) e3] at h; simp at h
          rw [M.bind_ok_run (x := storeIdentity a k) e3] at h
          rw [M.bind_ok_run (x := storeIdentity a k) e4]
          rcases storeCall_same (fun w => ((), { w with sessions := upd w.sessions a (some x) })) (fun w => ((), { w with sessions := upd w.sessions a (some x') }))
            { v with faults := fs2, known := upd v.known a (some k) } { v' with faults := fs2, known := upd v'.known a (some k) } rfl with ⟨fs3, e5, e6⟩ | ⟨_, e5⟩
          rotate_left
          · rw [M.bind_err_run (x := storeSession a x) e5] at h; simp at h
          rw [M.bind_ok_run (x := storeSession a x) e5] at h
          rw [M.bind_ok_run (x := storeSession a x') e6]
          simp only [M.pure_run, Prod.mk.injEq, Res.ok.injEq] at h ⊢
          obtain ⟨rfl, rfl⟩ := h
          refine ⟨rfl, ?_⟩
          have hs : upd v'.sessions a (some x') = upd (upd v.sessions a (some x)) a (some x') := by
            funext b
            by_cases hb : b = a
            · subst hb; simp
            · simp only [upd_ne _ _ hb]; exact hw2.2 b hb
          rw [hw2.1]
          simp only [hs]

/-- A message that two stores decrypt alike: the second call does what the first does, apart from the record it stores. -/
theorem decryptSignal_swap (E E' : Env) (ha : E'.aliased = E.aliased) (ht : E'.trusted = E.trusted) (a : Address) (m : Signal) (w w' : World)
    (hw : SameBut a w w') (r r' x x' : Record) (hr : w.sessions a = some r) (hr' : w'.sessions a = some r') (p rd : Bytes)
    (hd : decryptRecord E.C r m w.rand = (.ok (p, x), rd)) (hd' : decryptRecord E'.C r' m w.rand = (.ok (p, x'), rd))
    (hx : x'.current.map SState.remoteIdentityKey = x.current.map SState.remoteIdentityKey) (out : Option Bytes) (w1 : World)
    (h : decryptMessage E a (.signal m) w = (.ok out, w1)) :
    decryptMessage E' a (.signal m) w' = (.ok out, { w1 with sessions := upd w1.sessions a (some x') }) ∧ out = some p ∧ w1.sessions a = some x := by
  simp only [decryptMessage] at h ⊢
  rcases loadSession_cases a w with ⟨fs, e1, e2⟩ | ⟨fs, e1⟩
  rotate_left
  · unfold decryptSignal at h
    rw [M.bind_err_run e1] at h
    simp at h
  have e3 := e2 w' (by rw [hw.1])
  rw [hr] at e1
  rw [hr'] at e3
  have hrd : w'.rand = w.rand := by rw [hw.1]
  rw [decryptSignal_split E a m w fs r x p rd e1 hd] at h
  rw [decryptSignal_split E' a m w' fs r' x' p rd e3 (by rw [hrd]; exact hd')]
  have hw2 : SameBut a { w with faults := fs, rand := rd } { w' with faults := fs, rand := rd } := by
    refine ⟨?_, hw.2⟩
    simp only
    conv => lhs; rw [hw.1]
  refine ⟨signalTail_swap E E' ha ht a x x' hx _ _ _ hw2 _ _ h, ?_⟩
  have ho := signalTail_swap E E rfl rfl a x x rfl _ _ _ (SameBut.refl a _) _ _ h
  rw [h] at ho
  simp only [Prod.mk.injEq, true_and] at ho
  refine ⟨?_, by rw [ho]; simp⟩
  unfold signalTail at h
  simp only [M.bind_eq_ok] at h
  obtain ⟨_, _, _, h⟩ := h
  cases hc : x.current with
  | none => rw [hc] at h; simp at h
  | some s =>
    rw [hc] at h
    simp only at h
    cases hk : s.remoteIdentityKey with
    | panic => rw [hk] at h; simp [M.panic] at h
    | err e => rw [hk] at h; simp at h
    | ok ok =>
      cases ok with
      | none => rw [hk] at h; simp at h
      | some k =>
        rw [hk] at h
        simp only [M.bind_eq_ok] at h
        obtain ⟨t, _, _, h⟩ := h
        cases t with
        | false => simp at h
        | true =>
          simp only [if_true, M.bind_eq_ok] at h
          obtain ⟨_, _, _, _, _, _, h⟩ := h
          simp at h
          exact h.1.symm

theorem decryptRecord_current {C : Crypto} {r : Record} {s s1 : SState} (hs : r.current = some s) {m : Signal} {rd rd' p : Bytes}
    (h : decryptMessageSession C s m rd = (.ok (p, s1), rd')) : decryptRecord C r m rd = (.ok (p, r.setSessionState s1), rd') := by
  unfold decryptRecord
  rw [hs]
  simp only
  have : M.attempt (decryptMessageSession C s m) rd = (.ok (.ok (p, s1)), rd') := by
    unfold M.attempt
    rw [h]
  rw [M.bind_ok_run this]
  rfl

/-! ## Other secrets in the state do not matter for decryption in a known chain -/

/-- Apply a function to a result. -/
def Res.over {α β} (f : α → β) : Res α → Res β
  | .ok a => .ok (f a)
  | .err e => .err e
  | .panic => .panic

@[simp] theorem Res.over_ok {α β} (f : α → β) (a : α) : Res.over f (.ok a) = .ok (f a) := rfl

/-- The chains that `addReceiverChain` leaves. -/
def addedChains (cs : List PBChain) (k : PubKey) (ck : ChainKey) : List PBChain :=
  (SState.addReceiverChain { receiverChains := cs } k ck).receiverChains

theorem addReceiverChain_field (s : SState) (k : PubKey) (ck : ChainKey) :
    s.addReceiverChain k ck = { s with receiverChains := addedChains s.receiverChains k ck } := by
  unfold addedChains SState.addReceiverChain
  simp only
  split <;> rfl

/-- The state with another root key and another sending chain. -/
def SState.put (s : SState) (R : Bytes) (S : Option PBChain) : SState := { s with rootKey := R, senderChain := S }

theorem setMessageKeys_put (s : SState) (k : PubKey) (mk : MessageKeys) (R : Bytes) (S : Option PBChain) :
    (s.put R S).setMessageKeys k mk = Res.over (·.put R S) (s.setMessageKeys k mk) := by
  unfold SState.setMessageKeys
  rw [show (s.put R S).receiverChain k = s.receiverChain k from rfl]
  cases s.receiverChain k <;> rfl

theorem setReceiverChainKey_put (s : SState) (k : PubKey) (ck : ChainKey) (R : Bytes) (S : Option PBChain) :
    (s.put R S).setReceiverChainKey k ck = Res.over (·.put R S) (s.setReceiverChainKey k ck) := by
  unfold SState.setReceiverChainKey
  rw [show (s.put R S).receiverChain k = s.receiverChain k from rfl]
  cases s.receiverChain k <;> rfl

theorem takeMessageKeys_put (s : SState) (k : PubKey) (n : UInt32) (R : Bytes) (S : Option PBChain) :
    (s.put R S).takeMessageKeys k n = Res.over (fun x => (x.1, x.2.put R S)) (s.takeMessageKeys k n) := by
  unfold SState.takeMessageKeys
  rw [show (s.put R S).receiverChain k = s.receiverChain k from rfl]
  cases s.receiverChain k with
  | none => rfl
  | some x =>
    obtain ⟨i, c⟩ := x
    simp only
    cases (c.messageKeys.filter fun k => k.index = n).getLast? with
    | none => rfl
    | some k =>
      simp only
      cases newMessageKeys k.cipherKey k.macKey k.iv n <;> rfl

theorem skipLoop_put (C : Crypto) (k : PubKey) (n : UInt32) (f : Nat) (ck : ChainKey) (s : SState) (R : Bytes) (S : Option PBChain) :
    skipLoop C k n f ck (s.put R S) = Res.over (fun x => (x.1, x.2.put R S)) (skipLoop C k n f ck s) := by
  induction f generalizing ck s with
  | zero => rfl
  | succ f ih =>
    unfold skipLoop
    split
    · rw [setMessageKeys_put]
      cases s.setMessageKeys k (ck.messageKeys C) with
      | ok s' => simp only [Res.over_ok, Res.bind_ok]; exact ih _ _
      | err e => rfl
      | panic => rfl
    · rfl

theorem messageKeysFor_put (C : Crypto) (s : SState) (k : PubKey) (ck : ChainKey) (n : UInt32) (R : Bytes) (S : Option PBChain) :
    messageKeysFor C (s.put R S) k ck n = Res.over (fun x => (x.1, x.2.put R S)) (messageKeysFor C s k ck n) := by
  unfold messageKeysFor
  rw [show (s.put R S).sessionWithSelf = s.sessionWithSelf from rfl, takeMessageKeys_put, skipLoop_put]
  split
  · cases s.takeMessageKeys k n with
    | ok x =>
      obtain ⟨o, s'⟩ := x
      cases o <;> rfl
    | err e => rfl
    | panic => rfl
  · have h : ∀ o : Res (ChainKey × SState),
        (do let (ck', s') ← Res.over (fun x => (x.1, x.2.put R S)) o
            let s' ← s'.setReceiverChainKey k ck'
            return (ck'.messageKeys C, s') : Res (MessageKeys × SState)) =
        Res.over (fun x => (x.1, x.2.put R S)) (do
            let (ck', s') ← o
            let s' ← s'.setReceiverChainKey k ck'
            return (ck'.messageKeys C, s')) := by
      intro o
      cases o with
      | err e => rfl
      | panic => rfl
      | ok x =>
        obtain ⟨ck', s'⟩ := x
        simp only [Res.over_ok, Res.bind_ok, setReceiverChainKey_put]
        cases s'.setReceiverChainKey k ck' <;> rfl
    simp only
    split
    · cases s.sessionWithSelf with
      | err e => rfl
      | panic => rfl
      | ok b =>
        cases b with
        | false => rfl
        | true => exact h _
    · exact h _

theorem finishDecrypt_put (C : Crypto) (m : Signal) (ck : ChainKey) (s : SState) (R : Bytes) (S : Option PBChain) :
    finishDecrypt C m ck (s.put R S) = Res.over (fun x => (x.1, x.2.put R S)) (finishDecrypt C m ck s) := by
  unfold finishDecrypt
  rw [messageKeysFor_put]
  cases messageKeysFor C s m.senderRatchetKey ck m.counter with
  | err e => rfl
  | panic => rfl
  | ok x =>
    obtain ⟨mk, s'⟩ := x
    simp only [Res.over_ok, Res.bind_ok]
    rw [show (s'.put R S).remoteIdentityKey = s'.remoteIdentityKey from rfl, show (s'.put R S).localIdentityKey = s'.localIdentityKey from rfl]
    cases s'.remoteIdentityKey with
    | err e => rfl
    | panic => rfl
    | ok o =>
      cases o with
      | none => rfl
      | some rk =>
        simp only [Res.bind_ok]
        cases s'.localIdentityKey with
        | err e => rfl
        | panic => rfl
        | ok lk =>
          simp only [Res.bind_ok]
          cases m.verifyMAC C mk.macKey rk lk with
          | err e => rfl
          | panic => rfl
          | ok b =>
            cases b with
            | false => rfl
            | true =>
              simp only [Res.bind_ok, if_true]
              cases cbcDecrypt C mk.cipherKey mk.iv m.ciphertext <;> rfl

/-- Decryption keeps the root key and the sending chain that the ratchet step has left. -/
theorem finishDecrypt_kept {C : Crypto} {m : Signal} {ck : ChainKey} {s s' : SState} {p : Bytes} (h : finishDecrypt C m ck s = .ok (p, s')) :
    s'.rootKey = s.rootKey ∧ s'.senderChain = s.senderChain := by
  have := finishDecrypt_put C m ck s s.rootKey s.senderChain
  rw [show s.put s.rootKey s.senderChain = s from rfl, h] at this
  simp only [Res.over_ok, Res.ok.injEq, Prod.mk.injEq, true_and] at this
  rw [this]
  exact ⟨rfl, rfl⟩

theorem no_chain {s : SState} {k : PubKey} (h : ¬ s.HasChain k) : s.receiverChainKey k = .ok none := by
  have hf : ∀ (cs : List PBChain) (i : Nat), (∀ c ∈ cs, c.senderRatchetKey ≠ k.bytes) → SState.findChain k.bytes cs i = none := by
    intro cs
    induction cs with
    | nil => intros; rfl
    | cons c cs ih =>
      intro i hc
      unfold SState.findChain
      rw [if_neg (hc c (List.mem_cons_self ..))]
      exact ih _ (fun x hx => hc x (List.mem_cons_of_mem _ hx))
  unfold SState.receiverChainKey SState.receiverChain
  rw [hf _ _ (fun c hc he => h ⟨c, hc, he⟩)]

/-! ## The two steps side by side -/

theorem ratchetPrivate_of {s : SState} {c : PBChain} (h : s.senderChain = some c) : s.ratchetPrivate = c.senderRatchetKeyPrivate := by
  simp [SState.ratchetPrivate, h]

theorem newPrivateKey_key {b : Bytes} {p : PrivKey} (h : newPrivateKey b = .ok p) : p.key = clamp b := by
  unfold newPrivateKey at h
  split at h
  · simp only [Res.ok.injEq] at h; rw [← h]
  · simp at h

theorem step_other_secrets {C : Crypto} {s s' : SState} {eph : PubKey} {rd rd' : Bytes} {ck : ChainKey} (h : Step C s eph rd rd' ck s')
    {root priv chain : Bytes} (hroot : root.length = 32) (hpriv : priv.length = 32) (hchain : chain.length = 32) {secret secret' : Bytes}
    (hd : C.dh (clamp s.ratchetPrivate) eph.keyBytes = some secret) (hd' : C.dh (clamp priv) eph.keyBytes = some secret')
    (hne : root ≠ (C.hkdf secret s.rootKey rootInfo 64).take 32) :
    Step (C.withHkdf secret' root rootInfo (C.hkdf secret s.rootKey rootInfo 64)) (s.withRatchetSecrets root priv chain) eph rd rd' ck s' := by
  obtain ⟨hn, c, cur, ours, secret0, secret2, kp, h1, h2, h3, h4, h5, h6, h7, h8, rfl, rfl⟩ := h
  rw [ratchetPrivate_of h2, ← newPrivateKey_key h5, h6] at hd
  simp only [Option.some.injEq] at hd
  subst hd
  refine ⟨hn, { c with senderRatchetKeyPrivate := priv, chainKey := some { cur with key := chain } }, { cur with key := chain },
    ⟨clamp priv, by simpa using hpriv, clamp_idem _⟩, secret', secret2, kp, hroot, ?_, rfl, hchain, ?_, hd', h7, h8, ?_⟩
  · simp [SState.withRatchetSecrets, h2, h3]
  · simp [newPrivateKey, hpriv]
  · have e1 : (C.withHkdf secret' root rootInfo (C.hkdf secret0 s.rootKey rootInfo 64)).hkdf secret' root rootInfo 64 =
        C.hkdf secret0 s.rootKey rootInfo 64 := withHkdf_hit _ _ _ _ _ _ (C.hkdf_len _ _ _ _)
    have e2 : (C.withHkdf secret' root rootInfo (C.hkdf secret0 s.rootKey rootInfo 64)).hkdf secret2
        ((C.hkdf secret0 s.rootKey rootInfo 64).take 32) rootInfo 64 =
        C.hkdf secret2 ((C.hkdf secret0 s.rootKey rootInfo 64).take 32) rootInfo 64 :=
      withHkdf_miss _ _ _ _ _ _ _ _ _ (fun hh => hne hh.2.1.symm)
    rw [show (s.withRatchetSecrets root priv chain).rootKey = root from rfl, e1, e2]
    refine ⟨rfl, ?_⟩
    unfold SState.setSenderChain
    rw [addReceiverChain_field, addReceiverChain_field]
    rfl

theorem step_other_output {C : Crypto} {s s' : SState} {eph : PubKey} {rd rd' : Bytes} {ck : ChainKey} (h : Step C s eph rd rd' ck s')
    {secret secret2 out : Bytes} (hd : C.dh (clamp s.ratchetPrivate) eph.keyBytes = some secret)
    (hd2 : C.dh (clamp (rd.take 32)) eph.keyBytes = some secret2) (ho : out.length = 64)
    (hne : ¬ (secret = secret2 ∧ s.rootKey = (C.hkdf secret s.rootKey rootInfo 64).take 32)) :
    Step (C.withHkdf secret2 ((C.hkdf secret s.rootKey rootInfo 64).take 32) rootInfo out) s eph rd rd' ck (s'.withNextSecrets (out.take 32) (out.drop 32)) := by
  obtain ⟨hn, c, cur, ours, secret0, secret20, kp, h1, h2, h3, h4, h5, h6, h7, h8, rfl, rfl⟩ := h
  rw [ratchetPrivate_of h2, ← newPrivateKey_key h5, h6] at hd
  simp only [Option.some.injEq] at hd
  subst hd
  have hl : 32 ≤ rd.length := by
    apply Classical.byContradiction
    intro hl
    rw [generateKeyPair_short C rd hl] at h7
    simp at h7
  obtain ⟨kp', e, hk, _⟩ := generateKeyPair_run C rd hl
  rw [e] at h7
  simp only [Prod.mk.injEq, Res.ok.injEq] at h7
  obtain ⟨rfl, rfl⟩ := h7
  rw [hk, hd2] at h8
  simp only [Option.some.injEq] at h8
  subst h8
  have e1 : (C.withHkdf secret2 ((C.hkdf secret0 s.rootKey rootInfo 64).take 32) rootInfo out).hkdf secret0 s.rootKey rootInfo 64 =
      C.hkdf secret0 s.rootKey rootInfo 64 := withHkdf_miss _ _ _ _ _ _ _ _ _ (fun hh => hne ⟨hh.1, hh.2.1⟩)
  have e2 : (C.withHkdf secret2 ((C.hkdf secret0 s.rootKey rootInfo 64).take 32) rootInfo out).hkdf secret2
      ((C.hkdf secret0 s.rootKey rootInfo 64).take 32) rootInfo 64 = out := withHkdf_hit _ _ _ _ _ _ ho
  refine ⟨hn, c, cur, ours, secret0, secret2, kp', h1, h2, h3, h4, h5, h6, e, ?_, ?_⟩
  · rw [hk]; exact hd2
  · rw [e1, e2]
    refine ⟨rfl, ?_⟩
    unfold SState.setSenderChain
    rw [addReceiverChain_field, addReceiverChain_field]
    rfl

end Verif
