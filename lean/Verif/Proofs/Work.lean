import Verif.Spec.Work
import Verif.Proofs.Cipher
import Verif.Proofs.Steps
import Verif.Proofs.Reading

namespace Verif

namespace Within

variable {α β : Type} {C : Crypto} {h k c h' k' c' : Nat}

theorem const (a : α) : Within C (fun _ => a) 0 0 0 := ⟨{}, by simp, by simp, by simp, fun _ _ => rfl⟩

theorem same {f : Crypto → α} (h : ∀ C', f C' = f C) : Within C f 0 0 0 := ⟨{}, by simp, by simp, by simp, fun C' _ => h C'⟩

theorem mono {f : Crypto → α} (hf : Within C f h k c) (h1 : h ≤ h') (h2 : k ≤ k') (h3 : c ≤ c') : Within C f h' k' c' := by
  obtain ⟨q, a1, a2, a3, a4⟩ := hf
  exact ⟨q, Nat.le_trans a1 h1, Nat.le_trans a2 h2, Nat.le_trans a3 h3, a4⟩

theorem const' (a : α) : Within C (fun _ => a) h k c := (const a).mono (Nat.zero_le _) (Nat.zero_le _) (Nat.zero_le _)

theorem seq {f : Crypto → α} {g : α → Crypto → β} (hf : Within C f h k c) (hg : Within C (g (f C)) h' k' c') :
    Within C (fun C' => g (f C') C') (h + h') (k + k') (c + c') := by
  obtain ⟨q, a1, a2, a3, a4⟩ := hf
  obtain ⟨q', b1, b2, b3, b4⟩ := hg
  refine ⟨⟨q.hmac ++ q'.hmac, q.hkdf ++ q'.hkdf, q.pub ++ q'.pub, q.dh ++ q'.dh⟩, by simp; omega, by simp; omega, by simp; omega, ?_⟩
  intro C' e
  have e1 : C.Agree C' q := ⟨e.sha512, e.aesEnc, e.aesDec, e.sign, e.verify, fun x y z => e.hmac x y (List.mem_append_left _ z),
    fun s t i n z => e.hkdf s t i n (List.mem_append_left _ z), fun a z => e.pub a (List.mem_append_left _ z),
    fun a p z => e.dh a p (List.mem_append_left _ z)⟩
  have e2 : C.Agree C' q' := ⟨e.sha512, e.aesEnc, e.aesDec, e.sign, e.verify, fun x y z => e.hmac x y (List.mem_append_right _ z),
    fun s t i n z => e.hkdf s t i n (List.mem_append_right _ z), fun a z => e.pub a (List.mem_append_right _ z),
    fun a p z => e.dh a p (List.mem_append_right _ z)⟩
  simp only [a4 C' e1]
  exact b4 C' e2

theorem map {f : Crypto → α} (g : α → β) (hf : Within C f h k c) : Within C (fun C' => g (f C')) h k c :=
  hf.seq (g := fun a _ => g a) (const _)

theorem of_eq {f g : Crypto → α} (hf : Within C f h k c) (e : ∀ C', g C' = f C') : Within C g h k c := by
  rw [show g = f from funext e]; exact hf

theorem rbind {x : Crypto → Res α} {y : Crypto → α → Res β} (hx : Within C x h k c) (hy : ∀ a, x C = .ok a → Within C (fun C' => y C' a) h' k' c') :
    Within C (fun C' => x C' >>= y C') (h + h') (k + k') (c + c') := by
  refine hx.seq (g := fun r C' => r >>= y C') ?_
  cases e : x C with
  | ok a => exact hy a e
  | err e' => exact const' _
  | panic => exact const' _

theorem rbind0 {x : Res α} {y : Crypto → α → Res β} (hy : ∀ a, x = .ok a → Within C (fun C' => y C' a) h k c) :
    Within C (fun C' => x >>= y C') h k c := by
  cases x with
  | ok a => exact hy a rfl
  | err e' => exact const' _
  | panic => exact const' _

theorem mbind {σ : Type} {x : Crypto → M σ α} {y : Crypto → α → M σ β} {w : σ} (hx : Within C (fun C' => x C' w) h k c)
    (hy : ∀ a w', x C w = (.ok a, w') → Within C (fun C' => y C' a w') h' k' c') :
    Within C (fun C' => (x C' >>= y C') w) (h + h') (k + k') (c + c') := by
  refine of_eq (hx.seq (g := fun r C' => match r with
    | (.ok a, s') => y C' a s'
    | (.err e, s') => (.err e, s')
    | (.panic, s') => (.panic, s')) (h' := h') (k' := k') (c' := c') ?_) fun C' => by
      rw [M.bind_run]; rcases x C' w with ⟨_ | _ | _, _⟩ <;> rfl
  rcases e : x C w with ⟨_ | _ | _, w'⟩
  · exact hy _ _ e
  · exact const' _
  · exact const' _

theorem mbind0 {σ : Type} {x : M σ α} {y : Crypto → α → M σ β} {w : σ}
    (hy : ∀ a w', x w = (.ok a, w') → Within C (fun C' => y C' a w') h k c) :
    Within C (fun C' => (x >>= y C') w) h k c := by
  have := mbind (C := C) (x := fun _ => x) (y := y) (w := w) (const' (h := 0) (k := 0) (c := 0) _) hy
  simpa using this

theorem attempt {σ : Type} {x : Crypto → M σ α} {w : σ} (hx : Within C (fun C' => x C' w) h k c) :
    Within C (fun C' => M.attempt (x C') w) h k c :=
  (hx.map (β := Res (Except Err α) × σ) fun r => match r with
    | (.ok a, s') => (.ok (.ok a), s')
    | (.err e, s') => (.ok (.error e), s')
    | (.panic, s') => (.panic, s')).of_eq fun C' => by
      unfold M.attempt; rcases x C' w with ⟨_ | _ | _, _⟩ <;> rfl

theorem lift {σ : Type} {x : Crypto → Res α} {w : σ} (hx : Within C x h k c) : Within C (fun C' => (M.lift (x C') : M σ α) w) h k c :=
  hx.map fun r => (r, w)

theorem withRand {x : Crypto → M Bytes α} {w : World} (hx : Within C (fun C' => x C' w.rand) h k c) :
    Within C (fun C' => Verif.withRand (x C') w) h k c :=
  hx.map fun r => (r.1, { w with rand := r.2 })

theorem gWithRand {x : Crypto → M Bytes α} {w : GWorld} (hx : Within C (fun C' => x C' w.rand) h k c) :
    Within C (fun C' => Verif.gWithRand (x C') w) h k c :=
  hx.map fun r => (r.1, { w with rand := r.2 })

/-! ## The algorithms -/

theorem hmac (x y : Bytes) : Within C (fun C' => C'.hmac x y) 1 0 0 :=
  ⟨{ hmac := [(x, y)] }, by simp, by simp, by simp, fun _ e => e.hmac _ _ (by simp)⟩

theorem hkdf (s t i : Bytes) (n : Nat) : Within C (fun C' => C'.hkdf s t i n) 0 1 0 :=
  ⟨{ hkdf := [(s, t, i, n)] }, by simp, by simp, by simp, fun _ e => e.hkdf _ _ _ _ (by simp)⟩

theorem dh (a p : Bytes) : Within C (fun C' => C'.dh a p) 0 0 1 :=
  ⟨{ dh := [(a, p)] }, by simp, by simp, by simp, fun _ e => e.dh _ _ (by simp)⟩

theorem pub (a : Bytes) : Within C (fun C' => C'.pub a) 0 0 1 :=
  ⟨{ pub := [a] }, by simp, by simp, by simp, fun _ e => e.pub _ (by simp)⟩

theorem cbcDec (key iv ct : Bytes) : Within C (fun C' => cbcDecrypt C' key iv ct) 0 0 0 := by
  refine ⟨{}, by simp, by simp, by simp, fun C' e => ?_⟩
  have : ∀ n, ∀ iv ct : Bytes, cbcDecBlocks C' key n iv ct = cbcDecBlocks C key n iv ct := by
    intro n
    induction n with
    | zero => exact fun _ _ => rfl
    | succ n ih => intro iv ct; simp only [cbcDecBlocks, ih, e.aesDec]
  simp only [cbcDecrypt, this]

theorem cbcEnc (key iv p : Bytes) : Within C (fun C' => cbcEncrypt C' key iv p) 0 0 0 := by
  refine ⟨{}, by simp, by simp, by simp, fun C' e => ?_⟩
  have : ∀ n, ∀ iv ct : Bytes, cbcEncBlocks C' key n iv ct = cbcEncBlocks C key n iv ct := by
    intro n
    induction n with
    | zero => exact fun _ _ => rfl
    | succ n ih => intro iv ct; simp only [cbcEncBlocks, ih, e.aesEnc]
  simp only [cbcEncrypt, this]

theorem verify (p : PubKey) (sig : Bytes) (ms : List Bytes) : Within C (fun C' => p.verifySignature C' sig ms) 0 0 0 :=
  ⟨{}, by simp, by simp, by simp, fun C' e => by simp only [PubKey.verifySignature, e.verify]⟩

theorem agreement (p : PrivKey) (q : PubKey) : Within C (fun C' => p.agreement C' q) 0 0 1 := (dh _ _).map (Res.ofOption _)

theorem next (ck : ChainKey) : Within C (fun C' => ck.next C') 1 0 0 := (hmac ck.key [2]).map (β := ChainKey) fun x => { key := x, index := ck.index + 1 }

theorem messageKeys (ck : ChainKey) : Within C (fun C' => ck.messageKeys C') 1 1 0 :=
  (hmac ck.key [1]).seq (g := fun x C' => deriveMessageKeys C' x ck.index)
    ((hkdf _ [] messageKeysInfo 80).map (β := MessageKeys) fun okm => { cipherKey := okm.take 32, macKey := (okm.drop 32).take 32, iv := okm.drop 64, counter := ck.index })

theorem createChain (r : RootKey) (p : PrivKey) (q : PubKey) : Within C (fun C' => r.createChain C' p q) 0 1 1 := by
  refine (agreement p q).rbind (h' := 0) (k' := 1) (c' := 0) fun s _ => ?_
  exact (hkdf s r.key rootInfo 64).map fun derived => do
    let rootKey ← newRootKey (derived.take 32)
    let chainKey ← newChainKey (derived.drop 32) 0
    return (rootKey, chainKey)

theorem deriveKeys (s : Bytes) : Within C (fun C' => Verif.deriveKeys C' s) 0 1 0 :=
  (hkdf s [] initRootInfo 64).map fun secrets => do
    let rootKey ← newRootKey (secrets.take 32)
    let chainKey ← newChainKey (secrets.drop 32) 0
    return (rootKey, chainKey)

theorem generate (rd : Bytes) : Within C (fun C' => generateKeyPair C' rd) 0 0 1 := by
  refine mbind0 fun p rd' _ => ?_
  obtain ⟨q, a1, a2, a3, a4⟩ := pub (C := C) p.key
  refine ⟨q, a1, a2, a3, fun C' e => ?_⟩
  have := a4 C' e
  simp only [PrivKey.pub, this]

theorem initBob (p : BobParameters) : Within C (fun C' => initializeBobSession C' p) 0 1 4 := by
  unfold initializeBobSession
  refine rbind0 fun signed _ => ?_
  refine (agreement _ _).rbind (h' := 0) (k' := 1) (c' := 3) fun d1 _ => ?_
  refine (agreement _ _).rbind (h' := 0) (k' := 1) (c' := 2) fun d2 _ => ?_
  refine (agreement _ _).rbind (h' := 0) (k' := 1) (c' := 1) fun d3 _ => ?_
  have tail : ∀ d4 : Bytes, Within C (fun C' => do
      let (rootKey, chainKey) ← Verif.deriveKeys C' (discontinuityBytes ++ d1 ++ d2 ++ d3 ++ d4)
      let s : SState :=
        { sessionVersion := ciphertextVersion, localIdentityPublic := p.ourIdentityKeyPair.pub.bytes,
          remoteIdentityPublic := p.theirIdentityKey.bytes, rootKey := rootKey.key }
      let ratchet ← deref p.ourRatchetKeyPair
      return s.setSenderChain ratchet chainKey) 0 1 0 := fun d4 =>
    (deriveKeys _).rbind (h' := 0) (k' := 0) (c' := 0) fun _ _ => const _
  cases p.ourOneTimePreKeyPair with
  | none => exact (tail []).mono (Nat.le_refl _) (Nat.le_refl _) (Nat.zero_le _)
  | some kp => exact (agreement _ _).rbind (h' := 0) (k' := 1) (c' := 0) fun d4 _ => tail d4

theorem initAlice (p : AliceParameters) (rd : Bytes) : Within C (fun C' => initializeAliceSession C' p rd) 0 2 6 := by
  unfold initializeAliceSession
  refine (generate rd).mbind (h' := 0) (k' := 2) (c' := 5) fun kp rd' _ => ?_
  refine lift ?_
  refine (agreement _ _).rbind (h' := 0) (k' := 2) (c' := 4) fun d1 _ => ?_
  refine (agreement _ _).rbind (h' := 0) (k' := 2) (c' := 3) fun d2 _ => ?_
  refine (agreement _ _).rbind (h' := 0) (k' := 2) (c' := 2) fun d3 _ => ?_
  have tail : ∀ d4 : Bytes, Within C (fun C' => do
      let (rootKey, chainKey) ← Verif.deriveKeys C' (discontinuityBytes ++ d1 ++ d2 ++ d3 ++ d4)
      let (sendingRoot, sendingChain) ← rootKey.createChain C' kp.priv p.theirRatchetKey
      let s : SState :=
        { sessionVersion := ciphertextVersion, localIdentityPublic := p.ourIdentityKeyPair.pub.bytes,
          remoteIdentityPublic := p.theirIdentityKey.bytes, rootKey := sendingRoot.key }
      return (s.addReceiverChain p.theirRatchetKey chainKey).setSenderChain kp sendingChain) 0 2 1 := fun d4 =>
    (deriveKeys _).rbind (h' := 0) (k' := 1) (c' := 1) fun _ _ => (createChain _ _ _).rbind (h' := 0) (k' := 0) (c' := 0) fun _ _ => const _
  cases p.theirOneTimePreKey with
  | none => exact (tail []).mono (Nat.le_refl _) (Nat.le_refl _) (by omega)
  | some kp => exact (agreement _ _).rbind (h' := 0) (k' := 2) (c' := 1) fun d4 _ => tail d4

theorem chainKeyFor (s : SState) (q : PubKey) (rd : Bytes) : Within C (fun C' => Verif.chainKeyFor C' s q rd) 0 2 3 := by
  unfold Verif.chainKeyFor
  refine mbind0 fun o rd1 _ => ?_
  cases o with
  | some chain => exact const' _
  | none =>
    refine mbind0 fun rk rd2 _ => ?_
    refine mbind0 fun ours rd3 _ => ?_
    refine (lift (createChain _ _ _)).mbind (h' := 0) (k' := 1) (c' := 2) fun a rd4 _ => ?_
    refine (generate _).mbind (h' := 0) (k' := 1) (c' := 1) fun kp rd5 _ => ?_
    refine (lift (createChain _ _ _)).mbind (h' := 0) (k' := 0) (c' := 0) fun b rd6 _ => ?_
    exact const _

theorem skipLoop (q : PubKey) (n : UInt32) (fuel : Nat) : ∀ (ck : ChainKey) (s : SState),
    Within C (fun C' => Verif.skipLoop C' q n fuel ck s) (2 * fuel) fuel 0 := by
  induction fuel with
  | zero => exact fun _ _ => const _
  | succ fuel ih =>
    intro ck s
    unfold Verif.skipLoop
    by_cases hlt : ck.index < n
    · simp only [if_pos hlt]
      refine ((messageKeys ck).seq (h' := 1 + 2 * fuel) (k' := fuel) (c' := 0)
        (g := fun mk C' => s.setMessageKeys q mk >>= fun s' => Verif.skipLoop C' q n fuel (ck.next C') s') ?_).mono (by omega) (by omega) (by omega)
      refine rbind0 fun s' _ => ?_
      exact ((next ck).seq (g := fun ck' C' => Verif.skipLoop C' q n fuel ck' s') (ih _ _)).mono (by omega) (by omega) (by omega)
    · simp only [if_neg hlt]
      exact const' _

theorem messageKeysFor {s : SState} (hs : s.WithOther) (q : PubKey) (ck : ChainKey) (n : UInt32) :
    Within C (fun C' => Verif.messageKeysFor C' s q ck n) 50001 25001 0 := by
  unfold Verif.messageKeysFor
  by_cases h1 : ck.index > n
  · simp only [if_pos h1]
    exact const' _
  · simp only [if_neg h1]
    have tail : n - ck.index ≤ maxJumps → Within C (fun C' => do
        let (ck', s') ← Verif.skipLoop C' q n (n.toNat - ck.index.toNat) ck s
        let s' ← s'.setReceiverChainKey q ck'
        return (ck'.messageKeys C', s')) 50001 25001 0 := by
      intro hj
      have hn : n.toNat - ck.index.toNat ≤ 25000 := by
        have h2 : ck.index ≤ n := UInt32.not_lt.mp h1
        have h3 : (n - ck.index).toNat = n.toNat - ck.index.toNat := UInt32.toNat_sub_of_le _ _ h2
        have h4 : (n - ck.index).toNat ≤ maxJumps.toNat := hj
        have h5 : maxJumps.toNat = 25000 := rfl
        omega
      refine ((skipLoop q n (n.toNat - ck.index.toNat) ck s).rbind (h' := 1) (k' := 1) (c' := 0) fun a _ => ?_).mono (by omega) (by omega) (by omega)
      refine rbind0 fun s' _ => ?_
      exact (messageKeys _).map fun x => Res.ok (x, s')
    by_cases hj : n - ck.index > maxJumps
    · simp only [if_pos hj]
      refine rbind0 fun b hb => ?_
      cases b with
      | true => exact absurd hb hs
      | false => exact const' _
    · simp only [if_neg hj]
      exact tail (UInt32.not_lt.mp hj)

theorem mac (key : Bytes) (p q : PubKey) (m : Bytes) : Within C (fun C' => messageMac C' key p q m) 1 0 0 := by
  unfold messageMac
  split
  · exact const' _
  · exact (hmac key (p.bytes ++ q.bytes ++ m)).map fun x => Res.ok (x.take 8)

theorem verifyMAC (m : Signal) (key : Bytes) (p q : PubKey) : Within C (fun C' => m.verifyMAC C' key p q) 1 0 0 := by
  unfold Signal.verifyMAC
  split
  · exact const' _
  · exact (mac _ _ _ _).rbind (h' := 0) (k' := 0) (c' := 0) fun _ _ => const _

theorem withOther_of_ids {s s' : SState} (hs : s.WithOther) (h1 : s'.localIdentityPublic = s.localIdentityPublic)
    (h2 : s'.remoteIdentityPublic = s.remoteIdentityPublic) : s'.WithOther := by
  unfold SState.WithOther SState.sessionWithSelf SState.remoteIdentityKey SState.localIdentityKey at *
  rw [h1, h2]; exact hs

theorem decryptSession {s : SState} (hs : s.WithOther) (m : Signal) (rd : Bytes) :
    Within C (fun C' => decryptMessageSession C' s m rd) 50002 25003 3 := by
  unfold decryptMessageSession
  cases s.senderChain with
  | none => exact const' _
  | some sc =>
    by_cases hv : m.version.toUInt32 ≠ s.version
    · simp only [if_pos hv]; exact const' _
    · simp only [if_neg hv]
      refine (chainKeyFor s m.senderRatchetKey rd).mbind (h' := 50002) (k' := 25001) (c' := 0) fun a rd' ha => ?_
      obtain ⟨ck, s1⟩ := a
      have ho : s1.WithOther := by
        rcases chainKeyFor_ok ha with ⟨-, rfl, -⟩ | ⟨-, _, _, _, _, _, _, _, -, -, -, -, -, -, rfl⟩
        · exact hs
        · exact withOther_of_ids hs (by simp only [SState.addReceiverChain, SState.setSenderChain]; split <;> rfl)
            (by simp only [SState.addReceiverChain, SState.setSenderChain]; split <;> rfl)
      refine lift ?_
      refine (messageKeysFor ho _ _ _).rbind (h' := 1) (k' := 0) (c' := 0) fun b _ => ?_
      refine rbind0 fun o _ => ?_
      cases o with
      | none => exact const' _
      | some ri =>
        refine rbind0 fun li _ => ?_
        refine (verifyMAC _ _ _ _).rbind (h' := 0) (k' := 0) (c' := 0) fun ok _ => ?_
        cases ok with
        | false => exact const' _
        | true => exact (cbcDec _ _ _).rbind (h' := 0) (k' := 0) (c' := 0) fun _ _ => const _

theorem previous (m : Signal) : ∀ (l : List SState) (_ : ∀ s ∈ l, s.WithOther) (i : Nat) (found : Option (Nat × SState × Bytes)) (rd : Bytes),
    Within C (fun C' => tryPrevious C' m l i found rd) (50002 * l.length) (25003 * l.length) (3 * l.length) := by
  intro l
  induction l with
  | nil => exact fun _ _ _ _ => const _
  | cons s ss ih =>
    intro hl i found rd
    unfold tryPrevious
    refine ((attempt (decryptSession (hl s (by simp)) m rd)).mbind (h' := 50002 * ss.length) (k' := 25003 * ss.length) (c' := 3 * ss.length)
      fun r rd' _ => ?_).mono (by simp; omega) (by simp; omega) (by simp; omega)
    have ih' := ih fun x hx => hl x (by simp [hx])
    split
    · exact ih' _ _ _
    · exact const' _
    · exact ih' _ _ _

theorem parseAll_mem {l : List Bytes} : ∀ {ss : List SState}, Record.parseAll l = .ok ss → ss.length = l.length ∧ ∀ s ∈ ss, ∃ b ∈ l, SState.unmarshal b = .ok s := by
  induction l with
  | nil => intro ss h; cases h; simp
  | cons b bs ih =>
    intro ss h
    obtain ⟨s, h1, h2⟩ := Res.bind_eq_ok.mp h
    obtain ⟨t, h3, h4⟩ := Res.bind_eq_ok.mp h2
    cases h4
    obtain ⟨h5, h6⟩ := ih h3
    refine ⟨by simp [h5], fun x hx => ?_⟩
    rcases List.mem_cons.mp hx with rfl | hx
    · exact ⟨b, by simp, h1⟩
    · obtain ⟨b', hb, hu⟩ := h6 x hx
      exact ⟨b', by simp [hb], hu⟩

theorem record {r : Record} (hc : r.previous.length ≤ 40) (hr : ∀ s, r.HasState s → s.WithOther) (m : Signal) (rd : Bytes) :
    Within C (fun C' => decryptRecord C' r m rd) (41 * 50002) (41 * 25003) (41 * 3) := by
  have hp : ∀ rd, Within C (fun C' => decryptPrevious C' r m rd) (40 * 50002) (40 * 25003) (40 * 3) := by
    intro rd
    unfold decryptPrevious
    refine mbind0 fun l rd' hl => ?_
    have hl' : Record.parseAll r.previous = .ok l := congrArg Prod.fst hl
    obtain ⟨h1, h2⟩ := parseAll_mem hl'
    refine ((previous m l (fun s hs => hr s (.inr (h2 s hs))) 0 none rd').mbind (h' := 0) (k' := 0) (c' := 0) fun o rd2 _ => ?_).mono
      (by omega) (by omega) (by omega)
    cases o <;> exact const _
  unfold decryptRecord
  cases hcur : r.current with
  | none => exact (hp rd).mono (by omega) (by omega) (by omega)
  | some s =>
    refine ((attempt (decryptSession (hr s (.inl hcur)) m rd)).mbind (h' := 40 * 50002) (k' := 40 * 25003) (c' := 40 * 3) fun o rd' _ => ?_).mono
      (by omega) (by omega) (by omega)
    split
    · exact const' _
    · exact const' _
    · exact hp _

end Within

/-! ## The calls -/

theorem bob_ids {C : Crypto} {p : BobParameters} {s : SState} (h : initializeBobSession C p = .ok s) :
    s.localIdentityPublic = p.ourIdentityKeyPair.pub.bytes ∧ s.remoteIdentityPublic = p.theirIdentityKey.bytes := by
  unfold initializeBobSession at h
  obtain ⟨sg, -, h⟩ := Res.bind_eq_ok.mp h
  obtain ⟨d1, -, h⟩ := Res.bind_eq_ok.mp h
  obtain ⟨d2, -, h⟩ := Res.bind_eq_ok.mp h
  obtain ⟨d3, -, h⟩ := Res.bind_eq_ok.mp h
  have tail : ∀ d4 : Bytes, (do
      let (rootKey, chainKey) ← deriveKeys C (discontinuityBytes ++ d1 ++ d2 ++ d3 ++ d4)
      let s : SState :=
        { sessionVersion := ciphertextVersion, localIdentityPublic := p.ourIdentityKeyPair.pub.bytes,
          remoteIdentityPublic := p.theirIdentityKey.bytes, rootKey := rootKey.key }
      let ratchet ← deref p.ourRatchetKeyPair
      return s.setSenderChain ratchet chainKey : Res SState) = .ok s →
      s.localIdentityPublic = p.ourIdentityKeyPair.pub.bytes ∧ s.remoteIdentityPublic = p.theirIdentityKey.bytes := by
    intro d4 h
    obtain ⟨rc, -, h⟩ := Res.bind_eq_ok.mp h
    obtain ⟨rt, -, h⟩ := Res.bind_eq_ok.mp h
    cases h
    exact ⟨rfl, rfl⟩
  cases ho : p.ourOneTimePreKeyPair with
  | none => rw [ho] at h; exact tail [] h
  | some kp =>
    rw [ho] at h
    obtain ⟨d4, -, h⟩ := Res.bind_eq_ok.mp h
    exact tail d4 h

theorem withOther_keys {s : SState} {p q : PubKey} (h1 : s.localIdentityPublic = p.bytes) (h2 : s.remoteIdentityPublic = q.bytes) (h : q ≠ p) :
    s.WithOther := by
  unfold SState.WithOther SState.sessionWithSelf SState.remoteIdentityKey SState.localIdentityKey
  rw [h1, h2]
  simp [newIdentityKey_bytes, PubKey.equal]
  exact fun e => h (PubKey.ext' e)

theorem storeCall_identity {α : Type} {act : World → α × World} (hact : ∀ w, (act w).2.identity = w.identity) {w w' : World} {a : α}
    (h : storeCall act w = (.ok a, w')) : w'.identity = w.identity := by
  unfold storeCall at h
  split at h
  · cases h; exact hact _
  · cases h; exact hact { w with faults := _ }
  · cases h
  · cases h

theorem optKeyPair_world {o : Option PreKeyRec} {w w' : World} {k : Option KeyPair} (h : optKeyPair o w = (.ok k, w')) : w' = w := by
  cases o with
  | none => cases h; rfl
  | some p =>
    obtain ⟨kp, w1, h1, h2⟩ := M.bind_eq_ok.mp h
    cases h2
    exact (congrArg Prod.snd h1).symm

namespace Within

variable {E : Env} {w : World}

theorem processV3 {a : Address} {l : Bool} {r : Record} {m : PreKeyMsg} :
    Within E.C (fun C' => processPreKeyV3 { E with C := C' } a l r m w) 0 1 4 := by
  unfold processPreKeyV3
  refine mbind0 fun found w1 _ => ?_
  cases found with
  | true => exact const' _
  | false =>
    simp only [Bool.false_eq_true, if_false]
    refine mbind0 fun sg w2 _ => ?_
    have tail : ∀ (pid : Option UInt32) (o : Option KeyPair) (w3 : World), Within E.C (fun C' => (do
        let w ← M.get
        let s ← M.lift (orPanic (initializeBobSession C'
          { ourIdentityKeyPair := w.identity, ourSignedPreKeyPair := sg,
            ourOneTimePreKeyPair := o, ourRatchetKeyPair := sg,
            theirIdentityKey := m.identityKey, theirBaseKey := m.baseKey }))
        let s := { s with localRegistrationId := w.regId, remoteRegistrationId := m.registrationID,
                          aliceBaseKey := m.baseKey.bytes }
        let record := r.promoteState s
        touch E a l record
        return (pid, record) : M World (Option UInt32 × Record)) w3) 0 1 4 := by
      intro pid o w3
      refine mbind0 fun w4 w5 _ => ?_
      exact (lift ((initBob _).map orPanic)).mbind (h' := 0) (k' := 0) (c' := 0) fun s w6 _ => const _
    cases m.preKeyID with
    | none => exact tail none none w2
    | some id => exact mbind0 fun o w3 _ => tail (some id) o w3

theorem processV3_record {a : Address} {l : Bool} {r rec : Record} (hr : r.WF) (ho : ∀ s, r.HasState s → s.WithOther) {m : PreKeyMsg} (hm : m.identityKey ≠ w.identity.pub)
    {w' : World} {id : Option UInt32} (h : processPreKeyV3 E a l r m w = (.ok (id, rec), w')) :
    rec.previous.length ≤ 40 ∧ ∀ s, rec.HasState s → s.WithOther := by
  unfold processPreKeyV3 at h
  obtain ⟨found, w1, h1, h⟩ := M.bind_eq_ok.mp h
  have e1 : w1 = w := (congrArg Prod.snd h1).symm
  subst e1
  cases found with
  | true =>
    cases h
    exact ⟨hr.count, ho⟩
  | false =>
    simp only [Bool.false_eq_true, if_false] at h
    obtain ⟨sg, w2, h2, h⟩ := M.bind_eq_ok.mp h
    obtain ⟨o2, w2', h2, h2'⟩ := M.bind_eq_ok.mp h2
    have e2 : w2.identity = w1.identity := by
      rw [optKeyPair_world h2']; exact storeCall_identity (fun _ => rfl) h2
    have tail : ∀ (o : Option KeyPair) (w3 : World), w3.identity = w1.identity → (do
        let w ← M.get
        let s ← M.lift (orPanic (initializeBobSession E.C
          { ourIdentityKeyPair := w.identity, ourSignedPreKeyPair := sg,
            ourOneTimePreKeyPair := o, ourRatchetKeyPair := sg,
            theirIdentityKey := m.identityKey, theirBaseKey := m.baseKey }))
        let s := { s with localRegistrationId := w.regId, remoteRegistrationId := m.registrationID,
                          aliceBaseKey := m.baseKey.bytes }
        let record := r.promoteState s
        touch E a l record
        return (m.preKeyID, record) : M World (Option UInt32 × Record)) w3 = (.ok (id, rec), w') →
        rec.previous.length ≤ 40 ∧ ∀ s, rec.HasState s → s.WithOther := by
      intro o w3 e3 h
      obtain ⟨w4, w5, h4, h⟩ := M.bind_eq_ok.mp h
      cases h4
      obtain ⟨s, w6, h5, h⟩ := M.bind_eq_ok.mp h
      have h5' : initializeBobSession E.C
          { ourIdentityKeyPair := w3.identity, ourSignedPreKeyPair := sg, ourOneTimePreKeyPair := o, ourRatchetKeyPair := sg,
            theirIdentityKey := m.identityKey, theirBaseKey := m.baseKey } = .ok s := by
        have := congrArg Prod.fst h5
        simp only [M.lift_run] at this
        generalize initializeBobSession E.C _ = x at this ⊢
        cases x with
        | ok y => exact this
        | err e => cases this
        | panic => cases this
      obtain ⟨i1, i2⟩ := bob_ids h5'
      obtain ⟨u, w7, h6, h⟩ := M.bind_eq_ok.mp h
      cases h
      refine ⟨?_, fun t ht => ?_⟩
      · have hc : r.previous.length ≤ 40 := hr.count
        unfold Record.promoteState Record.archiveCurrentState
        cases r.current with
        | none => exact hc
        | some x =>
          simp only [List.length_append, List.length_singleton, show maxArchivedStates = 40 from rfl]
          split
          · rw [List.length_drop]; omega
          · omega
      · rcases hr.promoted_state ht with rfl | ht
        · exact withOther_keys (p := w1.identity.pub) (q := m.identityKey) (i1.trans (by rw [e3])) i2 hm
        · exact ho t ht
    cases hid : m.preKeyID with
    | none => rw [hid] at h tail; exact tail none w2 e2 h
    | some i =>
      rw [hid] at h tail
      obtain ⟨o, w3, h3, h⟩ := M.bind_eq_ok.mp h
      obtain ⟨o3, w3', h3, h3'⟩ := M.bind_eq_ok.mp h3
      exact tail o w3 (by rw [optKeyPair_world h3']; exact (storeCall_identity (fun _ => rfl) h3).trans e2) h

theorem preKey {a : Address} {m : PreKeyMsg} (hw : w.WF) (ho : ∀ r s, w.sessions a = some r → r.HasState s → s.WithOther)
    (hm : m.identityKey ≠ w.identity.pub) :
    Within E.C (fun C' => decryptPreKey { E with C := C' } a m w) (41 * 50002) (41 * 25003 + 1) (41 * 3 + 4) := by
  unfold decryptPreKey
  refine mbind0 fun stored w1 h1 => ?_
  have e1 : w1.identity = w.identity := storeCall_identity (fun _ => rfl) h1
  have hs : stored = w.sessions a := by
    unfold loadSession storeCall at h1
    split at h1 <;> cases h1 <;> rfl
  have hrec : ((w.sessions a).getD {}).WF ∧ ∀ s, ((w.sessions a).getD {}).HasState s → s.WithOther := by
    cases hr : w.sessions a with
    | none => exact ⟨Record.WF.empty, fun s hs => by rcases hs with h | ⟨_, h, _⟩ <;> cases h⟩
    | some r => exact ⟨hw a r hr, fun s => ho r s hr⟩
  rw [← hs] at hrec
  refine (mbind (x := fun C' => processPreKey { E with C := C' } a stored.isSome (stored.getD {}) m) (h := 0) (k := 1) (c := 4)
    (h' := 41 * 50002) (k' := 41 * 25003) (c' := 41 * 3) ?_ fun out w2 h2 => ?_).mono (by omega) (by omega) (by omega)
  · unfold processPreKey
    refine mbind0 (x := isTrusted E a m.identityKey .receiving) fun ok w2 _ => ?_
    cases ok with
    | false => exact const' _
    | true => exact (processV3).mbind (h' := 0) (k' := 0) (c' := 0) fun _ _ _ => const _
  · have hgood : out.2.previous.length ≤ 40 ∧ ∀ s, out.2.HasState s → s.WithOther := by
      unfold processPreKey at h2
      obtain ⟨ok, w3, h3, h2⟩ := M.bind_eq_ok.mp h2
      have e3 : w3.identity = w1.identity := storeCall_identity (fun _ => rfl) h3
      cases ok with
      | false => cases h2
      | true =>
        obtain ⟨⟨id, rec⟩, w4, h4, h2⟩ := M.bind_eq_ok.mp h2
        obtain ⟨u, w5, h5, h2⟩ := M.bind_eq_ok.mp h2
        cases h2
        exact processV3_record hrec.1 hrec.2 (by rw [e3, e1]; exact hm) h4
    refine (withRand (record hgood.1 hgood.2 m.message w2.rand)).mbind (h' := 0) (k' := 0) (c' := 0) fun b w3 _ => ?_
    exact same fun _ => rfl

theorem signal {a : Address} {m : Signal} (hw : w.WF) (ho : ∀ r s, w.sessions a = some r → r.HasState s → s.WithOther) :
    Within E.C (fun C' => decryptSignal { E with C := C' } a m w) (41 * 50002) (41 * 25003) (41 * 3) := by
  unfold decryptSignal
  refine mbind0 fun stored w1 h1 => ?_
  have hs : stored = w.sessions a := by
    unfold loadSession storeCall at h1
    split at h1 <;> cases h1 <;> rfl
  cases stored with
  | none => exact const' _
  | some r =>
    refine (attempt (withRand (record (hw a r hs.symm).count (fun s => ho r s hs.symm) m w1.rand))).mbind (h' := 0) (k' := 0) (c' := 0) fun out w2 _ => ?_
    exact same fun _ => rfl

theorem decrypt {a : Address} {m : Ciphertext} (hw : w.WF) (ho : ∀ r s, w.sessions a = some r → r.HasState s → s.WithOther)
    (hm : ∀ pm, m = .preKey pm → pm.identityKey ≠ w.identity.pub) :
    Within E.C (fun C' => decryptMessage { E with C := C' } a m w) (41 * 50002) (41 * 25003 + 1) (41 * 3 + 4) := by
  cases m with
  | preKey pm => exact (preKey hw ho (hm pm rfl)).mbind (h' := 0) (k' := 0) (c' := 0) fun _ _ _ => const _
  | signal sm => exact (signal hw ho).mono (by omega) (by omega) (by omega)
  | _ => exact const' _

theorem encryptState {s : SState} {p : Bytes} : Within E.C (fun C' => Verif.encryptState C' s p) 3 1 0 := by
  unfold Verif.encryptState
  refine rbind0 fun ck _ => ?_
  refine (messageKeys ck).seq (h' := 2) (k' := 0) (c' := 0) (g := fun mk C' => do
    let senderEphemeral ← s.senderRatchetKey
    let version := s.version.toUInt8
    let localIdentityKey ← s.localIdentityKey
    match ← s.remoteIdentityKey with
    | none => .err .noRemoteIdentity
    | some theirIdentityKey =>
      let ciphertext ← cbcEncrypt C' mk.cipherKey mk.iv p
      let msg ← newSignal C' version mk.macKey senderEphemeral s.previousCounter ck.index ciphertext
        localIdentityKey theirIdentityKey
      let items ← s.unacknowledgedPreKeyMessages
      let out := match items with
        | some u => Ciphertext.preKey (newPreKey version s.localRegistrationId u.preKeyID u.signedPreKeyID u.baseKey
            localIdentityKey msg)
        | none => Ciphertext.signal msg
      return (out, s.setSenderChainKey (ck.next C'), theirIdentityKey)) ?_
  refine rbind0 fun eph _ => ?_
  refine rbind0 fun lk _ => ?_
  refine rbind0 fun rk _ => ?_
  cases rk with
  | none => exact const' _
  | some rk =>
    refine (cbcEnc _ _ _).rbind (h' := 2) (k' := 0) (c' := 0) fun ct _ => ?_
    have hs : ∀ (v : UInt8) (mk : Bytes) (n : UInt32) , Within E.C (fun C' => newSignal C' v mk eph s.previousCounter n ct lk rk) 1 0 0 := by
      intro v mk n
      unfold newSignal
      exact (mac _ _ _ _).rbind (h' := 0) (k' := 0) (c' := 0) fun _ _ => const _
    refine (hs _ _ _).rbind (h' := 1) (k' := 0) (c' := 0) fun msg _ => ?_
    refine rbind0 fun items _ => ?_
    exact (next ck).map fun x => Res.ok (_, s.setSenderChainKey x, rk)

theorem encrypt {a : Address} {p : Bytes} : Within E.C (fun C' => encryptMessage { E with C := C' } a p w) 3 1 0 := by
  unfold encryptMessage
  refine mbind0 fun stored w1 _ => ?_
  cases stored with
  | none => exact const' _
  | some r =>
    cases hr : r.current with
    | none => simp only [hr]; exact const' _
    | some s =>
      simp only [hr]
      exact (lift encryptState).mbind (h' := 0) (k' := 0) (c' := 0) fun _ _ _ => same fun _ => rfl

theorem bundle {a : Address} {b : Bundle} : Within E.C (fun C' => processPreKeyBundle { E with C := C' } a b w) 0 2 7 := by
  unfold processPreKeyBundle
  refine mbind0 (x := isTrusted E a b.identityKey .sending) fun ok w1 _ => ?_
  cases ok with
  | false => exact const' _
  | true =>
    refine (lift (verify _ _ _)).mbind (h' := 0) (k' := 2) (c' := 7) fun ok w2 _ => ?_
    cases ok with
    | false => exact const' _
    | true =>
      simp only [if_true]
      refine mbind0 fun stored w3 _ => ?_
      refine (withRand (generate _)).mbind (h' := 0) (k' := 2) (c' := 6) fun base w4 _ => ?_
      refine mbind0 fun w5 w6 _ => ?_
      exact (withRand (initAlice _ _)).mbind (h' := 0) (k' := 0) (c' := 0) fun s w7 _ => same fun _ => rfl

/-! ## Groups -/

theorem skMessageKey {C : Crypto} (seed : Bytes) (n : UInt32) : Within C (fun C' => deriveSKMessageKey C' seed n) 0 1 0 :=
  (hkdf seed [] groupInfo 48).map (β := SKMessageKey) fun derived => { cipherKey := derived.drop 16, iv := derived.take 16, seed := seed, iteration := n }

theorem skKey {C : Crypto} (ck : SKChainKey) : Within C (fun C' => ck.messageKey C') 1 1 0 :=
  (hmac ck.seed [1]).seq (g := fun x C' => deriveSKMessageKey C' x ck.iteration) (skMessageKey _ _)

theorem skNext {C : Crypto} (ck : SKChainKey) : Within C (fun C' => ck.next C') 1 0 0 :=
  (hmac ck.seed [2]).map (β := SKChainKey) fun x => { seed := x, iteration := ck.iteration + 1 }

theorem groupLoop {C : Crypto} (n : UInt32) (fuel : Nat) : ∀ (ck : SKChainKey) (s : GState),
    Within C (fun C' => groupSkipLoop C' n fuel ck s) (2 * fuel) fuel 0 := by
  induction fuel with
  | zero => exact fun _ _ => const _
  | succ fuel ih =>
    intro ck s
    unfold groupSkipLoop
    by_cases hlt : ck.iteration < n
    · simp only [if_pos hlt]
      refine ((skKey ck).seq (h' := 1 + 2 * fuel) (k' := fuel) (c' := 0)
        (g := fun mk C' => groupSkipLoop C' n fuel (ck.next C') (s.addMessageKey mk)) ?_).mono (by omega) (by omega) (by omega)
      exact ((skNext ck).seq (g := fun ck' C' => groupSkipLoop C' n fuel ck' _) (ih _ _)).mono (by omega) (by omega) (by omega)
    · simp only [if_neg hlt]
      exact const' _

theorem groupKey {C : Crypto} (s : GState) (n : UInt32) : Within C (fun C' => groupMessageKey C' s n) 50002 25001 0 := by
  unfold groupMessageKey
  by_cases h1 : s.chainKey.iteration > n
  · simp only [if_pos h1, GState.removeMessageKeys]
    cases s.messageKeys.find? fun k => k.iteration = n with
    | none => exact const' _
    | some x =>
      exact ((skMessageKey x.seed x.iteration).map fun y => (Res.ok (y, _) : Res (SKMessageKey × GState))).mono (by omega) (by omega) (by omega)
  · by_cases h2 : n - s.chainKey.iteration > maxJumps
    · simp only [if_neg h1, if_pos h2]
      exact const' _
    · simp only [if_neg h1, if_neg h2]
      have hn : n.toNat - s.chainKey.iteration.toNat ≤ 25000 := by
        have h3 : (n - s.chainKey.iteration).toNat = n.toNat - s.chainKey.iteration.toNat := UInt32.toNat_sub_of_le _ _ (UInt32.not_lt.mp h1)
        have h4 : (n - s.chainKey.iteration).toNat ≤ maxJumps.toNat := UInt32.not_lt.mp h2
        have h5 : maxJumps.toNat = 25000 := rfl
        omega
      refine mono (h := 2 * (n.toNat - s.chainKey.iteration.toNat) + 2) (k := n.toNat - s.chainKey.iteration.toNat + 1) (c := 0)
        ((groupLoop n (n.toNat - s.chainKey.iteration.toNat) s.chainKey s).seq (h' := 2) (k' := 1) (c' := 0)
        (g := fun x C' => Res.ok (x.1.messageKey C', x.2.setSenderChainKey (x.1.next C'))) ?_) (by omega) (by omega) (by omega)
      refine (skKey _).seq (h' := 1) (k' := 0) (c' := 0) (g := fun y C' => Res.ok (y, GState.setSenderChainKey _ (SKChainKey.next C' _))) ?_
      exact (skNext _).map fun z => Res.ok (_, GState.setSenderChainKey _ z)

theorem groupDec {C : Crypto} {al : Bool} {a : Address} {m : SenderKeyMsg} {g : GWorld} :
    Within C (fun C' => groupDecrypt C' al a m g) 50002 25001 0 := by
  unfold groupDecrypt
  refine mbind0 fun stored g1 _ => ?_
  cases stored with
  | none => exact const' _
  | some r =>
    cases hr : GRecord.stateForChainID r m.chainID with
    | none => simp only [hr]; exact const' _
    | some s =>
      simp only [hr]
      by_cases hv : m.version.toUInt32 ≠ s.version
      · simp only [if_pos hv]; exact const' _
      · simp only [if_neg hv]
        refine mbind0 fun key g2 _ => ?_
        have hver : Within C (fun C' => m.verifySignature C' key) 0 0 0 := by
          unfold SenderKeyMsg.verifySignature
          split
          · exact const _
          · exact verify _ _ _
        refine ((lift hver).mbind (h' := 50002) (k' := 25001) (c' := 0) fun ok g3 _ => ?_).mono (by omega) (by omega) (by omega)
        cases ok with
        | false => exact const' _
        | true =>
          simp only [if_true]
          refine (lift (groupKey s m.iteration)).mbind (h' := 0) (k' := 0) (c' := 0) fun x g4 _ => ?_
          refine mbind0 fun _ g5 _ => ?_
          exact (lift (cbcDec _ _ _)).mbind (h' := 0) (k' := 0) (c' := 0) fun y g6 _ => const _

end Within

end Verif
