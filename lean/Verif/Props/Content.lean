import Verif.Proofs.Content
import Verif.Spec.Example
import Verif.Spec.GroupExample

/-!
# What the bytes of a message tell about its content: C89
-/

namespace Verif

open Ex Doc

theorem encryptState_body {C : Crypto} {s s' : SState} {p : Bytes} {c : Ciphertext} {k : PubKey} (h : encryptState C s p = .ok (c, s', k)) :
    ∃ ck m, s.senderChainKey = .ok ck ∧ c.inner = some m ∧ cbcEncrypt C (ck.messageKeys C).cipherKey (ck.messageKeys C).iv p = .ok m.ciphertext := by
  unfold encryptState at h
  simp only [Res.bind_eq_ok] at h
  obtain ⟨ck, h1, _, _, _, _, o, h2, h⟩ := h
  cases o with
  | none => simp at h
  | some k' =>
    simp only [Res.bind_eq_ok] at h
    obtain ⟨ct, h3, m, h4, items, _, h⟩ := h
    simp only [Res.pure_eq, Res.ok.injEq, Prod.mk.injEq] at h
    obtain ⟨h, _⟩ := h
    have hm : m.ciphertext = ct := by
      unfold newSignal at h4
      simp only [Res.bind_eq_ok] at h4
      obtain ⟨_, _, h4⟩ := h4
      simp only [Res.pure_eq, Res.ok.injEq] at h4
      rw [← h4]
    refine ⟨ck, m, h1, ?_, by rw [hm]; exact h3⟩
    rw [← h]
    cases items <;> rfl

theorem senderChainKey_key {s : SState} {ck : ChainKey} (h : s.senderChainKey = .ok ck) : ck.key = s.senderKey := by
  unfold SState.senderChainKey at h
  cases hc : s.senderChain with
  | none => simp [hc] at h
  | some c =>
    rw [hc] at h
    simp only at h
    cases hx : c.chainKey with
    | none => simp [hx] at h
    | some x =>
      rw [hx] at h
      simp only [newChainKey] at h
      split at h
      · simp at h
      · simp only [Res.ok.injEq] at h
        subst h
        simp [SState.senderKey, hc, hx]

/-- **C89**, pairwise. A call has encrypted the content `p` and returned the message `c` with the ciphertext body `m.ciphertext`. Which
contents `q` could have given exactly this message, and exactly the same stores, if AES under the key of this message were another
permutation? Exactly those that fit the body: those that fill the same number of blocks, and repeat a block in CBC mode where the body
repeats one. Nothing else about the content is in the message or in the stores. -/
theorem C89_content_is_open (E : Env) (w : World) (a : Address) (r : Record) (s : SState) (hr : w.sessions a = some r) (hs : r.current = some s)
    (p q : Bytes) (c : Ciphertext) (m : Signal) (h : (encryptMessage E a p w).1 = .ok c) (hm : c.inner = some m) :
    (∃ C', E.C.SameButAes C' ((messageSecrets E.C s.senderKey 0).take 32) ∧
      encryptMessage { E with C := C' } a q w = encryptMessage E a p w) ↔ Fits ((messageSecrets E.C s.senderKey 0).drop 64) m.ciphertext q := by
  have body : ∀ (C : Crypto) (p : Bytes), (encryptMessage { E with C := C } a p w).1 = .ok c →
      ∃ ck, s.senderChainKey = .ok ck ∧ cbcEncrypt C (ck.messageKeys C).cipherKey (ck.messageKeys C).iv p = .ok m.ciphertext := by
    intro C p h
    have ho := encrypt_outcome { E with C := C } a p w
    generalize encryptMessage { E with C := C } a p w = x at ho h
    obtain ⟨res, w1⟩ := x
    simp only at ho h
    subst h
    cases ho with
    | early _ _ hr => exact absurd rfl (hr _)
    | stopped _ _ hr => exact absurd rfl (hr _)
    | done fs rec st st' msg key h1 h2 h3 ht =>
      rw [hr] at h1
      simp only [Option.some.injEq] at h1
      subst h1
      rw [hs] at h2
      simp only [Option.some.injEq] at h2
      subst h2
      obtain ⟨ck, m', e1, e2, e3⟩ := encryptState_body h3
      rw [hm] at e2
      simp only [Option.some.injEq] at e2
      subst e2
      exact ⟨ck, e1, e3⟩
  obtain ⟨ck, hck, hbody⟩ := body E.C p h
  have hmk := messageKeys_eq E.C ck 0
  simp only [chainIter, senderChainKey_key hck] at hmk
  have ek : (ck.messageKeys E.C).cipherKey = (messageSecrets E.C s.senderKey 0).take 32 := by rw [hmk]
  have ei : (ck.messageKeys E.C).iv = (messageSecrets E.C s.senderKey 0).drop 64 := by rw [hmk]
  rw [← ek, ← ei, fits_iff E.C (ck.messageKeys E.C).cipherKey (ck.messageKeys E.C).iv m.ciphertext q
    (by simp [aesKeyOk, messageKeys_cipherKey_len]) (messageKeys_iv_len _ _)]
  constructor
  · rintro ⟨C', h1, h2⟩
    obtain ⟨ck', e1, e2⟩ := body C' q (by rw [h2]; exact h)
    rw [hck] at e1
    simp only [Res.ok.injEq] at e1
    subst e1
    rw [h1.messageKeys] at e2
    exact ⟨C', h1, e2⟩
  · rintro ⟨C', h1, h2⟩
    refine ⟨C', h1, encryptMessage_same E C' a p q w fun r' s' hr' hs' => ?_⟩
    rw [hr] at hr'
    simp only [Option.some.injEq] at hr'
    subst hr'
    rw [hs] at hs'
    simp only [Option.some.injEq] at hs'
    subst hs'
    refine h1.encryptState _ _ _ fun ck' hck' => ?_
    rw [hck] at hck'
    simp only [Res.ok.injEq] at hck'
    subst hck'
    rw [h2, hbody]

/-- Contents of less than 16 bytes always fit a body of one block. -/
theorem fits_short (iv body q : Bytes) (hb : body.length = 16) (hq : q.length < 16) : Fits iv body q := by
  refine ⟨by omega, ?_⟩
  intro i j hi hj
  have hi : i = 0 := by omega
  have hj : j = 0 := by omega
  subst hi hj
  simp

theorem encrypted_length {C : Crypto} {k iv p b : Bytes} (h : cbcEncrypt C k iv p = .ok b) : b.length = 16 * (p.length / 16 + 1) := by
  unfold cbcEncrypt at h
  split at h
  · simp at h
  split at h
  · simp at h
  rename_i hiv
  simp only [Res.ok.injEq] at h
  rw [← h, cbcEncBlocks_length _ _ _ _ _ (Decidable.of_not_not hiv) (by rw [pkcs7pad_length]; omega), pkcs7pad_length]
  omega

/-- **C89** for short messages: without any condition, a message with a content of less than 16 bytes could have any other content of less
than 16 bytes. -/
theorem C89_short_content_is_open (E : Env) (w : World) (a : Address) (r : Record) (s : SState) (hr : w.sessions a = some r)
    (hs : r.current = some s) (p q : Bytes) (c : Ciphertext) (h : (encryptMessage E a p w).1 = .ok c) (hp : p.length < 16) (hq : q.length < 16) :
    ∃ C', E.C.SameButAes C' ((messageSecrets E.C s.senderKey 0).take 32) ∧ encryptMessage { E with C := C' } a q w = encryptMessage E a p w := by
  have ho := encrypt_outcome E a p w
  have hm : ∃ m, c.inner = some m ∧ m.ciphertext.length = 16 := by
    generalize encryptMessage E a p w = x at ho h
    obtain ⟨res, w1⟩ := x
    simp only at ho h
    subst h
    cases ho with
    | early _ _ hr => exact absurd rfl (hr _)
    | stopped _ _ hr => exact absurd rfl (hr _)
    | done fs rec st st' msg key h1 h2 h3 ht =>
      obtain ⟨ck, m, _, e2, e3⟩ := encryptState_body h3
      exact ⟨m, e2, by rw [encrypted_length e3]; omega⟩
  obtain ⟨m, hm, hl⟩ := hm
  exact (C89_content_is_open E w a r s hr hs p q c m h hm).mpr (fits_short _ _ _ hl hq)

theorem encrypted_from {E : Env} {a : Address} {p : Bytes} {w : World} {c : Ciphertext} (h : (encryptMessage E a p w).1 = .ok c) :
    ∃ (r : Record) (s : SState), w.sessions a = some r ∧ r.current = some s ∧ (encryptMessage E a p w).1 = .ok c := by
  have ho := encrypt_outcome E a p w
  generalize encryptMessage E a p w = x at ho h ⊢
  obtain ⟨res, w1⟩ := x
  simp only at ho h ⊢
  subst h
  cases ho with
  | early _ _ hr => exact absurd rfl (hr _)
  | stopped _ _ hr => exact absurd rfl (hr _)
  | done fs rec st st' msg key h1 h2 h3 ht => exact ⟨rec, st, h1, h2, rfl⟩

/-- the hypotheses are met by the first message of the example -/
example : ∃ (r : Record) (s : SState), alice1.sessions bob = some r ∧ r.current = some s ∧ (encryptMessage copying bob [1, 2, 3] alice1).1 = .ok m1 :=
  encrypted_from (by decide +kernel)

/-- a content of three blocks that fits the body of another one, and one that does not: with two equal blocks in CBC mode -/
example : Fits (List.replicate 16 0) ((List.range 48).map UInt8.ofNat) (List.replicate 40 5) ∧
    ¬ Fits (List.replicate 16 0) ((List.range 48).map UInt8.ofNat) (List.replicate 16 0 ++ (List.range 16).map UInt8.ofNat) := by
  constructor
  · refine ⟨by decide, ?_⟩
    have : ∀ i ∈ List.range 3, ∀ j ∈ List.range 3,
      (xorBytes (block (List.replicate 16 0 ++ (List.range 48).map UInt8.ofNat) i) (block (pkcs7pad (List.replicate 40 5)) i) =
        xorBytes (block (List.replicate 16 0 ++ (List.range 48).map UInt8.ofNat) j) (block (pkcs7pad (List.replicate 40 5)) j) ↔
      block ((List.range 48).map UInt8.ofNat) i = block ((List.range 48).map UInt8.ofNat) j) := by decide +kernel
    exact fun i j hi hj => this i (List.mem_range.mpr hi) j (List.mem_range.mpr hj)
  · rintro ⟨_, h⟩
    have := (h 0 1 (by decide) (by decide)).mp (by decide +kernel)
    revert this
    decide +kernel

/-- **C89**, groups. -/
theorem C89_group_content_is_open (C : Crypto) (aliased : Bool) (w : GWorld) (a : Address) (dist : DistId) (s : GState) (g : GRecord)
    (hr : w.records (a, dist) = some (s :: g)) (p q : Bytes) (m : SenderKeyMsg) (h : (groupEncrypt C aliased a dist p w).1 = .ok m) :
    (∃ C', C.SameButAes C' ((groupSecrets C s.chainKey.seed 0).drop 16) ∧ groupEncrypt C' aliased a dist q w = groupEncrypt C aliased a dist p w) ↔
      Fits ((groupSecrets C s.chainKey.seed 0).take 16) m.ciphertext q := by
  have body : ∀ (C : Crypto) (p : Bytes), (groupEncrypt C aliased a dist p w).1 = .ok m →
      cbcEncrypt C (s.chainKey.messageKey C).cipherKey (s.chainKey.messageKey C).iv p = .ok m.ciphertext := by
    intro C p h
    have ho := groupEncrypt_outcome C aliased a dist p w
    generalize groupEncrypt C aliased a dist p w = x at ho h
    obtain ⟨res, w1⟩ := x
    simp only at ho h
    subst h
    cases ho with
    | early _ _ _ hr => exact absurd rfl (hr _)
    | stopped _ _ hr => exact absurd rfl (hr _)
    | done fs s' rest sk m' rd hb =>
      have e := hb.record
      rw [hr] at e
      simp only [Option.some.injEq, List.cons.injEq] at e
      obtain ⟨rfl, rfl⟩ := e
      obtain ⟨ct, h1, h2⟩ := hb.built
      have : m.ciphertext = ct := by
        unfold newSenderKey at h2
        simp only [M.bind_eq_ok] at h2
        obtain ⟨_, _, _, h2⟩ := h2
        simp only [M.pure_run, Prod.mk.injEq, Res.ok.injEq] at h2
        rw [← h2.1]
      rw [this]
      exact h1
  have hbody := body C p h
  have ek : (s.chainKey.messageKey C).cipherKey = (groupSecrets C s.chainKey.seed 0).drop 16 := rfl
  have ei : (s.chainKey.messageKey C).iv = (groupSecrets C s.chainKey.seed 0).take 16 := rfl
  rw [← ek, ← ei, fits_iff C (s.chainKey.messageKey C).cipherKey (s.chainKey.messageKey C).iv m.ciphertext q
    (by simp [aesKeyOk, SKChainKey.messageKey, deriveSKMessageKey, C.hkdf_len]) (by simp [SKChainKey.messageKey, deriveSKMessageKey, C.hkdf_len])]
  constructor
  · rintro ⟨C', h1, h2⟩
    have e2 := body C' q (by rw [h2]; exact h)
    have : s.chainKey.messageKey C' = s.chainKey.messageKey C := by
      unfold SKChainKey.messageKey deriveSKMessageKey chainHash
      rw [h1.hmac, h1.hkdf]
    rw [this] at e2
    exact ⟨C', h1, e2⟩
  · rintro ⟨C', h1, h2⟩
    refine ⟨C', h1, groupEncrypt_same h1 aliased a dist p q w fun s' g' hr' => ?_⟩
    rw [hr] at hr'
    simp only [Option.some.injEq, List.cons.injEq] at hr'
    obtain ⟨rfl, rfl⟩ := hr'
    rw [h2, hbody]

/-- the hypotheses are met by the first group message of the example -/
example : ∃ (s : GState) (g : GRecord), ({ galice1 with rand := randomness 3 } : GWorld).records (alice, dist) = some (s :: g) ∧ (groupEncrypt toy false alice dist [1, 2, 3] { galice1 with rand := randomness 3 }).1 = .ok g1 := by
  have h : (match galice1.records (alice, dist) with | some (_ :: _) => true | _ => false) = true := by decide +kernel
  cases hr : galice1.records (alice, dist) with
  | none => simp [hr] at h
  | some x =>
    cases x with
    | nil => simp [hr] at h
    | cons s g => exact ⟨s, g, rfl, by decide +kernel⟩

end Verif
