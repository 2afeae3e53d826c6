import Verif.Spec.Openness
import Verif.Proofs.Protocol
import Verif.Proofs.Ops
import Verif.Proofs.Group

/-!
# Helper lemmas for C89
-/

namespace Verif

/-! ## A permutation of blocks with given values -/

/-- Exchange two byte strings. -/
def swapB (a b x : Bytes) : Bytes := if x = a then b else if x = b then a else x

theorem swapB_swapB (a b x : Bytes) : swapB a b (swapB a b x) = x := by
  unfold swapB
  split
  · rename_i h
    split
    · rename_i h2; rw [h, h2]
    · simp [h]
  · rename_i h
    split
    · rename_i h2; simp [h2]
    · rename_i h2; simp [h, h2]

theorem swapB_len {a b x : Bytes} (ha : a.length = 16) (hb : b.length = 16) (hx : x.length = 16) : (swapB a b x).length = 16 := by
  unfold swapB
  split
  · exact hb
  · split
    · exact ha
    · exact hx

/-- A permutation that maps every `x` of the list to its `c`. -/
theorem exists_perm (L : List (Bytes × Bytes)) (hl : ∀ z ∈ L, z.1.length = 16 ∧ z.2.length = 16)
    (hc : ∀ z ∈ L, ∀ z' ∈ L, z.1 = z'.1 ↔ z.2 = z'.2) :
    ∃ f g : Bytes → Bytes, (∀ x, g (f x) = x) ∧ (∀ x, x.length = 16 → (f x).length = 16) ∧ (∀ x, x.length = 16 → (g x).length = 16) ∧
      ∀ z ∈ L, f z.1 = z.2 := by
  induction L with
  | nil => exact ⟨id, id, fun _ => rfl, fun _ h => h, fun _ h => h, by simp⟩
  | cons z L ih =>
    obtain ⟨f, g, h1, h2, h3, h4⟩ := ih (fun z hz => hl z (List.mem_cons_of_mem _ hz))
      (fun z hz z' hz' => hc z (List.mem_cons_of_mem _ hz) z' (List.mem_cons_of_mem _ hz'))
    have hz := hl z (List.mem_cons_self ..)
    refine ⟨fun x => swapB (f z.1) z.2 (f x), fun x => g (swapB (f z.1) z.2 x), ?_, ?_, ?_, ?_⟩
    · intro x; simp only [swapB_swapB, h1]
    · intro x hx; exact swapB_len (h2 _ hz.1) hz.2 (h2 _ hx)
    · intro x hx; exact h3 _ (swapB_len (h2 _ hz.1) hz.2 hx)
    · intro y hy
      rcases List.mem_cons.mp hy with rfl | hy'
      · simp [swapB]
      · have hcy := hc y hy z (List.mem_cons_self ..)
        have hf := h4 y hy'
        simp only [hf]
        by_cases he : y.1 = z.1
        · have := hcy.mp he
          rw [← he, hf, this]
          simp [swapB]
        · have hne : y.2 ≠ z.2 := fun hh => he (hcy.mpr hh)
          have hne2 : y.2 ≠ f z.1 := by
            intro hh
            rw [← hf] at hh
            apply he
            rw [← h1 y.1, hh, h1]
          simp [swapB, hne, hne2]

/-! ## CBC block by block -/

theorem block_zero (b : Bytes) : block b 0 = b.take 16 := by simp [block]
theorem block_succ (b : Bytes) (i : Nat) : block b (i + 1) = block (b.drop 16) i := by
  simp only [block, List.drop_drop]
  congr 2
  omega

theorem block_after (iv b : Bytes) (h : iv.length = 16) (i : Nat) : block (iv ++ b) (i + 1) = block b i := by
  rw [block_succ, List.drop_left' h]

theorem block_length {b : Bytes} {n i : Nat} (h : b.length = 16 * n) (hi : i < n) : (block b i).length = 16 := by
  simp only [block, List.length_take, List.length_drop]; omega

theorem cbc_blocks (C : Crypto) (key : Bytes) (n : Nat) (iv pt body : Bytes) (hiv : iv.length = 16) (hpt : pt.length = 16 * n)
    (hb : body.length = 16 * n) :
    cbcEncBlocks C key n iv pt = body ↔ ∀ i < n, C.aesEnc key (xorBytes (block (iv ++ body) i) (block pt i)) = block body i := by
  induction n generalizing iv pt body with
  | zero =>
    have : body = [] := List.length_eq_zero_iff.mp (by simpa using hb)
    simp [cbcEncBlocks, this]
  | succ n ih =>
    have h1 : (pt.take 16).length = 16 := by simp; omega
    have h2 : (xorBytes iv (pt.take 16)).length = 16 := by rw [xorBytes_length _ _ (by omega), h1]
    have h3 := C.aesEnc_len key _ h2
    have hb1 : (body.take 16).length = 16 := by simp; omega
    have hblock0 : block (iv ++ body) 0 = iv := by rw [block_zero, List.take_left' hiv]
    simp only [cbcEncBlocks]
    constructor
    · intro he i hi
      have e1 : C.aesEnc key (xorBytes iv (pt.take 16)) = body.take 16 := by rw [← he, List.take_left' h3]
      have e2 : cbcEncBlocks C key n (body.take 16) (pt.drop 16) = body.drop 16 := by
        rw [← e1]
        rw [← he, List.drop_left' h3]
      cases i with
      | zero => rw [hblock0, block_zero, block_zero]; exact e1
      | succ i =>
        rw [block_after _ _ hiv, block_succ pt, block_succ body]
        have := (ih (body.take 16) (pt.drop 16) (body.drop 16) hb1 (by simp; omega) (by simp; omega)).mp e2 i (by omega)
        rw [List.take_append_drop] at this
        exact this
    · intro h
      have e1 := h 0 (by omega)
      rw [hblock0, block_zero, block_zero] at e1
      have e2 := (ih (body.take 16) (pt.drop 16) (body.drop 16) hb1 (by simp; omega) (by simp; omega)).mpr (by
        intro i hi
        have := h (i + 1) (by omega)
        rw [block_after _ _ hiv, block_succ pt, block_succ body] at this
        rw [List.take_append_drop]
        exact this)
      rw [e1, e2, List.take_append_drop]

/-- The primitives with another permutation under one AES key. -/
def Crypto.withAes (C : Crypto) (key : Bytes) (f g : Bytes → Bytes) (h1 : ∀ x, g (f x) = x) (h2 : ∀ x, x.length = 16 → (f x).length = 16)
    (h3 : ∀ x, x.length = 16 → (g x).length = 16) : Crypto :=
  { C with
    aesEnc := fun k b => if k = key then f b else C.aesEnc k b
    aesDec := fun k b => if k = key then g b else C.aesDec k b
    aesEnc_len := fun k b hb => by split; exact h2 b hb; exact C.aesEnc_len k b hb
    aesDec_len := fun k b hb => by split; exact h3 b hb; exact C.aesDec_len k b hb
    aes_dec_enc := fun k b hk hb => by split; exact h1 b; exact C.aes_dec_enc k b hk hb }

theorem fits_iff (C : Crypto) (key iv body q : Bytes) (hk : aesKeyOk key = true) (hiv : iv.length = 16) :
    Fits iv body q ↔ ∃ C' : Crypto, C.SameButAes C' key ∧ cbcEncrypt C' key iv q = .ok body := by
  have hpad := pkcs7pad_length q
  have hdiv : (pkcs7pad q).length / 16 = q.length / 16 + 1 := by rw [hpad]; omega
  constructor
  · rintro ⟨hlen, hpat⟩
    have hn : body.length / 16 = q.length / 16 + 1 := by rw [hlen]; omega
    obtain ⟨f, g, h1, h2, h3, h4⟩ := exists_perm ((List.range (q.length / 16 + 1)).map fun i =>
      (xorBytes (block (iv ++ body) i) (block (pkcs7pad q) i), block body i)) (by
        simp only [List.mem_map, List.mem_range]
        rintro z ⟨i, hi, rfl⟩
        have e1 := block_length (b := iv ++ body) (n := q.length / 16 + 2) (by simp [hiv, hlen]; omega) (show i < q.length / 16 + 2 by omega)
        have e2 := block_length hpad hi
        exact ⟨by rw [xorBytes_length _ _ (by omega), e2], block_length hlen hi⟩) (by
        simp only [List.mem_map, List.mem_range]
        rintro z ⟨i, hi, rfl⟩ z' ⟨j, hj, rfl⟩
        exact hpat i j (by omega) (by omega))
    refine ⟨C.withAes key f g h1 h2 h3, ⟨rfl, rfl, rfl, rfl, rfl, rfl, rfl, ?_, ?_⟩, ?_⟩
    · intro k b hkb; simp [Crypto.withAes, hkb]
    · intro k b hkb; simp [Crypto.withAes, hkb]
    · unfold cbcEncrypt
      rw [if_neg (by simp [hk]), if_neg (by simp [hiv])]
      simp only [hdiv, Res.ok.injEq]
      rw [cbc_blocks _ _ _ _ _ _ hiv hpad hlen]
      intro i hi
      simp only [Crypto.withAes, if_true]
      exact h4 _ (List.mem_map.mpr ⟨i, List.mem_range.mpr hi, rfl⟩)
  · rintro ⟨C', _, h⟩
    unfold cbcEncrypt at h
    rw [if_neg (by simp [hk]), if_neg (by simp [hiv])] at h
    simp only [hdiv, Res.ok.injEq] at h
    have hlen : body.length = 16 * (q.length / 16 + 1) := by rw [← h]; exact cbcEncBlocks_length _ _ _ _ _ hiv hpad
    rw [cbc_blocks _ _ _ _ _ _ hiv hpad hlen] at h
    refine ⟨hlen, ?_⟩
    intro i j hi hj
    have hn : body.length / 16 = q.length / 16 + 1 := by rw [hlen]; omega
    rw [hn] at hi hj
    have hx : ∀ i, i < q.length / 16 + 1 → (xorBytes (block (iv ++ body) i) (block (pkcs7pad q) i)).length = 16 := by
      intro i hi
      have e1 := block_length (b := iv ++ body) (n := q.length / 16 + 2) (by simp [hiv, hlen]; omega) (show i < q.length / 16 + 2 by omega)
      have e2 := block_length hpad hi
      rw [xorBytes_length _ _ (by omega), e2]
    rw [← h i hi, ← h j hj]
    constructor
    · intro e; rw [e]
    · intro e
      rw [← C'.aes_dec_enc key _ hk (hx i hi), e, C'.aes_dec_enc key _ hk (hx j hj)]

/-! ## The calls see AES only through the ciphertext -/

section
variable {C C' : Crypto} {key : Bytes}

theorem Crypto.SameButAes.messageKeys (h : C.SameButAes C' key) (ck : ChainKey) : ck.messageKeys C' = ck.messageKeys C := by
  unfold ChainKey.messageKeys deriveMessageKeys chainHash
  rw [h.hmac, h.hkdf]

theorem Crypto.SameButAes.next (h : C.SameButAes C' key) (ck : ChainKey) : ck.next C' = ck.next C := by
  unfold ChainKey.next chainHash
  rw [h.hmac]

theorem Crypto.SameButAes.newSignal (h : C.SameButAes C' key) : newSignal C' = newSignal C := by
  unfold Verif.newSignal messageMac
  rw [h.hmac]

theorem Crypto.SameButAes.encryptState (h : C.SameButAes C' key) (s : SState) (p q : Bytes)
    (hb : ∀ ck, s.senderChainKey = .ok ck → cbcEncrypt C' (ck.messageKeys C).cipherKey (ck.messageKeys C).iv q =
      cbcEncrypt C (ck.messageKeys C).cipherKey (ck.messageKeys C).iv p) : encryptState C' s q = encryptState C s p := by
  unfold Verif.encryptState
  cases hs : s.senderChainKey with
  | err e => rfl
  | panic => rfl
  | ok ck => simp only [Res.bind_ok, h.messageKeys, h.next, h.newSignal, hb ck hs]

end

theorem encryptMessage_same (E : Env) (C' : Crypto) (a : Address) (p q : Bytes) (w : World)
    (h : ∀ r s, w.sessions a = some r → r.current = some s → encryptState C' s q = encryptState E.C s p) :
    encryptMessage { E with C := C' } a q w = encryptMessage E a p w := by
  have key : ∀ o : Option Record, o = w.sessions a → ∀ v : World,
      (match o with
        | none => (M.throw (.sessionNotFound a) : M World Ciphertext)
        | some record =>
          match record.current with
          | none => M.throw (.sessionNotFound a)
          | some state => do
            let (msg, state', theirIdentityKey) ← M.lift (encryptState C' state q)
            let record' := record.setSessionState state'
            touch { E with C := C' } a true record'
            let trusted ← isTrusted { E with C := C' } a theirIdentityKey .sending
            if trusted then
              storeIdentity a theirIdentityKey
              storeSession a record'
              return msg
            else M.throw (.untrustedIdentity a)) v =
      (match o with
        | none => (M.throw (.sessionNotFound a) : M World Ciphertext)
        | some record =>
          match record.current with
          | none => M.throw (.sessionNotFound a)
          | some state => do
            let (msg, state', theirIdentityKey) ← M.lift (encryptState E.C state p)
            let record' := record.setSessionState state'
            touch E a true record'
            let trusted ← isTrusted E a theirIdentityKey .sending
            if trusted then
              storeIdentity a theirIdentityKey
              storeSession a record'
              return msg
            else M.throw (.untrustedIdentity a)) v := by
    intro o ho v
    cases o with
    | none => rfl
    | some r =>
      simp only
      cases hs : r.current with
      | none => rfl
      | some s =>
        simp only [h r s ho.symm hs]
        rfl
  unfold encryptMessage
  simp only [M.bind_run (loadSession a)]
  cases hl : loadSession a w with
  | mk res w1 =>
    cases res with
    | err e => rfl
    | panic => rfl
    | ok o =>
      have ho : o = w.sessions a := by
        unfold loadSession storeCall at hl
        split at hl <;> simp at hl <;> exact hl.1.symm
      exact key o ho w1

theorem groupEncrypt_same {C C' : Crypto} {k : Bytes} (h : C.SameButAes C' k) (al : Bool) (a : Address) (dist : DistId) (p q : Bytes) (w : GWorld)
    (hb : ∀ s g, w.records (a, dist) = some (s :: g) → cbcEncrypt C' (s.chainKey.messageKey C).cipherKey (s.chainKey.messageKey C).iv q =
      cbcEncrypt C (s.chainKey.messageKey C).cipherKey (s.chainKey.messageKey C).iv p) :
    groupEncrypt C' al a dist q w = groupEncrypt C al a dist p w := by
  have hmk : ∀ ck : SKChainKey, ck.messageKey C' = ck.messageKey C := by
    intro ck
    unfold SKChainKey.messageKey deriveSKMessageKey chainHash
    rw [h.hmac, h.hkdf]
  have hnx : ∀ ck : SKChainKey, ck.next C' = ck.next C := by
    intro ck
    unfold SKChainKey.next chainHash
    rw [h.hmac]
  have hsk : newSenderKey C' = newSenderKey C := by
    unfold newSenderKey PrivKey.sign
    rw [h.sign]
  unfold groupEncrypt
  simp only [M.bind_run (gLoad (a, dist))]
  cases hl : gLoad (a, dist) w with
  | mk res w1 =>
    cases res with
    | err e => rfl
    | panic => rfl
    | ok o =>
      have ho : o = w.records (a, dist) := by
        unfold gLoad gStoreCall at hl
        split at hl <;> simp at hl <;> exact hl.1.symm
      simp only
      cases o with
      | none => rfl
      | some g =>
        cases g with
        | nil => rfl
        | cons s g =>
          simp only [GRecord.state, hmk, hnx, hsk]
          have := hb s g ho.symm
          simp only [M.bind_run, M.lift_run, this]

end Verif
