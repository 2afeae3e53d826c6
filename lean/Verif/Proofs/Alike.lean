import Verif.Proofs.Sizes
import Verif.Proofs.Ops

/-!
# Two runs side by side
-/

namespace Verif

/-- The two results are of the same kind, with the same error, and their values are related. -/
def Res.Like {α β} (R : α → β → Prop) : Res α → Res β → Prop
  | .ok a, .ok b => R a b
  | .err e, .err f => e = f
  | .panic, .panic => True
  | _, _ => False

theorem Res.Like.bind {α β γ δ} {R : α → β → Prop} {S : γ → δ → Prop} {x : Res α} {y : Res β} {f : α → Res γ} {g : β → Res δ}
    (h : Res.Like R x y) (hf : ∀ a b, R a b → Res.Like S (f a) (g b)) : Res.Like S (x >>= f) (y >>= g) := by
  cases x <;> cases y <;> simp_all [Res.Like]

theorem Res.Like.refl {α} {R : α → α → Prop} (hR : ∀ a, R a a) (x : Res α) : Res.Like R x x := by
  cases x <;> simp [Res.Like, hR]

theorem Res.Like.eq {α} (x : Res α) : Res.Like Eq x x := Res.Like.refl (fun _ => rfl) x

theorem Res.Like.ok {α β} {R : α → β → Prop} {x : Res α} {y : Res β} (h : Res.Like R x y) {a : α} (hx : x = .ok a) : ∃ b, y = .ok b ∧ R a b := by
  subst hx
  cases y <;> simp_all [Res.Like]

theorem Res.Like.of_eq {α} {R : α → α → Prop} (hR : ∀ a, R a a) {x y : Res α} (h : x = y) : Res.Like R x y := h ▸ Res.Like.refl hR x

/-- Two computations with the same effects and related results. -/
def MLike {σ α β} (R : α → β → Prop) (x : M σ α) (y : M σ β) : Prop := ∀ w, (x w).2 = (y w).2 ∧ Res.Like R (x w).1 (y w).1

theorem MLike.refl {σ α} {R : α → α → Prop} (hR : ∀ a, R a a) (x : M σ α) : MLike R x x := fun _ => ⟨rfl, Res.Like.refl hR _⟩
theorem MLike.eq {σ α} (x : M σ α) : MLike Eq x x := MLike.refl (fun _ => rfl) x

theorem MLike.bind {σ α β γ δ} {R : α → β → Prop} {S : γ → δ → Prop} {x : M σ α} {y : M σ β} {f : α → M σ γ} {g : β → M σ δ}
    (h : MLike R x y) (hf : ∀ a b, R a b → MLike S (f a) (g b)) : MLike S (x >>= f) (y >>= g) := by
  intro w
  have h1 := h w
  simp only [M.bind_run]
  generalize x w = u at h1 ⊢
  generalize y w = v at h1 ⊢
  obtain ⟨r, w1⟩ := u
  obtain ⟨r', w1'⟩ := v
  simp only at h1
  obtain ⟨rfl, h2⟩ := h1
  cases r <;> cases r' <;> simp_all [Res.Like]
  exact hf _ _ h2 w1

theorem MLike.lift {σ α β} {R : α → β → Prop} {x : Res α} {y : Res β} (h : Res.Like R x y) :
    MLike (σ := σ) R (M.lift x) (M.lift y) := fun _ => ⟨rfl, h⟩

theorem MLike.pure {σ α β} {R : α → β → Prop} {a : α} {b : β} (h : R a b) : MLike (σ := σ) R (pure a) (pure b) := fun _ => ⟨rfl, h⟩

/-! ## The plaintext influences nothing but the ciphertext -/

/-- What two messages made for two plaintexts have in common. -/
def SameShape (p q : Bytes) (c d : Ciphertext) : Prop :=
  c.position = d.position ∧ (p.length / 16 = q.length / 16 → c.bytes.length = d.bytes.length)

theorem cbcEncrypt_like (C : Crypto) (key iv p q : Bytes) :
    Res.Like (fun c d => p.length / 16 = q.length / 16 → c.length = d.length) (cbcEncrypt C key iv p) (cbcEncrypt C key iv q) := by
  unfold cbcEncrypt
  split
  · simp [Res.Like]
  · split
    · simp [Res.Like]
    · rename_i h2
      have hiv : iv.length = 16 := by simpa using h2
      intro h
      have hp := pkcs7pad_length p
      have hq := pkcs7pad_length q
      rw [cbcEncBlocks_length C key _ iv _ hiv (by omega), cbcEncBlocks_length C key _ iv _ hiv (by omega), hp, hq, h]

theorem newSignal_like (C : Crypto) (v : UInt8) (mk : Bytes) (k : PubKey) (pc c : UInt32) (ct ct' : Bytes) (snd rcv : PubKey) :
    Res.Like (fun m m' => m.senderRatchetKey = m'.senderRatchetKey ∧ m.counter = m'.counter ∧ (ct.length = ct'.length → m.serialized.length = m'.serialized.length))
      (newSignal C v mk k pc c ct snd rcv) (newSignal C v mk k pc c ct' snd rcv) := by
  have h1 : ∀ m, newSignal C v mk k pc c ct snd rcv = .ok m → _ := fun m hm => newSignal_len hm
  have h2 : ∀ m, newSignal C v mk k pc c ct' snd rcv = .ok m → _ := fun m hm => newSignal_len hm
  unfold newSignal messageMac at *
  simp only at *
  split
  · simp [Res.Like]
  · rename_i hmk
    simp only [if_neg hmk, Res.bind_ok, Res.pure_eq, Res.ok.injEq] at h1 h2 ⊢
    refine ⟨rfl, rfl, fun h => ?_⟩
    rw [h1 _ rfl, h2 _ rfl, PBSignal.marshal_len_congr k c pc ct ct' h]

theorem encryptState_like (C : Crypto) (s : SState) (p q : Bytes) :
    Res.Like (fun x y => SameShape p q x.1 y.1 ∧ x.2 = y.2) (encryptState C s p) (encryptState C s q) := by
  unfold encryptState
  refine (Res.Like.eq _).bind ?_
  rintro ck _ rfl
  simp only
  refine (Res.Like.eq _).bind ?_
  rintro eph _ rfl
  refine (Res.Like.eq _).bind ?_
  rintro lk _ rfl
  refine (Res.Like.eq _).bind ?_
  rintro rk _ rfl
  cases rk with
  | none => simp [Res.Like]
  | some rk =>
    simp only
    refine (cbcEncrypt_like C _ _ p q).bind ?_
    intro ct ct' hct
    refine (newSignal_like C _ _ _ _ _ ct ct' _ _).bind ?_
    rintro m m' ⟨h1, h2, h3⟩
    refine (Res.Like.eq _).bind ?_
    rintro items _ rfl
    refine ⟨?_, rfl⟩
    cases items with
    | none => exact ⟨by simp [Ciphertext.position, h1, h2], fun h => h3 (hct h)⟩
    | some u => exact ⟨by simp [Ciphertext.position, newPreKey, h1, h2], fun h => newPreKey_len_congr (h3 (hct h))⟩

theorem encryptMessage_like (E : Env) (a : Address) (p q : Bytes) : MLike (SameShape p q) (encryptMessage E a p) (encryptMessage E a q) := by
  unfold encryptMessage
  refine (MLike.eq _).bind ?_
  rintro o _ rfl
  cases o with
  | none => exact fun w => ⟨rfl, by simp [Res.Like]⟩
  | some r =>
    simp only
    cases r.current with
    | none => exact fun w => ⟨rfl, by simp [Res.Like]⟩
    | some s =>
      simp only
      refine (MLike.lift (encryptState_like E.C s p q)).bind ?_
      rintro ⟨c, s', k⟩ ⟨d, s'', k'⟩ ⟨h1, h2⟩
      simp only [Prod.mk.injEq] at h2
      obtain ⟨rfl, rfl⟩ := h2
      simp only
      refine (MLike.eq _).bind ?_
      rintro _ _ rfl
      refine (MLike.eq _).bind ?_
      rintro tr _ rfl
      cases tr with
      | false => exact fun w => ⟨rfl, by simp [Res.Like]⟩
      | true =>
        simp only [if_true]
        refine (MLike.eq _).bind ?_
        rintro _ _ rfl
        refine (MLike.eq _).bind ?_
        rintro _ _ rfl
        exact MLike.pure h1

theorem newSenderKey_like (C : Crypto) (v : UInt8) (d : DistId) (cid it : UInt32) (ct ct' : Bytes) (k : PrivKey) :
    MLike (fun m m' => m.chainID = m'.chainID ∧ m.iteration = m'.iteration ∧ (ct.length = ct'.length → m.serialized.length = m'.serialized.length))
      (newSenderKey C v d cid it ct k) (newSenderKey C v d cid it ct' k) := by
  unfold newSenderKey PrivKey.sign
  have h : MLike (σ := Bytes) (fun a b : Bytes => a.length = b.length)
      (do let z ← readFull 64; return C.sign k.key z [versionPrefix v :: PBSenderKey.marshal ⟨some d.string, some cid, some it, some ct⟩].flatten)
      (do let z ← readFull 64; return C.sign k.key z [versionPrefix v :: PBSenderKey.marshal ⟨some d.string, some cid, some it, some ct'⟩].flatten) := by
    refine (MLike.eq _).bind ?_
    rintro z _ rfl
    exact MLike.pure (by rw [C.sign_len, C.sign_len])
  refine h.bind ?_
  intro s s' hs
  refine MLike.pure ⟨rfl, rfl, fun hl => ?_⟩
  have := Wire.encField_len_congr 4 ct ct' hl
  simp [PBSenderKey.marshal, Wire.encFields, optLen, optVarint, this, hs]

theorem groupEncrypt_like (C : Crypto) (al : Bool) (a : Address) (d : DistId) (p q : Bytes) :
    MLike (fun m m' => m.chainID = m'.chainID ∧ m.iteration = m'.iteration ∧ (p.length / 16 = q.length / 16 → m.serialized.length = m'.serialized.length))
      (groupEncrypt C al a d p) (groupEncrypt C al a d q) := by
  unfold groupEncrypt
  refine (MLike.eq _).bind ?_
  rintro o _ rfl
  cases o with
  | none => exact fun w => ⟨rfl, by simp [Res.Like]⟩
  | some r =>
    simp only
    refine (MLike.eq _).bind ?_
    rintro st _ rfl
    refine (MLike.lift (cbcEncrypt_like C _ _ p q)).bind ?_
    intro ct ct' hct
    refine (MLike.eq _).bind ?_
    rintro k _ rfl
    have h : MLike (σ := GWorld) (fun m m' : SenderKeyMsg => m.chainID = m'.chainID ∧ m.iteration = m'.iteration ∧ (ct.length = ct'.length → m.serialized.length = m'.serialized.length))
        (gWithRand (newSenderKey C st.version.toUInt8 d st.chainId (st.chainKey.messageKey C).iteration ct k))
        (gWithRand (newSenderKey C st.version.toUInt8 d st.chainId (st.chainKey.messageKey C).iteration ct' k)) := by
      intro w
      have := newSenderKey_like C st.version.toUInt8 d st.chainId (st.chainKey.messageKey C).iteration ct ct' k w.rand
      simp only [gWithRand]
      exact ⟨by rw [this.1], this.2⟩
    refine h.bind ?_
    rintro m m' ⟨h1, h2, h3⟩
    refine (MLike.eq _).bind ?_
    rintro _ _ rfl
    refine (MLike.eq _).bind ?_
    rintro _ _ rfl
    exact MLike.pure ⟨h1, h2, fun h => h3 (hct h)⟩

/-! ## Overhead -/

theorem cbcEncrypt_len {C : Crypto} {key iv p c : Bytes} (h : cbcEncrypt C key iv p = .ok c) : c.length = 16 * (p.length / 16 + 1) := by
  unfold cbcEncrypt at h
  split at h
  · simp at h
  · split at h
    · simp at h
    · rename_i h2
      have hiv : iv.length = 16 := by simpa using h2
      simp only [Res.ok.injEq] at h
      subst h
      have hp := pkcs7pad_length p
      rw [cbcEncBlocks_length C key _ iv _ hiv (by omega)]
      omega

theorem encryptState_size {C : Crypto} {s s' : SState} {p : Bytes} {c : Ciphertext} {k : PubKey} (h : encryptState C s p = .ok (c, s', k))
    (hp : p.length < 2 ^ 34) : p.length < c.bytes.length ∧ c.bytes.length ≤ p.length + 173 := by
  unfold encryptState at h
  simp only [Res.bind_eq_ok] at h
  obtain ⟨ck, h1, eph, h2, lk, h3, rk, h4, h⟩ := h
  cases rk with
  | none => simp at h
  | some rk =>
    simp only [Res.bind_eq_ok] at h
    obtain ⟨ct, h5, m, h6, items, h7, h⟩ := h
    simp only [Res.pure_eq, Res.ok.injEq, Prod.mk.injEq] at h
    obtain ⟨rfl, _⟩ := h
    have l1 := cbcEncrypt_len h5
    have l2 := newSignal_len h6
    have l3 := PBSignal.marshal_le' eph ck.index s.previousCounter ct (by omega)
    have l4 : ct.length < (PBSignal.marshal { ratchetKey := some eph.bytes, counter := some ck.index, previousCounter := some s.previousCounter, ciphertext := some ct }).length + 1 := by
      simp only [PBSignal.marshal, Wire.encFields, optLen, optVarint, List.cons_append, List.nil_append, List.map_cons, List.map_nil,
        List.flatten_cons, List.flatten_nil, List.length_append, List.length_nil]
      simp only [Wire.encField, List.length_append]
      omega
    cases items with
    | none =>
      simp only [Ciphertext.bytes]
      omega
    | some u =>
      simp only [Ciphertext.bytes]
      have l5 := newPreKey_le (v := s.version.toUInt8) (r := s.localRegistrationId) (pid := u.preKeyID) (sid := u.signedPreKeyID) (b := u.baseKey) (i := lk) (m := m) (by omega)
      have l6 : m.serialized.length < (newPreKey s.version.toUInt8 s.localRegistrationId u.preKeyID u.signedPreKeyID u.baseKey lk m).serialized.length := by
        simp only [newPreKey, PBPreKey.marshal, encFields_append, List.length_append, List.length_cons]
        have : m.serialized.length ≤ (Wire.encFields (optLen 4 (some m.serialized))).length := by
          simp only [Wire.encFields, optLen, List.map_cons, List.map_nil, List.flatten_cons, List.flatten_nil, List.append_nil, Wire.encField, List.length_append]
          omega
        omega
      omega

theorem groupEncrypt_size {C : Crypto} {al : Bool} {a : Address} {d : DistId} {p : Bytes} {w : GWorld} {m : SenderKeyMsg}
    (h : (groupEncrypt C al a d p w).1 = .ok m) (hp : p.length < 2 ^ 34) :
    p.length < m.serialized.length ∧ m.serialized.length ≤ p.length + 137 := by
  have ho := groupEncrypt_outcome C al a d p w
  generalize groupEncrypt C al a d p w = x at h ho
  obtain ⟨r, w'⟩ := x
  simp only at h ho
  subst h
  cases ho with
  | early _ _ _ hr => simp [Res.Bad] at hr
  | stopped _ _ hr => simp [Res.Bad] at hr
  | done fs s rest sk _ rd hb =>
    obtain ⟨ct, h1, h2⟩ := hb.built
    have l1 := cbcEncrypt_len h1
    unfold newSenderKey PrivKey.sign at h2
    simp only [M.bind_eq_ok] at h2
    obtain ⟨sig, r1, ⟨z, r2, _, h3⟩, h4⟩ := h2
    simp only [M.pure_run, Prod.mk.injEq, Res.ok.injEq] at h3 h4
    obtain ⟨rfl, rfl⟩ := h3
    obtain ⟨rfl, rfl⟩ := h4
    have f1 := lenField_le 1 d.string 0 (by omega) (by rw [DistId.string_length]; decide)
    have f2 := varintField_le 2 s.chainId (by omega)
    have f3 := varintField_le 3 s.chainKey.iteration (by omega)
    have f4 := lenField_le 4 ct 4 (by omega) (by omega)
    have f5 : ct.length < (Wire.encField ⟨4, .len ct⟩).length + 1 := by
      simp only [Wire.encField, List.length_append]; omega
    rw [DistId.string_length] at f1
    simp only [PBSenderKey.marshal, Wire.encFields, optLen, optVarint, List.cons_append, List.nil_append, List.map_cons, List.map_nil,
      List.flatten_cons, List.flatten_nil, List.length_append, List.length_nil, List.length_cons, C.sign_len]
    omega

end Verif
