import Verif.Spec.Transcript
import Verif.Proofs.Guessing
import Verif.Proofs.History
import Verif.Proofs.Steps
import Verif.Proofs.Openness
import Verif.Props.Content

/-!
# Helper lemmas for C119
-/

namespace Verif

open Doc

/-! ## Other permutations under many keys -/

/-- The primitives with another AES. -/
def Crypto.otherAes (C : Crypto) (f g : Bytes → Bytes → Bytes) (h1 : ∀ k b, b.length = 16 → (f k b).length = 16)
    (h2 : ∀ k b, b.length = 16 → (g k b).length = 16) (h3 : ∀ k b, aesKeyOk k = true → b.length = 16 → g k (f k b) = b) : Crypto :=
  { C with aesEnc := f, aesDec := g, aesEnc_len := h1, aesDec_len := h2, aes_dec_enc := h3 }

theorem Crypto.SameButAesOn.eq {C C' : Crypto} {K : Bytes → Prop} (h : C.SameButAesOn C' K) :
    ∃ f g h1 h2 h3, C' = C.otherAes f g h1 h2 h3 := by
  refine ⟨C'.aesEnc, C'.aesDec, C'.aesEnc_len, C'.aesDec_len, C'.aes_dec_enc, ?_⟩
  obtain ⟨e1, e2, e3, e4, e5, e6, e7, _, _⟩ := h
  cases C; cases C'
  simp only at e1 e2 e3 e4 e5 e6 e7
  subst e1 e2 e3 e4 e5 e6 e7
  rfl

theorem cbcEncBlocks_same {C C' : Crypto} {k : Bytes} (h : ∀ b, C'.aesEnc k b = C.aesEnc k b) (n : Nat) : ∀ iv p : Bytes,
    cbcEncBlocks C' k n iv p = cbcEncBlocks C k n iv p := by
  induction n with
  | zero => exact fun _ _ => rfl
  | succ n ih => intro iv p; simp only [cbcEncBlocks, ih, h]

theorem cbcDecBlocks_same {C C' : Crypto} {k : Bytes} (h : ∀ b, C'.aesDec k b = C.aesDec k b) (n : Nat) : ∀ iv p : Bytes,
    cbcDecBlocks C' k n iv p = cbcDecBlocks C k n iv p := by
  induction n with
  | zero => exact fun _ _ => rfl
  | succ n ih => intro iv p; simp only [cbcDecBlocks, ih, h]

/-- The other contents fit all at once. -/
theorem Sendings.opening {C : Crypto} (L : List Sent) (h : Sendings C L) :
    ∃ C' : Crypto, C.SameButAesOn C' (KeyOf L) ∧ ∀ e ∈ L, cbcEncrypt C' e.key e.iv e.new = .ok e.body := by
  induction L with
  | nil => exact ⟨C, ⟨rfl, rfl, rfl, rfl, rfl, rfl, rfl, fun _ _ _ => rfl, fun _ _ _ => rfl⟩, by simp⟩
  | cons e L ih =>
    obtain ⟨C1, h1, h2⟩ := ih ⟨fun x hx => h.made x (List.mem_cons_of_mem _ hx), fun x hx => h.fits x (List.mem_cons_of_mem _ hx),
      fun x hx y hy => h.once x (List.mem_cons_of_mem _ hx) y (List.mem_cons_of_mem _ hy)⟩
    have hm := h.made e (List.mem_cons_self ..)
    have hok : aesKeyOk e.key = true ∧ e.iv.length = 16 := by
      unfold cbcEncrypt at hm
      split at hm
      · simp at hm
      · rename_i hk
        split at hm
        · simp at hm
        · rename_i hi
          exact ⟨by simpa using hk, Decidable.of_not_not hi⟩
    obtain ⟨C2, g1, g2⟩ := (fits_iff C1 e.key e.iv e.body e.new hok.1 hok.2).mp (h.fits e (List.mem_cons_self ..))
    refine ⟨C2, ⟨g1.hmac.trans h1.hmac, g1.hkdf.trans h1.hkdf, g1.sha512.trans h1.sha512, g1.pub.trans h1.pub, g1.dh.trans h1.dh,
      g1.sign.trans h1.sign, g1.verify.trans h1.verify, ?_, ?_⟩, ?_⟩
    · intro k b hk
      rw [g1.enc k b fun hh => hk ⟨e, List.mem_cons_self .., hh.symm⟩, h1.enc k b fun ⟨x, hx, hh⟩ => hk ⟨x, List.mem_cons_of_mem _ hx, hh⟩]
    · intro k b hk
      rw [g1.dec k b fun hh => hk ⟨e, List.mem_cons_self .., hh.symm⟩, h1.dec k b fun ⟨x, hx, hh⟩ => hk ⟨x, List.mem_cons_of_mem _ hx, hh⟩]
    · intro x hx
      by_cases hkey : x.key = e.key
      · rw [h.once x hx e (List.mem_cons_self ..) hkey]
        exact g2
      · rcases List.mem_cons.mp hx with rfl | hx'
        · exact absurd rfl hkey
        · rw [← h2 x hx']
          unfold cbcEncrypt
          simp only [cbcEncBlocks_same (g1.enc x.key · hkey)]

/-! ## What does not use AES -/

section
variable {C : Crypto} {f g : Bytes → Bytes → Bytes} {h1 : ∀ k b, b.length = 16 → (f k b).length = 16}
  {h2 : ∀ k b, b.length = 16 → (g k b).length = 16} {h3 : ∀ k b, aesKeyOk k = true → b.length = 16 → g k (f k b) = b}

theorem otherAes_skipLoop (k : PubKey) (n : UInt32) (fuel : Nat) : ∀ (ck : ChainKey) (s : SState),
    skipLoop (C.otherAes f g h1 h2 h3) k n fuel ck s = skipLoop C k n fuel ck s := by
  induction fuel with
  | zero => exact fun _ _ => rfl
  | succ fuel ih =>
    intro ck s
    simp only [Verif.skipLoop, ih]
    rfl

theorem otherAes_messageKeysFor (s : SState) (k : PubKey) (ck : ChainKey) (n : UInt32) :
    messageKeysFor (C.otherAes f g h1 h2 h3) s k ck n = messageKeysFor C s k ck n := by
  simp only [Verif.messageKeysFor, otherAes_skipLoop]
  rfl

end

/-! ## Secret bytes -/

/-- The message keys that a state finds are secret bytes of the state. -/
theorem keys_secrets {C : Crypto} {s s1 s2 : SState} {m : Signal} {rd rd' : Bytes} {ckx : ChainKey} {mk : MessageKeys} (h : s.WF)
    (h10 : chainKeyFor C s m.senderRatchetKey rd = (.ok (ckx, s1), rd'))
    (h20 : messageKeysFor C s1 m.senderRatchetKey ckx m.counter = .ok (mk, s2)) :
    ∃ sec, s.Secrets C m.senderRatchetKey m.counter sec ∧ mk.cipherKey = sec.take 32 ∧ mk.macKey = (sec.drop 32).take 32 ∧
      mk.iv = sec.drop 64 ∧ mk.macKey.length = 32 := by
  obtain ⟨hw1, hck0⟩ := h.chainKeyFor h10
  obtain ⟨i, c, c', hc, hck, htk, _⟩ := messageKeysFor_taken hw1 hck0 h20
  obtain ⟨hmem, hkey⟩ : c ∈ s1.receiverChains ∧ c.senderRatchetKey = m.senderRatchetKey.bytes := ⟨SState.receiverChain_mem hc, (SState.receiverChain_some hc).2⟩
  have hcw := hw1.chainWF c hmem
  obtain ⟨hl, hr, _⟩ := h.chainKeyFor_ids h10
  obtain ⟨hpos, hcase⟩ := messageKeysFor_cases (C := C) hw1 m.counter hck0
  have hjump : ¬ (ckx.index.toNat + 25000 < m.counter.toNat ∧ ¬ s.WithSelf) := by
    have hself : s1.WithSelf ↔ s.WithSelf := by unfold SState.WithSelf; rw [hl, hr]
    rw [hpos, hself] at hcase
    rcases hcase with ⟨_, _, hx⟩ | ⟨_, hx⟩ | ⟨hx, _⟩
    · rw [h20] at hx; simp at hx
    · rw [h20] at hx; simp at hx
    · exact hx
  have split : ∀ n, ((chainIter C ckx n).messageKeys C).cipherKey = (messageSecrets C ckx.key n).take 32 ∧
      ((chainIter C ckx n).messageKeys C).macKey = ((messageSecrets C ckx.key n).drop 32).take 32 ∧
      ((chainIter C ckx n).messageKeys C).iv = (messageSecrets C ckx.key n).drop 64 ∧ ((chainIter C ckx n).messageKeys C).macKey.length = 32 := by
    intro n
    have e := messageKeys_eq C ckx n
    simp only at e
    exact ⟨by rw [e], by rw [e], by rw [e], (messageKeys_lengths C _).2.1⟩
  rcases chainKeyFor_ok h10 with ⟨_, rfl, _⟩ | ⟨hnone, root, ours, rRoot, kp, sRoot, sCk, cur, hroot, hours, hcr, _, _, _, rfl⟩
  · cases htk with
    | stored hlt _ hn hmk =>
      obtain ⟨l1, l2, l3⟩ := hcw.sizes _ hmk
      refine ⟨_, .stored c _ hmem hkey hmk hn, ?_, ?_, ?_, l2⟩
      · rw [List.append_assoc, List.take_left' l1]; rfl
      · rw [List.append_assoc, List.drop_left' l1, List.take_left' l2]; rfl
      · rw [List.drop_left' (by rw [List.length_append, l1, l2])]; rfl
    | ahead hle =>
      refine ⟨_, .ahead c _ hmem hkey hck hle ?_, split _⟩
      simp only [ChainKey.toPB]
      rcases Classical.em (s1.WithSelf) with hs | hs
      · exact .inr hs
      · exact .inl (Nat.le_of_not_lt fun hx => hjump ⟨hx, hs⟩)
  · have hno := h.receiverChainKey_none hnone
    obtain ⟨_, _, hzero⟩ := RootKey.createChain_ok hcr
    have hz : ckx.index.toNat = 0 := by rw [hzero]; rfl
    cases htk with
    | stored hlt => omega
    | ahead hle =>
      obtain ⟨sc, hsc, hsw⟩ := h.sender
      obtain ⟨o', ho'⟩ := hsw.priv
      have hoo : ours = o' := by
        simp only [SState.senderRatchetPrivateKey, hsc, ho', newPrivateKey_bytes, Res.ok.injEq] at hours
        exact hours.symm
      subst hoo
      have hroot' : root.key = s.rootKey := by
        simp only [SState.getRootKey, newRootKey, h.root, ne_eq, not_true_eq_false, if_false, Res.ok.injEq] at hroot
        rw [← hroot]
      rw [createChain_eq] at hcr
      cases hdh : C.dh ours.key m.senderRatchetKey.keyBytes with
      | none => simp [PrivKey.agreement, hdh, Res.ofOption] at hcr
      | some d =>
        simp only [PrivKey.agreement, hdh, Res.ofOption, Res.bind_ok, Res.ok.injEq, Prod.mk.injEq] at hcr
        have hchain : ckx.key = (derive C d s.rootKey (ascii "WhisperRatchet")).chain := by
          rw [← hcr.2, ← ascii_root, hroot']
          rfl
        have hs := split (m.counter.toNat - ckx.index.toNat)
        rw [hz, Nat.sub_zero, hchain] at hs
        rw [hz, Nat.sub_zero]
        refine ⟨_, .ratchet (fun x hx => SState.findChain_none.mp hno x hx) sc hsc ours ho' d hdh ?_, hs⟩
        rcases Classical.em (s.WithSelf) with hs | hs
        · exact .inr hs
        · exact .inl (Nat.le_of_not_lt fun hx => hjump ⟨by omega, hs⟩)

/-! ## Reading -/

/-- What one state must satisfy for a message. -/
def SState.GenuineFor (C : Crypto) (L : List Sent) (s : SState) (m : Signal) : Prop :=
  ∀ sender receiver secrets, s.remoteIdentityPublic = wireKey sender → s.localIdentityPublic = wireKey receiver →
    s.Secrets C m.senderRatchetKey m.counter secrets → m.RightMac C secrets sender receiver →
    ∀ e ∈ L, e.key = secrets.take 32 → e.iv = secrets.drop 64 ∧ e.body = m.ciphertext

/-- Two results are the same, or they carry the two contents of a message in the list. -/
def Twin (L : List Sent) (body : Bytes) {α β : Type} (pack : Bytes → α → β) (x y : Res β) : Prop :=
  y = x ∨ ∃ e ∈ L, e.body = body ∧ ∃ a, x = .ok (pack e.old a) ∧ y = .ok (pack e.new a)

section
variable {C C' : Crypto} {L : List Sent} (hC : C.SameButAesOn C' (KeyOf L)) (hL : Sendings C L)
  (hN : ∀ e ∈ L, cbcEncrypt C' e.key e.iv e.new = .ok e.body)
include hC hL hN

theorem twin_session {s : SState} (hs : s.WF) {m : Signal} (hg : s.GenuineFor C L m) (rd : Bytes) :
    (decryptMessageSession C' s m rd).2 = (decryptMessageSession C s m rd).2 ∧
      Twin L m.ciphertext (fun p (t : SState) => (p, t)) (decryptMessageSession C s m rd).1 (decryptMessageSession C' s m rd).1 := by
  have key : ∀ k iv, (¬ KeyOf L k) → cbcDecrypt C' k iv m.ciphertext = cbcDecrypt C k iv m.ciphertext := by
    intro k iv hk
    unfold cbcDecrypt
    simp only [cbcDecBlocks_same (hC.dec k · hk)]
  obtain ⟨f, g, l1, l2, l3, rfl⟩ := hC.eq
  by_cases hc : s.senderChain.isSome
  rotate_left
  · have : s.senderChain = none := by simpa using hc
    unfold decryptMessageSession
    simp only [this]
    exact ⟨trivial, .inl rfl⟩
  by_cases hv : m.version.toUInt32 = s.version
  rotate_left
  · obtain ⟨x, hx⟩ := Option.isSome_iff_exists.mp hc
    unfold decryptMessageSession
    simp only [hx]
    rw [if_pos hv, if_pos hv]
    exact ⟨rfl, .inl rfl⟩
  have hsame : chainKeyFor (C.otherAes f g l1 l2 l3) s m.senderRatchetKey rd = chainKeyFor C s m.senderRatchetKey rd := rfl
  cases hck : chainKeyFor C s m.senderRatchetKey rd with
  | mk res rd' =>
    cases res with
    | err e =>
      obtain ⟨x, hx⟩ := Option.isSome_iff_exists.mp hc
      have run : ∀ D : Crypto, chainKeyFor D s m.senderRatchetKey rd = (.err e, rd') → decryptMessageSession D s m rd = (.err e, rd') := by
        intro D hD
        unfold decryptMessageSession
        simp only [hx]
        rw [if_neg (by simp [hv]), M.bind_run, hD]
      rw [run _ hck, run _ (hsame.trans hck)]
      exact ⟨rfl, .inl rfl⟩
    | panic =>
      obtain ⟨x, hx⟩ := Option.isSome_iff_exists.mp hc
      have run : ∀ D : Crypto, chainKeyFor D s m.senderRatchetKey rd = (.panic, rd') → decryptMessageSession D s m rd = (.panic, rd') := by
        intro D hD
        unfold decryptMessageSession
        simp only [hx]
        rw [if_neg (by simp [hv]), M.bind_run, hD]
      rw [run _ hck, run _ (hsame.trans hck)]
      exact ⟨rfl, .inl rfl⟩
    | ok y =>
      obtain ⟨ck, s1⟩ := y
      rw [decryptMessageSession_split C s m rd hc hv ck s1 rd' hck, decryptMessageSession_split _ s m rd hc hv ck s1 rd' (hsame.trans hck)]
      refine ⟨rfl, ?_⟩
      simp only
      unfold finishDecrypt
      rw [otherAes_messageKeysFor]
      cases hmk : messageKeysFor C s1 m.senderRatchetKey ck m.counter with
      | err e => exact .inl rfl
      | panic => exact .inl rfl
      | ok z =>
        obtain ⟨mk, s2⟩ := z
        obtain ⟨sec, e1, e2, e3, e4, e5⟩ := keys_secrets hs hck hmk
        obtain ⟨hw, hck0⟩ := hs.chainKeyFor hck
        obtain ⟨hl, hr, _⟩ := hs.chainKeyFor_ids hck
        obtain ⟨i, c, c', _, _, _, rfl⟩ := messageKeysFor_taken hw hck0 hmk
        obtain ⟨lk, hlk⟩ := hs.localId
        obtain ⟨rk, hrk⟩ := hs.remoteId
        simp only [Res.bind_ok]
        rw [SState.remoteIdentityKey_bytes (k := rk) (by exact hr.trans hrk)]
        simp only [Res.bind_ok]
        rw [SState.localIdentityKey_bytes (k := lk) (by exact hl.trans hlk)]
        simp only [Res.bind_ok]
        have hmac : m.verifyMAC (C.otherAes f g l1 l2 l3) mk.macKey rk lk = m.verifyMAC C mk.macKey rk lk := rfl
        rw [hmac]
        cases hva : m.verifyMAC C mk.macKey rk lk with
        | err e => exact .inl rfl
        | panic => exact .inl rfl
        | ok b =>
          cases b with
          | false => exact .inl rfl
          | true =>
            simp only [Res.bind_ok, if_true]
            by_cases hk : KeyOf L mk.cipherKey
            · obtain ⟨e, he, hek⟩ := hk
              have hm := (verifyMAC_iff C e5 rk lk m).mp hva
              rw [e3] at hm
              obtain ⟨k1, k2⟩ := hg rk lk sec hrk hlk e1 hm e he (by rw [hek, e2])
              have hiv : mk.iv = e.iv := by rw [e4, k1]
              rw [← hek, hiv, ← k2, cbcDecrypt_cbcEncrypt _ _ _ _ _ (hL.made e he), cbcDecrypt_cbcEncrypt _ _ _ _ _ (hN e he)]
              exact .inr ⟨e, he, rfl, _, rfl, rfl⟩
            · rw [key _ _ hk]
              exact .inl rfl


theorem twin_previous {m : Signal} (l : List SState) : ∀ (i : Nat) (o o' : Option (Nat × SState × Bytes)) (rd : Bytes),
    (∀ s ∈ l, s.WF ∧ s.GenuineFor C L m) →
    (o' = o ∨ ∃ e ∈ L, e.body = m.ciphertext ∧ ∃ j t, o = some (j, t, e.old) ∧ o' = some (j, t, e.new)) →
    (tryPrevious C' m l i o' rd).2 = (tryPrevious C m l i o rd).2 ∧
      ((tryPrevious C' m l i o' rd).1 = (tryPrevious C m l i o rd).1 ∨ ∃ e ∈ L, e.body = m.ciphertext ∧
        ∃ j t, (tryPrevious C m l i o rd).1 = .ok (some (j, t, e.old)) ∧ (tryPrevious C' m l i o' rd).1 = .ok (some (j, t, e.new))) := by
  induction l with
  | nil =>
    intro i o o' rd _ ho
    refine ⟨rfl, ?_⟩
    rcases ho with rfl | ⟨e, he, hb, j, t, rfl, rfl⟩
    · exact .inl rfl
    · exact .inr ⟨e, he, hb, j, t, rfl, rfl⟩
  | cons s l ih =>
    intro i o o' rd hl ho
    obtain ⟨hw, hg⟩ := hl s (List.mem_cons_self ..)
    have ih' := fun i o o' rd ho => ih i o o' rd (fun t ht => hl t (List.mem_cons_of_mem _ ht)) ho
    obtain ⟨k1, k2⟩ := twin_session hC hL hN hw hg rd
    simp only [tryPrevious, M.bind_run, M.attempt]
    generalize decryptMessageSession C s m rd = x at k1 k2 ⊢
    generalize decryptMessageSession C' s m rd = y at k1 k2 ⊢
    obtain ⟨x1, x2⟩ := x
    obtain ⟨y1, y2⟩ := y
    simp only at k1 k2
    subst k1
    rcases k2 with rfl | ⟨e, he, hb, t, rfl, rfl⟩
    · cases y1 with
      | panic => exact ⟨rfl, .inl rfl⟩
      | ok z => exact ih' _ _ _ _ (.inl rfl)
      | err er =>
        by_cases hd : er = .duplicateMessage
        · subst hd; exact ⟨rfl, .inl rfl⟩
        · cases er <;> first | exact absurd rfl hd | exact ih' _ _ _ _ ho
    · exact ih' _ _ _ _ (.inr ⟨e, he, hb, _, _, rfl, rfl⟩)

theorem twin_decryptPrevious {m : Signal} {r : Record} (hr : r.WF) (hg : ∀ s, r.HasState s → s.GenuineFor C L m) (rd : Bytes) :
    (decryptPrevious C' r m rd).2 = (decryptPrevious C r m rd).2 ∧
      Twin L m.ciphertext (fun p (t : Record) => (p, t)) (decryptPrevious C r m rd).1 (decryptPrevious C' r m rd).1 := by
  obtain ⟨l, hl, _, hp⟩ := hr.states
  have hall : ∀ s ∈ l, s.WF ∧ s.GenuineFor C L m := fun s hs => ⟨hl s hs, hg s ((hr.hasState hp s).mpr (.inr hs))⟩
  obtain ⟨k1, k2⟩ := twin_previous hC hL hN l 0 none none rd hall (.inl rfl)
  unfold decryptPrevious
  simp only [M.bind_run, M.lift_run, hp]
  generalize tryPrevious C m l 0 none rd = x at k1 k2 ⊢
  generalize tryPrevious C' m l 0 none rd = y at k1 k2 ⊢
  obtain ⟨x1, x2⟩ := x
  obtain ⟨y1, y2⟩ := y
  simp only at k1 k2
  subst k1
  rcases k2 with rfl | ⟨e, he, hb, j, t, rfl, rfl⟩
  · exact ⟨rfl, .inl rfl⟩
  · exact ⟨rfl, .inr ⟨e, he, hb, _, rfl, rfl⟩⟩

theorem twin_record {m : Signal} {r : Record} (hr : r.WF) (hg : ∀ s, r.HasState s → s.GenuineFor C L m) (rd : Bytes) :
    (decryptRecord C' r m rd).2 = (decryptRecord C r m rd).2 ∧
      Twin L m.ciphertext (fun p (t : Record) => (p, t)) (decryptRecord C r m rd).1 (decryptRecord C' r m rd).1 := by
  unfold decryptRecord
  cases hc : r.current with
  | none => exact twin_decryptPrevious hC hL hN hr hg rd
  | some s =>
    simp only
    obtain ⟨k1, k2⟩ := twin_session hC hL hN (hr.current s hc) (hg s (.inl hc)) rd
    simp only [M.bind_run, M.attempt]
    generalize decryptMessageSession C s m rd = x at k1 k2 ⊢
    generalize decryptMessageSession C' s m rd = y at k1 k2 ⊢
    obtain ⟨x1, x2⟩ := x
    obtain ⟨y1, y2⟩ := y
    simp only at k1 k2
    subst k1
    rcases k2 with rfl | ⟨e, he, hb, t, rfl, rfl⟩
    · cases y1 with
      | panic => exact ⟨rfl, .inl rfl⟩
      | ok z => exact ⟨rfl, .inl rfl⟩
      | err er =>
        by_cases hd : er = .duplicateMessage
        · subst hd; exact ⟨rfl, .inl rfl⟩
        · cases er <;> first | exact absurd rfl hd | exact twin_decryptPrevious hC hL hN hr hg _
    · exact ⟨rfl, .inr ⟨e, he, hb, _, rfl, rfl⟩⟩

end

/-! ## The calls -/

/-- What processPreKey returns. -/
theorem processPreKey_ok {E : Env} {a : Address} {m : PreKeyMsg} {w w1 : World} {fs : List Fault} (hfs : ∀ g ∈ fs, g ∈ w.faults)
    {id : Option UInt32} {rec : Record}
    (h : processPreKey E a (w.sessions a).isSome ((w.sessions a).getD {}) m { w with faults := fs } = (.ok (id, rec), w1)) :
    Processed E w ((w.sessions a).getD {}) m id rec := by
  have key := processPreKey_bind (E := E) (a := a) (msg := m) (w0 := w) (w := { w with faults := fs })
    (f := fun x => (pure x : M World (Option UInt32 × Record))) (fun r _ => ∀ x, r = .ok x → Processed E w ((w.sessions a).getD {}) m x.1 x.2)
    ⟨fs, rfl, hfs⟩ (fun r fs hr x hx => absurd hx (hr x)) (fun _ _ _ _ _ _ _ x hx => by cases hx)
    (fun fs id rec _ _ hp w' _ x hx => by
      simp only [M.pure_run, Res.ok.injEq] at hx
      subst hx
      exact hp)
  simp only [M.bind_run, h] at key
  exact key (id, rec) rfl

/-- The states of a record that processPreKey returns may read the message. -/
theorem processed_reader {E : Env} {w : World} (hw : w.WF) {a : Address} {m : PreKeyMsg} {id : Option UInt32} {rec : Record}
    (h1 : Processed E w ((w.sessions a).getD {}) m id rec) {s : SState} (h3 : rec.HasState s) : rec.WF ∧ w.Reader E.C a (.preKey m) s := by
  have hr0 : ((w.sessions a).getD {}).WF := hw.getD a
  refine ⟨h1.WF hr0, ?_⟩
  have back : ((w.sessions a).getD {}).HasState s → w.Reader E.C a (.preKey m) s := by
    intro hs
    cases h : w.sessions a with
    | none =>
      rw [h] at hs
      rcases hs with hs | ⟨b, hb, _⟩
      · simp at hs
      · simp at hb
    | some r =>
      rw [h] at hs
      exact .stored _ r s h hs
  cases h1 with
  | found _ => exact back h3
  | fresh hf signed oneTime s0 hs ho hi s1 hs1 =>
    rcases hr0.promoted_state h3 with rfl | h5
    · refine .fresh m s ?_ (fresh_answers hs ho hi hs1)
      intro r hr hk
      rw [hr] at hf
      simp only [Option.getD_some] at hf
      rcases (hw a r hr).hasSessionState m.version.toUInt32 m.baseKey with ⟨_, h6⟩ | ⟨h6, _⟩
      · rw [h6] at hf; simp at hf
      · exact h6 hk
    · exact back h5

section
variable {E : Env} {C' : Crypto} {L : List Sent} (hC : E.C.SameButAesOn C' (KeyOf L)) (hL : Sendings E.C L)
  (hN : ∀ e ∈ L, cbcEncrypt C' e.key e.iv e.new = .ok e.body)
include hC hL hN

/-- What two calls return, and leave. -/
def TwinCall (L : List Sent) (body : Bytes) {α : Type} (pack : Bytes → α) (x y : Res α × World) : Prop :=
  y.2 = x.2 ∧ (y.1 = x.1 ∨ ∃ e ∈ L, e.body = body ∧ x.1 = .ok (pack e.old) ∧ y.1 = .ok (pack e.new))

omit hC hL hN in
/-- An action and then one of the two contents. -/
theorem twin_return {α : Type} {body : Bytes} {pack : Bytes → α} {e : Sent} (he : e ∈ L) (hb : e.body = body) (act : M World Unit) (w : World) :
    TwinCall L body pack ((act >>= fun _ => pure (pack e.old)) w) ((act >>= fun _ => pure (pack e.new)) w) := by
  simp only [M.bind_run]
  rcases act w with ⟨r, w1⟩
  cases r with
  | err e => exact ⟨rfl, .inl rfl⟩
  | panic => exact ⟨rfl, .inl rfl⟩
  | ok u => exact ⟨rfl, .inr ⟨e, he, hb, rfl, rfl⟩⟩

omit hC hL hN in
/-- A session that is loaded. -/
theorem load_cases (a : Address) (w : World) :
    (∃ fs, (∀ g ∈ fs, g ∈ w.faults) ∧ loadSession a w = (.ok (w.sessions a), { w with faults := fs })) ∨
      ((∀ x, (loadSession a w).1 ≠ .ok x)) := by
  unfold loadSession storeCall
  split
  · exact .inl ⟨w.faults, fun _ h => h, rfl⟩
  · rename_i fs h
    exact .inl ⟨fs, fun g hg => by rw [h]; exact List.mem_cons_of_mem _ hg, rfl⟩
  · exact .inr (fun _ h => by cases h)
  · exact .inr (fun _ h => by cases h)

theorem twin_preKey {a : Address} {m : PreKeyMsg} {w : World} (hw : w.WF) (hg : w.Genuine E.C L a (.preKey m)) :
    TwinCall L m.message.ciphertext id (decryptPreKey E a m w) (decryptPreKey { E with C := C' } a m w) := by
  have hrec : ∀ {r : Record} (rd : Bytes), r.WF → (∀ s, r.HasState s → s.GenuineFor E.C L m.message) → _ :=
    fun rd hr hg => twin_record hC hL hN hr hg rd
  obtain ⟨f, g, l1, l2, l3, hE⟩ := hC.eq
  have hp : ∀ b r, processPreKey { E with C := C' } a b r m = processPreKey E a b r m := by intro b r; rw [hE]; rfl
  unfold decryptPreKey
  rcases load_cases a w with ⟨fs, hfs, hl⟩ | hl
  rotate_left
  · simp only [M.bind_run (loadSession a)]
    generalize loadSession a w = x at hl ⊢
    obtain ⟨r, w1⟩ := x
    cases r with
    | ok x => exact absurd rfl (hl x)
    | err e => exact ⟨rfl, .inl rfl⟩
    | panic => exact ⟨rfl, .inl rfl⟩
  rw [M.bind_ok_run hl, M.bind_ok_run hl]
  simp only [M.bind_run (processPreKey _ _ _ _ _), hp]
  cases hpr : processPreKey E a (w.sessions a).isSome ((w.sessions a).getD {}) m { w with faults := fs } with
  | mk res w1 =>
    cases res with
    | err e => exact ⟨rfl, .inl rfl⟩
    | panic => exact ⟨rfl, .inl rfl⟩
    | ok y =>
      obtain ⟨oid, rec⟩ := y
      have hproc := processPreKey_ok hfs hpr
      have hwf : rec.WF := hproc.WF (hw.getD a)
      obtain ⟨k1, k2⟩ := hrec w1.rand hwf fun s hs snd rcv sec x1 x2 x3 x4 => hg m.message s snd rcv sec rfl (processed_reader hw hproc hs).2 x1 x2 x3 x4
      simp only [M.bind_run (withRand _), withRand]
      generalize decryptRecord E.C rec m.message w1.rand = x at k1 k2 ⊢
      generalize decryptRecord C' rec m.message w1.rand = y at k1 k2 ⊢
      obtain ⟨x1, x2⟩ := x
      obtain ⟨y1, y2⟩ := y
      simp only at k1 k2
      subst k1
      rcases k2 with rfl | ⟨e, he, hb, t, rfl, rfl⟩
      · exact ⟨rfl, .inl rfl⟩
      · cases oid with
        | none =>
          have := twin_return (L := L) (pack := id) he hb (do touch E a (w.sessions a).isSome t; storeSession a t) { w1 with rand := y2 }
          rw [bind_assoc_run, bind_assoc_run] at this
          exact this
        | some i =>
          have := twin_return (L := L) (pack := id) he hb ((touch E a (w.sessions a).isSome t >>= fun _ => storeSession a t) >>= fun _ => deletePreKey i) { w1 with rand := y2 }
          rw [bind_assoc_run, bind_assoc_run, bind_assoc_run, bind_assoc_run] at this
          exact this

theorem twin_signal {a : Address} {m : Signal} {w : World} (hw : w.WF) (hg : w.Genuine E.C L a (.signal m)) :
    TwinCall L m.ciphertext some (decryptSignal E a m w) (decryptSignal { E with C := C' } a m w) := by
  unfold decryptSignal
  rcases load_cases a w with ⟨fs, hfs, hl⟩ | hl
  rotate_left
  · simp only [M.bind_run (loadSession a)]
    generalize loadSession a w = x at hl ⊢
    obtain ⟨r, w1⟩ := x
    cases r with
    | ok x => exact absurd rfl (hl x)
    | err e => exact ⟨rfl, .inl rfl⟩
    | panic => exact ⟨rfl, .inl rfl⟩
  rw [M.bind_ok_run hl, M.bind_ok_run hl]
  cases hr : w.sessions a with
  | none => exact ⟨rfl, .inl rfl⟩
  | some rec =>
    obtain ⟨k1, k2⟩ := twin_record hC hL hN (m := m) (hw a rec hr) (fun s hs snd rcv sec x1 x2 x3 x4 => hg m s snd rcv sec rfl (.stored _ rec s hr hs) x1 x2 x3 x4) w.rand
    simp only [M.bind_run (M.attempt _), M.attempt, withRand]
    generalize decryptRecord E.C rec m w.rand = x at k1 k2 ⊢
    generalize decryptRecord C' rec m w.rand = y at k1 k2 ⊢
    obtain ⟨x1, x2⟩ := x
    obtain ⟨y1, y2⟩ := y
    simp only at k1 k2
    subst k1
    rcases k2 with rfl | ⟨e, he, hb, t, rfl, rfl⟩
    · exact ⟨rfl, .inl rfl⟩
    · simp only [M.bind_run (touch _ _ _ _)]
      have ht : touch { E with C := C' } a true t = touch E a true t := rfl
      rw [ht]
      rcases touch E a true t { w with faults := fs, rand := y2 } with ⟨r1, w1⟩
      cases r1 with
      | err e => exact ⟨rfl, .inl rfl⟩
      | panic => exact ⟨rfl, .inl rfl⟩
      | ok u =>
        simp only
        cases t.current with
        | none => exact ⟨rfl, .inl rfl⟩
        | some st =>
          simp only
          cases st.remoteIdentityKey with
          | err e => exact ⟨rfl, .inl rfl⟩
          | panic => exact ⟨rfl, .inl rfl⟩
          | ok o =>
            cases o with
            | none => exact ⟨rfl, .inl rfl⟩
            | some k =>
              simp only [M.bind_run (isTrusted _ _ _ _)]
              have hi : isTrusted { E with C := C' } a k .receiving = isTrusted E a k .receiving := rfl
              rw [hi]
              rcases isTrusted E a k .receiving w1 with ⟨r2, w2⟩
              cases r2 with
              | err e => exact ⟨rfl, .inl rfl⟩
              | panic => exact ⟨rfl, .inl rfl⟩
              | ok b =>
                cases b with
                | false => exact ⟨rfl, .inl rfl⟩
                | true =>
                  have := twin_return (L := L) (pack := some) he hb (do storeIdentity a k; storeSession a t) w2
                  rw [bind_assoc_run, bind_assoc_run] at this
                  exact this

theorem twin_decrypt {a : Address} {x : Ciphertext} {w : World} (hw : w.WF) (hg : w.Genuine E.C L a x) :
    (decryptMessage { E with C := C' } a x w).2 = (decryptMessage E a x w).2 ∧
      ((decryptMessage { E with C := C' } a x w).1 = (decryptMessage E a x w).1 ∨ ∃ m, ∃ e ∈ L, x.inner = some m ∧ m.ciphertext = e.body ∧
        (decryptMessage E a x w).1 = .ok (some e.old) ∧ (decryptMessage { E with C := C' } a x w).1 = .ok (some e.new)) := by
  cases x with
  | senderKey y => exact ⟨rfl, .inl rfl⟩
  | plaintext y => exact ⟨rfl, .inl rfl⟩
  | signal m =>
    obtain ⟨k1, k2⟩ := twin_signal hC hL hN hw hg
    refine ⟨k1, ?_⟩
    rcases k2 with k2 | ⟨e, he, hb, h1, h2⟩
    · exact .inl k2
    · exact .inr ⟨m, e, he, rfl, hb.symm, h1, h2⟩
  | preKey m =>
    obtain ⟨k1, k2⟩ := twin_preKey hC hL hN hw hg
    simp only [decryptMessage, M.bind_run]
    generalize decryptPreKey E a m w = x at k1 k2 ⊢
    generalize decryptPreKey { E with C := C' } a m w = y at k1 k2 ⊢
    obtain ⟨x1, x2⟩ := x
    obtain ⟨y1, y2⟩ := y
    simp only at k1 k2
    subst k1
    rcases k2 with rfl | ⟨e, he, hb, rfl, rfl⟩
    · exact ⟨rfl, .inl rfl⟩
    · exact ⟨rfl, .inr ⟨m.message, e, he, rfl, hb.symm, rfl, rfl⟩⟩

omit hL in
theorem twin_encryptState (s : SState) (p q : Bytes) :
    (∃ c c' s' k, encryptState E.C s p = .ok (c, s', k) ∧ encryptState C' s q = .ok (c', s', k) ∧
      ((∀ m, c.inner = some m → ⟨(messageSecrets E.C s.senderKey 0).take 32, (messageSecrets E.C s.senderKey 0).drop 64, m.ciphertext, p, q⟩ ∈ L) → c' = c)) ∨
    ((∀ x, encryptState E.C s p ≠ .ok x) ∧ encryptState C' s q = encryptState E.C s p) := by
  have hnew : ∀ ck : ChainKey, s.senderChainKey = .ok ck → ∀ ct, ⟨(messageSecrets E.C s.senderKey 0).take 32, (messageSecrets E.C s.senderKey 0).drop 64, ct, p, q⟩ ∈ L →
      cbcEncrypt C' (ck.messageKeys E.C).cipherKey (ck.messageKeys E.C).iv q = .ok ct := by
    intro ck hck ct hin
    have := hN _ hin
    have hmk := messageKeys_eq E.C ck 0
    simp only [chainIter, senderChainKey_key hck] at hmk
    rw [hmk]
    exact this
  obtain ⟨f, g, l1, l2, l3, rfl⟩ := hC.eq
  have hmk : ∀ ck : ChainKey, ck.messageKeys (E.C.otherAes f g l1 l2 l3) = ck.messageKeys E.C := fun _ => rfl
  have hnx : ∀ ck : ChainKey, ck.next (E.C.otherAes f g l1 l2 l3) = ck.next E.C := fun _ => rfl
  have hns : newSignal (E.C.otherAes f g l1 l2 l3) = newSignal E.C := rfl
  unfold Verif.encryptState
  cases hck : s.senderChainKey with
  | err e => exact .inr ⟨fun _ h => (by cases h), rfl⟩
  | panic => exact .inr ⟨fun _ h => (by cases h), rfl⟩
  | ok ck =>
    simp only [Res.bind_ok, hmk, hnx, hns]
    cases s.senderRatchetKey with
    | err e => exact .inr ⟨fun _ h => (by cases h), rfl⟩
    | panic => exact .inr ⟨fun _ h => (by cases h), rfl⟩
    | ok rk =>
      simp only [Res.bind_ok]
      cases s.localIdentityKey with
      | err e => exact .inr ⟨fun _ h => (by cases h), rfl⟩
      | panic => exact .inr ⟨fun _ h => (by cases h), rfl⟩
      | ok lk =>
        simp only [Res.bind_ok]
        cases s.remoteIdentityKey with
        | err e => exact .inr ⟨fun _ h => (by cases h), rfl⟩
        | panic => exact .inr ⟨fun _ h => (by cases h), rfl⟩
        | ok o =>
          cases o with
          | none => exact .inr ⟨fun _ h => (by cases h), rfl⟩
          | some tk =>
            simp only [Res.bind_ok]
            obtain ⟨ct, e1, _⟩ := cbcEncrypt_ok E.C (ck.messageKeys E.C).cipherKey (ck.messageKeys E.C).iv p
              (aesKeyOk_32 (messageKeys_cipherKey_len _ _)) (messageKeys_iv_len _ _)
            obtain ⟨ct', e2, _⟩ := cbcEncrypt_ok (E.C.otherAes f g l1 l2 l3) (ck.messageKeys E.C).cipherKey (ck.messageKeys E.C).iv q
              (aesKeyOk_32 (messageKeys_cipherKey_len _ _)) (messageKeys_iv_len _ _)
            rw [e1, e2]
            simp only [Res.bind_ok]
            have hmake : ∀ x, ∃ m, newSignal E.C s.version.toUInt8 (ck.messageKeys E.C).macKey rk s.previousCounter ck.index x lk tk = .ok m ∧
                m.ciphertext = x := by
              intro x
              unfold newSignal messageMac
              simp only [messageKeys_macKey_len, ne_eq, not_true_eq_false, if_false, Res.bind_ok]
              exact ⟨_, rfl, rfl⟩
            obtain ⟨m, g1, g2⟩ := hmake ct
            obtain ⟨m', g3, g4⟩ := hmake ct'
            rw [g1, g3]
            simp only [Res.bind_ok]
            have heq : ⟨(messageSecrets E.C s.senderKey 0).take 32, (messageSecrets E.C s.senderKey 0).drop 64, m.ciphertext, p, q⟩ ∈ L → m' = m := by
              intro hin
              rw [g2] at hin
              have := hnew ck hck ct hin
              rw [e2] at this
              simp only [Res.ok.injEq] at this
              subst this
              rw [g1] at g3
              simp only [Res.ok.injEq] at g3
              exact g3.symm
            cases s.unacknowledgedPreKeyMessages with
            | err e => exact .inr ⟨fun _ h => (by cases h), rfl⟩
            | panic => exact .inr ⟨fun _ h => (by cases h), rfl⟩
            | ok u =>
              left
              cases u with
              | none =>
                refine ⟨_, _, _, _, rfl, rfl, ?_⟩
                intro hb
                simp only [heq (hb m rfl)]
              | some u =>
                refine ⟨_, _, _, _, rfl, rfl, ?_⟩
                intro hb
                simp only [heq (hb m rfl)]

omit hL in
theorem twin_encrypt {a : Address} {p q : Bytes} {w : World}
    (hs : ∀ x m r s, (encryptMessage E a p w).1 = .ok x → x.inner = some m → w.sessions a = some r → r.current = some s →
      ⟨(messageSecrets E.C s.senderKey 0).take 32, (messageSecrets E.C s.senderKey 0).drop 64, m.ciphertext, p, q⟩ ∈ L) :
    encryptMessage { E with C := C' } a q w = encryptMessage E a p w := by
  have eq : ∀ (F : Env) (p : Bytes), encryptMessage F a p w = (do
      match ← loadSession a with
      | none => M.throw (.sessionNotFound a)
      | some record =>
        match record.current with
        | none => M.throw (.sessionNotFound a)
        | some state => do
          let (msg, state', theirIdentityKey) ← M.lift (Verif.encryptState F.C state p)
          sendRest F a (record.setSessionState state') theirIdentityKey msg) w := fun F p => rfl
  rw [eq] at hs
  rw [eq, eq]
  simp only [M.bind_run (loadSession a)] at hs ⊢
  rcases load_cases a w with ⟨fs, hfs, hl⟩ | hl
  rotate_left
  · generalize loadSession a w = x at hl ⊢
    obtain ⟨r, w1⟩ := x
    cases r with
    | ok x => exact absurd rfl (hl x)
    | err e => rfl
    | panic => rfl
  rw [hl] at hs ⊢
  simp only at hs ⊢
  cases hr : w.sessions a with
  | none => rfl
  | some r =>
    simp only [hr] at hs ⊢
    cases hc : r.current with
    | none => rfl
    | some s =>
      simp only [hc] at hs ⊢
      rcases twin_encryptState hC hN s p q with ⟨c, c', s', k, h1, h2, h3⟩ | ⟨h1, h2⟩
      · rw [h1] at hs
        rw [h1, h2]
        change ∀ x m r0 s0, (sendRest E a (r.setSessionState s') k c { w with faults := fs }).1 = .ok x → x.inner = some m → some r = some r0 →
          r0.current = some s0 → ⟨(messageSecrets E.C s0.senderKey 0).take 32, (messageSecrets E.C s0.senderKey 0).drop 64, m.ciphertext, p, q⟩ ∈ L at hs
        change sendRest { E with C := C' } a (r.setSessionState s') k c' { w with faults := fs } = sendRest E a (r.setSessionState s') k c { w with faults := fs }
        have hE : sendRest { E with C := C' } a (r.setSessionState s') k c' = sendRest E a (r.setSessionState s') k c' := rfl
        rw [hE]
        obtain ⟨g1, g2⟩ := sendRest_other (E := E) a (r.setSessionState s') k c c' { w with faults := fs }
        rcases g2 with ⟨g2, g3⟩ | ⟨g2, g3⟩
        · rw [h3 fun m hm => hs c m r s g2 hm rfl hc]
        · exact Prod.ext g3 g1
      · rw [h2]
        cases he : Verif.encryptState E.C s p with
        | err e => rfl
        | panic => rfl
        | ok x => exact absurd he (h1 x)

theorem twin_call {w : World} (hw : w.WF) {c c' : Call} (h : c.Swapped E L w c') :
    (c'.run { E with C := C' } w).2 = (c.run E w).2 ∧ Out.Alike L c (c.run E w).1 (c'.run { E with C := C' } w).1 := by
  cases h with
  | send a p q rand faults h =>
    have := twin_encrypt hC hN (a := a) (p := p) (q := q) (w := { w with rand := rand, faults := faults }) fun x m r s h1 h2 h3 h4 =>
      h x m r s (by simp only [Call.run, h1, Out.of]) h2 h3 h4
    simp only [Call.run, this]
    exact ⟨trivial, .inl rfl⟩
  | read a x rand faults h =>
    have hg : World.Genuine E.C L { w with rand := rand, faults := faults } a x := by
      intro m s snd rcv sec h1 h2
      refine h m s snd rcv sec h1 ?_
      cases h2 with
      | stored _ r _ x y => exact .stored _ r s x y
      | fresh m' _ x y => exact .fresh m' s x ⟨y.ours, y.theirs, y.fresh, y.keys⟩
    have hw' : World.WF { w with rand := rand, faults := faults } := hw
    obtain ⟨k1, k2⟩ := twin_decrypt hC hL hN hw' hg
    refine ⟨k1, ?_⟩
    rcases k2 with k2 | ⟨m, e, he, h1, h2, h3, h4⟩
    · exact .inl (by simp only [Call.run, k2])
    · exact .inr ⟨a, x, m, e, he, rfl, h1, h2, by simp only [Call.run, h3, Out.of], by simp only [Call.run, h4, Out.of]⟩
  | other _ h1 h2 =>
    obtain ⟨f, g, l1, l2, l3, rfl⟩ := hC.eq
    have : c.run { E with C := E.C.otherAes f g l1 l2 l3 } w = c.run E w := by
      unfold Call.run
      generalize c.op = op at h1 h2 ⊢
      cases op with
      | encrypt a p => exact absurd rfl (h1 a p)
      | decrypt a x => exact absurd rfl (h2 a x)
      | bundle a b => rfl
      | addPreKey id k => rfl
      | addSignedPreKey id k => rfl
    rw [this]
    exact ⟨rfl, .inl rfl⟩

theorem twin_calls {w : World} {cs cs' : List Call} (h : Rewritten E L w cs cs') : w.WF →
    (runCalls { E with C := C' } cs' w).2 = (runCalls E cs w).2 ∧ AllAlike L cs (runCalls E cs w).1 (runCalls { E with C := C' } cs' w).1 := by
  induction h with
  | nil w => exact fun _ => ⟨rfl, .nil⟩
  | cons w c c' cs cs' h hs ih =>
    intro hw
    obtain ⟨k1, k2⟩ := twin_call hC hL hN hw h
    obtain ⟨k3, k4⟩ := ih hw.call
    simp only [runCalls, k1]
    exact ⟨k3, .cons _ _ _ _ _ _ k2 k4⟩

end

end Verif
