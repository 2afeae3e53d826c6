import Verif.Proofs.Guessing
import Verif.Props.Reading

/-!
# C114: forging a message means guessing its MAC
-/

namespace Verif

open Doc Ex

theorem Checks.mac {C : Crypto} {w : World} {a : Address} {c : Ciphertext} {m : Signal} (hm : c.inner = some m) : MacPoints (w.Checks C a c) m.body := by
  rintro k x ⟨m', s, snd, rcv, sec, h1, -, -, -, -, -, rfl⟩
  rw [hm] at h1
  cases h1
  exact ⟨snd, rcv, rfl⟩

/-- **C114**, everybody else. Take the keys and inputs with which the receiver of a message would check it, and give HMAC any other
values there. No user whose calls have not returned a message with this body notices: every call of theirs, in any history, with any
random bytes and store failures, returns and stores the same. They may even have been given wrong guesses of the message: those only
exclude the values that were guessed. -/
theorem C114_nobody_knows (w : World) (a : Address) (c : Ciphertext) (m : Signal) (C : Crypto) (hm : c.inner = some m) (v : Bytes → Bytes → Bytes)
    (hv : ∀ k x, (v k x).length = 32) (E : Env) (hE : E.C = C) (w0 : World) (cs : List Call)
    (hg : OnlyWrongGuesses C (w.Checks C a c) v m.body cs) (hs : NotSent m.body (runCalls E cs w0).1) :
    runCalls { E with C := C.withMac (w.Checks C a c) v hv } cs w0 = runCalls E cs w0 := by
  subst hE
  exact (Checks.mac hm).calls (hv := hv) cs w0 hg hs

/-- **C114**, the receiver. With values of HMAC that do not begin with the last eight bytes of the message, the same call in the same
state does not accept it. -/
theorem C114_other_values_reject (E : Env) (w : World) (hw : Reachable E w) (a : Address) (c : Ciphertext) (m : Signal) (hm : c.inner = some m)
    (v : Bytes → Bytes → Bytes) (hv : ∀ k x, (v k x).length = 32) (ht : ∀ k x, w.Checks E.C a c k x → (v k x).take 8 ≠ m.tag) (p : Bytes) :
    (decryptMessage { E with C := E.C.withMac (w.Checks E.C a c) v hv } a c w).1 ≠ .ok (some p) := by
  intro h
  obtain ⟨m', s, h1, h2, snd, rcv, sec, h3, h4, h5, h6⟩ := delivered_reader hw.WF h
  rw [hm] at h1
  cases h1
  have hP := Checks.mac (C := E.C) (w := w) (a := a) hm
  have h2' : w.Reader E.C a c s := by
    cases h2 with
    | stored _ r _ x y => exact .stored _ r s x y
    | fresh m' _ x y => exact .fresh m' s x ⟨y.ours, y.theirs, y.fresh, y.keys⟩
  have h5' : s.Secrets E.C m.senderRatchetKey m.counter sec := by
    cases h5 with
    | stored c x hc hk hx hn => exact .stored c x hc hk hx hn
    | ahead c ck hc hk hck hn hj =>
      rw [hP.secrets]
      exact .ahead c ck hc hk hck hn hj
    | ratchet hk sc hs ours ho d hd hj =>
      rw [hP.secrets]
      exact .ratchet hk sc hs ours ho d hd hj
  obtain ⟨body, hb⟩ := h6.mac
  have hl : (((E.C.withMac (w.Checks E.C a c) v hv).hmac ((sec.drop 32).take 32) (wireKey snd ++ wireKey rcv ++ body)).take 8).length = 8 := by
    rw [List.length_take, Crypto.hmac_len]; rfl
  have hbody : m.body = body := by
    unfold Signal.body
    rw [hb, List.length_append, hl, Nat.add_sub_cancel, List.take_left]
  have htag : m.tag = ((E.C.withMac (w.Checks E.C a c) v hv).hmac ((sec.drop 32).take 32) (wireKey snd ++ wireKey rcv ++ body)).take 8 := by
    unfold Signal.tag
    rw [hb, List.length_append, hl, Nat.add_sub_cancel, List.drop_left]
  have hc : w.Checks E.C a c ((sec.drop 32).take 32) (wireKey snd ++ wireKey rcv ++ body) :=
    ⟨m, s, snd, rcv, sec, hm, h2', h3, h4, h5', rfl, by rw [hbody]⟩
  rw [withMac_on hc] at htag
  exact ht _ _ hc htag.symm

/-- **C114**. A message whose body the receiver neither sent nor was given before, except in wrong guesses, is accepted only if its
last eight bytes were guessed: for every value of HMAC at the points where the receiver looks that begins with other bytes than these
(and than those guessed before), the receiver's whole history is the same, and ends with the message not being accepted. -/
theorem C114_accepted_by_guess (E : Env) (w0 : World) (h0 : w0.NoSessions) (cs : List Call) (a : Address) (c : Ciphertext) (m : Signal)
    (hm : c.inner = some m) (rand : Bytes) (faults : List Fault) (w : World) (hw : w = { after E cs w0 with rand := rand, faults := faults })
    (v : Bytes → Bytes → Bytes) (hv : ∀ k x, (v k x).length = 32) (hg : OnlyWrongGuesses E.C (w.Checks E.C a c) v m.body cs)
    (hs : NotSent m.body (runCalls E cs w0).1) (ht : ∀ k x, w.Checks E.C a c k x → (v k x).take 8 ≠ m.tag) :
    let E' := { E with C := E.C.withMac (w.Checks E.C a c) v hv }
    (runCalls E' cs w0 = runCalls E cs w0) ∧ w = { after E' cs w0 with rand := rand, faults := faults } ∧
      ∀ p, (decryptMessage E' a c w).1 ≠ .ok (some p) := by
  have h1 := C114_nobody_knows w a c m E.C hm v hv E rfl w0 cs hg hs
  refine ⟨h1, ?_, C114_other_values_reject E w ⟨w0, cs, rand, faults, h0, hw⟩ a c m hm v hv ht⟩
  unfold after at hw ⊢
  rw [h1, ← hw]

/-- Bob receives Alice's first message and answers. -/
def Ex.bobsCalls : List Call := [⟨.decrypt alice m1, randomness 2, []⟩, ⟨.encrypt alice [9], [], []⟩]
def Ex.bobThen : World := { after copying bobsCalls bob0 with rand := randomness 3, faults := [] }

/-- a MAC that does not begin like the one of `m3` -/
def Ex.otherMac : Bytes := match m3 with
  | .signal m => m.tag.map (· ^^^ 1) ++ List.replicate 24 0
  | _ => List.replicate 32 0

/-- the hypotheses are met by Alice's third message, which Bob accepts -/
example : ∃ (hv : ∀ _ _ : Bytes, otherMac.length = 32), (decryptMessage copying alice m3 bobThen).1 = .ok (some [5, 5]) ∧
    (let E' := { copying with C := toy.withMac (bobThen.Checks toy alice m3) (fun _ _ => otherMac) hv }
     runCalls E' bobsCalls bob0 = runCalls copying bobsCalls bob0 ∧ ∀ p, (decryptMessage E' alice m3 bobThen).1 ≠ .ok (some p)) := by
  have hl : otherMac.length = 32 := by decide +kernel
  refine ⟨fun _ _ => hl, by decide +kernel, ?_⟩
  have hx : (match m3, m1, (runCalls copying bobsCalls bob0).1 with
      | .signal m, .preKey k, [.plaintext _ _, .ciphertext _ (.signal r)] => k.message.body != m.body && r.body != m.body && otherMac.take 8 != m.tag
      | _, _, _ => false) = true := by decide +kernel
  have h1 : ∃ m, m3 = .signal m := by
    cases h : m3 with
    | signal m => exact ⟨m, rfl⟩
    | _ => rw [h] at hx; simp at hx
  obtain ⟨m, h1⟩ := h1
  have h2 : ∃ k, m1 = .preKey k := by
    rw [h1] at hx
    cases h : m1 with
    | preKey m => exact ⟨m, rfl⟩
    | _ => rw [h] at hx; simp at hx
  obtain ⟨k, h2⟩ := h2
  have hm : m3.inner = some m := by rw [h1]; rfl
  rw [h2] at hx
  have hx' := hx
  rw [h1] at hx'
  have h3 : OnlyWrongGuesses toy (bobThen.Checks toy alice m3) (fun _ _ => otherMac) m.body bobsCalls := by
    intro c hc a x y ho hy hb
    simp only [bobsCalls, List.mem_cons, List.not_mem_nil, or_false] at hc
    rcases hc with rfl | rfl
    · simp only [Op.decrypt.injEq] at ho
      obtain ⟨-, rfl⟩ := ho
      rw [h2] at hy
      cases hy
      split at hx'
      · rename_i e1 e2 e3
        cases e1; cases e2
        simp [hb] at hx'
      · cases hx'
    · cases ho
  have h4 : NotSent m.body (runCalls copying bobsCalls bob0).1 := by
    intro a c y hc hy
    split at hx'
    · rename_i e1 e2 e3
      cases e1
      rw [e3] at hc
      simp only [List.mem_cons, List.not_mem_nil, or_false, reduceCtorEq, false_or, Out.ciphertext.injEq] at hc
      obtain ⟨-, rfl⟩ := hc
      cases hy
      simp only [Bool.and_eq_true, bne_iff_ne, ne_eq] at hx'
      exact hx'.1.2
    · cases hx'
  have h5 : otherMac.take 8 ≠ m.tag := by
    split at hx'
    · rename_i e1 e2 e3
      cases e1
      simp only [Bool.and_eq_true, bne_iff_ne, ne_eq] at hx'
      exact hx'.2
    · cases hx'
  have := C114_accepted_by_guess copying bob0 (fun _ => rfl) bobsCalls alice m3 m hm (randomness 3) [] bobThen rfl (fun _ _ => otherMac) (fun _ _ => hl) h3 h4
    (fun _ _ _ => h5)
  exact ⟨this.1, this.2.2⟩

end Verif
