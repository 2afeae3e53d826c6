import Verif.Spec.Guessing
import Verif.Proofs.Reading
import Verif.Proofs.Content

namespace Verif

open Doc

section

variable {C : Crypto} {P : Bytes → Bytes → Prop} {v : Bytes → Bytes → Bytes} {hv : ∀ k x, (v k x).length = 32}

/-- Every point of `P` is the MAC of something. -/
def MacPoints (P : Bytes → Bytes → Prop) (body : Bytes) : Prop :=
  ∀ k x, P k x → ∃ snd rcv : PubKey, x = wireKey snd ++ wireKey rcv ++ body

theorem withMac_off {k x : Bytes} (h : ¬ P k x) : (C.withMac P v hv).hmac k x = C.hmac k x := by
  simp [Crypto.withMac, h]

theorem withMac_on {k x : Bytes} (h : P k x) : (C.withMac P v hv).hmac k x = v k x := by
  simp [Crypto.withMac, h]

variable {body : Bytes} (hP : MacPoints P body)
include hP

theorem MacPoints.short (k : Bytes) (b : UInt8) : ¬ P k [b] := by
  intro h
  obtain ⟨snd, rcv, hx⟩ := hP k _ h
  have := congrArg List.length hx
  simp [wireKey] at this

theorem MacPoints.next (ck : ChainKey) : ck.next (C.withMac P v hv) = ck.next C := by
  simp only [ChainKey.next, chainHash, withMac_off (hP.short _ _)]

theorem MacPoints.messageKeys (ck : ChainKey) : ck.messageKeys (C.withMac P v hv) = ck.messageKeys C := by
  simp only [ChainKey.messageKeys, chainHash, withMac_off (hP.short _ _)]
  rfl

theorem MacPoints.skipLoop (k : PubKey) (n : UInt32) (fuel : Nat) : ∀ (ck : ChainKey) (s : SState),
    skipLoop (C.withMac P v hv) k n fuel ck s = skipLoop C k n fuel ck s := by
  induction fuel with
  | zero => exact fun _ _ => rfl
  | succ fuel ih =>
    intro ck s
    simp only [Verif.skipLoop, hP.next, hP.messageKeys, ih]

theorem MacPoints.messageKeysFor (s : SState) (k : PubKey) (ck : ChainKey) (n : UInt32) :
    messageKeysFor (C.withMac P v hv) s k ck n = messageKeysFor C s k ck n := by
  simp only [Verif.messageKeysFor, hP.skipLoop, hP.messageKeys]

omit hP in
theorem withMac_chainKeyFor (s : SState) (k : PubKey) : chainKeyFor (C.withMac P v hv) s k = chainKeyFor C s k := rfl

theorem MacPoints.body_eq {k b : Bytes} {snd rcv : PubKey} (hp : P k (snd.bytes ++ rcv.bytes ++ b)) : b = body := by
  obtain ⟨s', r', hx⟩ := hP _ _ hp
  have := congrArg (List.drop 66) hx
  have l1 : (snd.bytes ++ rcv.bytes).length = 66 := by simp [PubKey.bytes_length]
  have l2 : (wireKey s' ++ wireKey r').length = 66 := by simp [wireKey, s'.len, r'.len]
  rw [← l1, List.drop_left, l1, ← l2, List.drop_left] at this
  exact this

/-- Off the points of `P`, or with a MAC that is right neither way. -/
theorem MacPoints.verifyMAC {m : Signal} (hm : m.body = body → ∀ k y, P k y → m.tag ≠ (C.hmac k y).take 8 ∧ m.tag ≠ (v k y).take 8)
    (k : Bytes) (snd rcv : PubKey) : m.verifyMAC (C.withMac P v hv) k snd rcv = m.verifyMAC C k snd rcv := by
  unfold Signal.verifyMAC messageMac
  split
  · rfl
  · by_cases hk : k.length = 32
    · simp only [hk, ne_eq, not_true_eq_false, if_false, Res.bind_ok]
      by_cases hp : P k (snd.bytes ++ rcv.bytes ++ m.body)
      · have hb : m.body = body := hP.body_eq hp
        obtain ⟨h1, h2⟩ := hm hb _ _ hp
        have e1 : (C.withMac P v hv).hmac k (snd.bytes ++ rcv.bytes ++ m.serialized.take (m.serialized.length - 8)) = v k (snd.bytes ++ rcv.bytes ++ m.body) :=
          withMac_on hp
        rw [e1]
        have f1 : ((v k (snd.bytes ++ rcv.bytes ++ m.body)).take 8 == m.serialized.drop (m.serialized.length - 8)) = false := by
          simp only [beq_eq_false_iff_ne, ne_eq]; exact fun h => h2 h.symm
        have f2 : ((C.hmac k (snd.bytes ++ rcv.bytes ++ m.serialized.take (m.serialized.length - 8))).take 8 == m.serialized.drop (m.serialized.length - 8)) = false := by
          simp only [beq_eq_false_iff_ne, ne_eq]; exact fun h => h1 h.symm
        rw [f1, f2]
      · have e1 : (C.withMac P v hv).hmac k (snd.bytes ++ rcv.bytes ++ m.serialized.take (m.serialized.length - 8)) =
            C.hmac k (snd.bytes ++ rcv.bytes ++ m.serialized.take (m.serialized.length - 8)) := withMac_off hp
        rw [e1]
    · simp only [hk, ne_eq, not_false_eq_true, if_true]

omit hP in
theorem withMac_cbcDec (key : Bytes) (n : Nat) : ∀ iv ct : Bytes, cbcDecBlocks (C.withMac P v hv) key n iv ct = cbcDecBlocks C key n iv ct := by
  induction n with
  | zero => exact fun _ _ => rfl
  | succ n ih =>
    intro iv ct
    simp only [cbcDecBlocks, ih]
    rfl

omit hP in
theorem withMac_cbcEnc (key : Bytes) (n : Nat) : ∀ iv ct : Bytes, cbcEncBlocks (C.withMac P v hv) key n iv ct = cbcEncBlocks C key n iv ct := by
  induction n with
  | zero => exact fun _ _ => rfl
  | succ n ih =>
    intro iv ct
    simp only [cbcEncBlocks, ih]
    rfl

omit hP in
theorem withMac_decrypt (key iv ct : Bytes) : cbcDecrypt (C.withMac P v hv) key iv ct = cbcDecrypt C key iv ct := by
  simp only [cbcDecrypt, withMac_cbcDec]

omit hP in
theorem withMac_encrypt (key iv p : Bytes) : cbcEncrypt (C.withMac P v hv) key iv p = cbcEncrypt C key iv p := by
  simp only [cbcEncrypt, withMac_cbcEnc]

theorem MacPoints.newSignal (ver : UInt8) (mk : Bytes) (rk : PubKey) (pc n : UInt32) (ct : Bytes) (snd rcv : PubKey) :
    (∃ m m', newSignal C ver mk rk pc n ct snd rcv = .ok m ∧ newSignal (C.withMac P v hv) ver mk rk pc n ct snd rcv = .ok m' ∧ (m.body ≠ body → m' = m)) ∨
    (∃ e, newSignal C ver mk rk pc n ct snd rcv = .err e ∧ newSignal (C.withMac P v hv) ver mk rk pc n ct snd rcv = .err e) := by
  unfold Verif.newSignal messageMac
  by_cases hk : mk.length = 32
  · left
    simp only [hk, ne_eq, not_true_eq_false, if_false, Res.bind_ok]
    refine ⟨_, _, rfl, rfl, ?_⟩
    intro hb
    congr 3
    refine withMac_off fun hp => hb ?_
    have hx := hP.body_eq hp
    rw [← hx]
    simp [Signal.body, C.hmac_len]
  · right
    simp only [hk, ne_eq, not_false_eq_true, if_true]
    exact ⟨_, rfl, rfl⟩

theorem MacPoints.encryptState (s : SState) (p : Bytes) :
    (∃ c c' s' k, encryptState C s p = .ok (c, s', k) ∧ encryptState (C.withMac P v hv) s p = .ok (c', s', k) ∧
      ((∀ m, c.inner = some m → m.body ≠ body) → c' = c)) ∨
    ((∀ x, encryptState C s p ≠ .ok x) ∧ encryptState (C.withMac P v hv) s p = encryptState C s p) := by
  unfold Verif.encryptState
  cases s.senderChainKey with
  | err e => exact .inr ⟨fun _ h => (by cases h), rfl⟩
  | panic => exact .inr ⟨fun _ h => (by cases h), rfl⟩
  | ok ck =>
    simp only [Res.bind_ok, hP.messageKeys, hP.next, withMac_encrypt]
    cases s.senderRatchetKey with
    | err e => exact .inr ⟨fun _ h => (by cases h), rfl⟩
    | panic => exact .inr ⟨fun _ h => (by cases h), rfl⟩
    | ok rk =>
      simp only [Res.bind_ok]
      cases s.localIdentityKey with
      | err e => exact .inr ⟨fun _ h => (by cases h), rfl⟩
      | panic => exact .inr ⟨fun _ h => (by cases h), rfl⟩
      | ok lk =>
        simp only [Res.bind_ok]
        cases s.remoteIdentityKey with
        | err e => exact .inr ⟨fun _ h => (by cases h), rfl⟩
        | panic => exact .inr ⟨fun _ h => (by cases h), rfl⟩
        | ok o =>
          cases o with
          | none => exact .inr ⟨fun _ h => (by cases h), rfl⟩
          | some tk =>
            simp only [Res.bind_ok]
            cases cbcEncrypt C (ck.messageKeys C).cipherKey (ck.messageKeys C).iv p with
            | err e => exact .inr ⟨fun _ h => (by cases h), rfl⟩
            | panic => exact .inr ⟨fun _ h => (by cases h), rfl⟩
            | ok ct =>
              simp only [Res.bind_ok]
              rcases hP.newSignal (C := C) (hv := hv) s.version.toUInt8 (ck.messageKeys C).macKey rk s.previousCounter ck.index ct lk tk with
                ⟨m, m', h1, h2, h3⟩ | ⟨e, h1, h2⟩
              · simp only [h1, h2, Res.bind_ok]
                cases s.unacknowledgedPreKeyMessages with
                | err e => exact .inr ⟨fun _ h => (by cases h), rfl⟩
                | panic => exact .inr ⟨fun _ h => (by cases h), rfl⟩
                | ok u =>
                  left
                  cases u with
                  | none =>
                    refine ⟨_, _, _, _, rfl, rfl, ?_⟩
                    intro hb
                    simp only [h3 (hb m rfl)]
                  | some u =>
                    refine ⟨_, _, _, _, rfl, rfl, ?_⟩
                    intro hb
                    simp only [h3 (hb m rfl)]
              · simp only [h1, h2]
                exact .inr ⟨fun _ h => (by cases h), trivial⟩

theorem MacPoints.decryptSession {m : Signal} (hm : m.body = body → ∀ k y, P k y → m.tag ≠ (C.hmac k y).take 8 ∧ m.tag ≠ (v k y).take 8)
    (s : SState) : decryptMessageSession (C.withMac P v hv) s m = decryptMessageSession C s m := by
  unfold decryptMessageSession
  simp only [withMac_chainKeyFor, hP.messageKeysFor, hP.verifyMAC hm, withMac_decrypt]

theorem MacPoints.tryPrevious {m : Signal} (hm : m.body = body → ∀ k y, P k y → m.tag ≠ (C.hmac k y).take 8 ∧ m.tag ≠ (v k y).take 8)
    (ss : List SState) : ∀ (i : Nat) (f : Option (Nat × SState × Bytes)), tryPrevious (C.withMac P v hv) m ss i f = tryPrevious C m ss i f := by
  induction ss with
  | nil => exact fun _ _ => rfl
  | cons s ss ih => intro i f; simp only [Verif.tryPrevious, hP.decryptSession hm, ih]

theorem MacPoints.decryptRecord {m : Signal} (hm : m.body = body → ∀ k y, P k y → m.tag ≠ (C.hmac k y).take 8 ∧ m.tag ≠ (v k y).take 8)
    (r : Record) : decryptRecord (C.withMac P v hv) r m = decryptRecord C r m := by
  unfold Verif.decryptRecord decryptPrevious
  simp only [hP.decryptSession hm, hP.tryPrevious hm]

theorem MacPoints.secrets (k : Bytes) (n : Nat) : messageSecrets (C.withMac P v hv) k n = messageSecrets C k n := by
  have hc : ∀ n, Doc.chainKey (C.withMac P v hv) k n = Doc.chainKey C k n := by
    intro n
    induction n with
    | zero => rfl
    | succ n ih => simp only [Doc.chainKey, ih, withMac_off (hP.short _ _)]
  unfold messageSecrets
  rw [hc, withMac_off (hP.short _ _)]
  rfl

end

/-- The environment with other values of HMAC. -/
noncomputable def Env.withMac (E : Env) (P : Bytes → Bytes → Prop) (v : Bytes → Bytes → Bytes) (hv : ∀ k x, (v k x).length = 32) : Env :=
  { E with C := E.C.withMac P v hv }

section

variable {E : Env} {P : Bytes → Bytes → Prop} {v : Bytes → Bytes → Bytes} {hv : ∀ k x, (v k x).length = 32} {body : Bytes} (hP : MacPoints P body)
include hP

theorem MacPoints.decrypt (a : Address) (c : Ciphertext)
    (hm : ∀ m, c.inner = some m → m.body = body → ∀ k y, P k y → m.tag ≠ (E.C.hmac k y).take 8 ∧ m.tag ≠ (v k y).take 8) :
    decryptMessage (E.withMac P v hv) a c = decryptMessage E a c := by
  cases c with
  | senderKey x => rfl
  | plaintext x => rfl
  | signal m =>
    simp only [decryptMessage, decryptSignal]
    have := hP.decryptRecord (hv := hv) (C := E.C) (hm m rfl)
    simp only [Env.withMac, this]
    rfl
  | preKey m =>
    simp only [decryptMessage, decryptPreKey]
    have := hP.decryptRecord (hv := hv) (C := E.C) (hm m.message rfl)
    simp only [Env.withMac, this]
    rfl

/-- The rest of EncryptMessage, after the session has been advanced. -/
def sendRest (E : Env) (a : Address) (r : Record) (k : PubKey) (c : Ciphertext) : M World Ciphertext := do
  touch E a true r
  let trusted ← isTrusted E a k .sending
  if trusted then
    storeIdentity a k
    storeSession a r
    return c
  else M.throw (.untrustedIdentity a)

omit hP in
theorem sendRest_other (a : Address) (r : Record) (k : PubKey) (c c' : Ciphertext) (w : World) :
    (sendRest E a r k c' w).2 = (sendRest E a r k c w).2 ∧
      ((sendRest E a r k c w).1 = .ok c ∧ (sendRest E a r k c' w).1 = .ok c' ∨
        (∀ x, (sendRest E a r k c w).1 ≠ .ok x) ∧ (sendRest E a r k c' w).1 = (sendRest E a r k c w).1) := by
  unfold sendRest
  simp only [M.bind_run]
  rcases touch E a true r w with ⟨r1, w1⟩
  cases r1 with
  | err e => exact ⟨rfl, .inr ⟨fun _ h => (by cases h), rfl⟩⟩
  | panic => exact ⟨rfl, .inr ⟨fun _ h => (by cases h), rfl⟩⟩
  | ok u =>
    simp only
    rcases isTrusted E a k .sending w1 with ⟨r2, w2⟩
    cases r2 with
    | err e => exact ⟨rfl, .inr ⟨fun _ h => (by cases h), rfl⟩⟩
    | panic => exact ⟨rfl, .inr ⟨fun _ h => (by cases h), rfl⟩⟩
    | ok t =>
      cases t with
      | false => exact ⟨rfl, .inr ⟨fun _ h => (by cases h), rfl⟩⟩
      | true =>
        simp only [if_true, M.bind_run]
        rcases storeIdentity a k w2 with ⟨r3, w3⟩
        cases r3 with
        | err e => exact ⟨rfl, .inr ⟨fun _ h => (by cases h), rfl⟩⟩
        | panic => exact ⟨rfl, .inr ⟨fun _ h => (by cases h), rfl⟩⟩
        | ok u =>
          simp only
          rcases storeSession a r w3 with ⟨r4, w4⟩
          cases r4 with
          | err e => exact ⟨rfl, .inr ⟨fun _ h => (by cases h), rfl⟩⟩
          | panic => exact ⟨rfl, .inr ⟨fun _ h => (by cases h), rfl⟩⟩
          | ok u => exact ⟨rfl, .inl ⟨rfl, rfl⟩⟩

theorem MacPoints.encrypt (a : Address) (p : Bytes) (w : World)
    (hs : ∀ c m, (encryptMessage E a p w).1 = .ok c → c.inner = some m → m.body ≠ body) :
    encryptMessage (E.withMac P v hv) a p w = encryptMessage E a p w := by
  have eq : ∀ F : Env, encryptMessage F a p w = (do
      match ← loadSession a with
      | none => M.throw (.sessionNotFound a)
      | some record =>
        match record.current with
        | none => M.throw (.sessionNotFound a)
        | some state => do
          let (msg, state', theirIdentityKey) ← M.lift (Verif.encryptState F.C state p)
          sendRest F a (record.setSessionState state') theirIdentityKey msg) w := fun F => rfl
  rw [eq] at hs
  rw [eq, eq]
  simp only [M.bind_run (loadSession a)] at hs ⊢
  generalize loadSession a w = x at hs ⊢
  obtain ⟨r1, w1⟩ := x
  cases r1 with
  | err e => rfl
  | panic => rfl
  | ok o =>
    cases o with
    | none => rfl
    | some r =>
      simp only at hs ⊢
      cases hc : r.current with
      | none => rfl
      | some s =>
        simp only [hc] at hs ⊢
        rcases hP.encryptState (C := E.C) (hv := hv) s p with ⟨c, c', s', k, h1, h2, h3⟩ | ⟨h1, h2⟩
        · have h2' : Verif.encryptState (E.withMac P v hv).C s p = .ok (c', s', k) := h2
          rw [h1] at hs
          rw [h1, h2']
          change ∀ x m, (sendRest E a (r.setSessionState s') k c w1).1 = .ok x → x.inner = some m → m.body ≠ body at hs
          change sendRest (E.withMac P v hv) a (r.setSessionState s') k c' w1 = sendRest E a (r.setSessionState s') k c w1
          have hE : sendRest (E.withMac P v hv) a (r.setSessionState s') k c' = sendRest E a (r.setSessionState s') k c' := rfl
          rw [hE]
          obtain ⟨g1, g2⟩ := sendRest_other (E := E) a (r.setSessionState s') k c c' w1
          rcases g2 with ⟨g2, g3⟩ | ⟨g2, g3⟩
          · rw [h3 fun m hm => hs c m g2 hm]
          · exact Prod.ext g3 g1
        · have h2' : Verif.encryptState (E.withMac P v hv).C s p = Verif.encryptState E.C s p := h2
          rw [h2']
          cases he : Verif.encryptState E.C s p with
          | err e => rfl
          | panic => rfl
          | ok x => exact absurd he (h1 x)

omit hP in
theorem withMac_bundle (a : Address) (b : Bundle) : processPreKeyBundle (E.withMac P v hv) a b = processPreKeyBundle E a b := rfl

theorem MacPoints.call (c : Call) (w : World)
    (hd : ∀ a x m, c.op = .decrypt a x → x.inner = some m → m.body = body → ∀ k y, P k y → m.tag ≠ (E.C.hmac k y).take 8 ∧ m.tag ≠ (v k y).take 8)
    (hs : ∀ a x m, (c.run E w).1 = .ciphertext a x → x.inner = some m → m.body ≠ body) : c.run (E.withMac P v hv) w = c.run E w := by
  unfold Call.run at hs ⊢
  generalize c.op = op at hd hs ⊢
  cases op with
  | encrypt a p =>
    simp only at hs ⊢
    rw [hP.encrypt]
    intro x m hx hm
    exact hs a x m (by simp only [hx, Out.of]) hm
  | decrypt a x => simp only [hP.decrypt a x (hd a x · rfl)]
  | bundle a b => simp only [withMac_bundle]
  | addPreKey id k => rfl
  | addSignedPreKey id k => rfl

theorem MacPoints.calls (cs : List Call) : ∀ w, OnlyWrongGuesses E.C P v body cs → NotSent body (runCalls E cs w).1 →
    runCalls (E.withMac P v hv) cs w = runCalls E cs w := by
  induction cs with
  | nil => exact fun _ _ _ => rfl
  | cons c cs ih =>
    intro w hd hs
    have h1 := hP.call (hv := hv) c w (fun a x m => hd c (by simp) a x m) (fun a x m hx => hs a x m (by simp [runCalls, hx]))
    simp only [runCalls, h1]
    rw [ih _ (fun d hd' => hd d (by simp [hd'])) (fun a x m hx => hs a x m (by simp only [runCalls, List.mem_cons]; exact .inr hx))]

end

end Verif
