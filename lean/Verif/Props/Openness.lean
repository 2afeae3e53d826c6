import Verif.Proofs.Openness
import Verif.Spec.Example

/-!
# What a ratchet step forgets and what it renews: C87, C88
-/

namespace Verif

open Ex

/-! ## C87 -/

/-- **C87**. A call has read a message with a new ratchet key in the current session with `a`. Take any other root key, any other private
half of the own ratchet key (with any shared secret it gives) and any other chain key for sending. They fit: with HKDF changed for the one
single input that they are used for, the same call on stores that hold these secrets instead returns the same plaintext and leaves exactly
the same stores. So nothing that is stored after the call tells the old root key, the old private key or the old chain key from any other. -/
theorem C87_ratchet_step_forgets (E : Env) (w w1 : World) (a : Address) (r : Record) (s : SState) (hr : w.sessions a = some r)
    (hs : r.current = some s) (m : Signal) (hnew : ¬ s.HasChain m.senderRatchetKey)
    (hcur : ∃ x, (decryptMessageSession E.C s m w.rand).1 = .ok x) (p : Bytes) (h : decryptMessage E a (.signal m) w = (.ok (some p), w1))
    (root priv chain : Bytes) (hroot : root.length = 32) (hpriv : priv.length = 32) (hchain : chain.length = 32) (secret secret' : Bytes)
    (hd : E.C.dh (clamp s.ratchetPrivate) m.senderRatchetKey.keyBytes = some secret)
    (hd' : E.C.dh (clamp priv) m.senderRatchetKey.keyBytes = some secret')
    (hother : root ≠ (E.C.hkdf secret s.rootKey rootInfo 64).take 32) :
    decryptMessage { E with C := E.C.withHkdf secret' root rootInfo (E.C.hkdf secret s.rootKey rootInfo 64) } a (.signal m)
      (w.withRatchetSecrets a root priv chain) = (.ok (some p), w1) := by
  obtain ⟨⟨q, s1⟩, hcur⟩ := hcur
  have hdec : decryptMessageSession E.C s m w.rand = (.ok (q, s1), (decryptMessageSession E.C s m w.rand).2) := by rw [← hcur]
  generalize (decryptMessageSession E.C s m w.rand).2 = rd at hdec
  obtain ⟨h1, h2, ck, s2, _, _, _, _, h3, _⟩ := decryptMessageSession_ok hdec
  have hstep := Step.of (no_chain hnew) h3
  have hstep' := step_other_secrets hstep hroot hpriv hchain hd hd' hother
  have e := decryptMessageSession_split E.C s m w.rand h1 h2 ck s2 rd h3
  have e' := decryptMessageSession_split _ (s.withRatchetSecrets root priv chain) m w.rand
    (by simpa [SState.withRatchetSecrets] using h1) h2 ck s2 rd hstep'.run
  rw [withHkdf_finish _ _ _ _ _ (by rintro rfl; simp at hroot), ← show _ = finishDecrypt E.C m ck s2 from congrArg Prod.fst e, hcur] at e'
  have hw : SameBut a w (w.withRatchetSecrets a root priv chain) := ⟨rfl, fun b hb => upd_ne _ _ hb⟩
  obtain ⟨k1, k2, k3⟩ := decryptSignal_swap E { E with C := E.C.withHkdf secret' root rootInfo (E.C.hkdf secret s.rootKey rootInfo 64) } rfl rfl a m w
    (w.withRatchetSecrets a root priv chain) hw r { r with current := some (s.withRatchetSecrets root priv chain) } (r.setSessionState s1) (r.setSessionState s1)
    hr (by simp [World.withRatchetSecrets, hr, hs]) q rd (decryptRecord_current hs hdec)
    (decryptRecord_current (r := { r with current := some (s.withRatchetSecrets root priv chain) }) rfl e') rfl _ _ h
  rw [k1, ← k3]
  congr 2
  funext b
  by_cases hb : b = a
  · subst hb; simp
  · exact upd_ne _ _ hb

/-! ## C88 -/

/-- **C88**. A call has read a message with a new ratchet key in the current session with `a`. Somebody who knew the stores before the call
and saw the message knows everything that went into the call except the random bytes for the new ratchet key, and with them the secret
that this key shares with the peer. Then every new root key and every new chain key for sending is possible: with HKDF changed for the one
single input that contains that secret, the same call returns the same plaintext and leaves the same stores, with these keys in place of
the others. -/
theorem C88_ratchet_step_renews (E : Env) (w w1 : World) (a : Address) (r : Record) (s : SState) (hr : w.sessions a = some r)
    (hs : r.current = some s) (m : Signal) (hnew : ¬ s.HasChain m.senderRatchetKey)
    (hcur : ∃ x, (decryptMessageSession E.C s m w.rand).1 = .ok x) (p : Bytes) (h : decryptMessage E a (.signal m) w = (.ok (some p), w1))
    (root chain : Bytes) (hroot : root.length = 32) (hchain : chain.length = 32) (secret fresh : Bytes)
    (hd : E.C.dh (clamp s.ratchetPrivate) m.senderRatchetKey.keyBytes = some secret)
    (hfresh : E.C.dh (clamp (w.rand.take 32)) m.senderRatchetKey.keyBytes = some fresh) (hother : fresh ≠ secret) :
    decryptMessage { E with C := E.C.withHkdf fresh ((E.C.hkdf secret s.rootKey rootInfo 64).take 32) rootInfo (root ++ chain) } a (.signal m) w =
      (.ok (some p), w1.withNextSecrets a root chain) := by
  obtain ⟨⟨q, s1⟩, hcur⟩ := hcur
  have hdec : decryptMessageSession E.C s m w.rand = (.ok (q, s1), (decryptMessageSession E.C s m w.rand).2) := by rw [← hcur]
  generalize (decryptMessageSession E.C s m w.rand).2 = rd at hdec
  obtain ⟨h1, h2, ck, s2, _, _, _, _, h3, _⟩ := decryptMessageSession_ok hdec
  have hstep := Step.of (no_chain hnew) h3
  have hstep' := step_other_output hstep hd hfresh (out := root ++ chain) (by simp [hroot, hchain]) (fun hh => hother hh.1.symm)
  rw [List.take_left' hroot, List.drop_left' hroot] at hstep'
  have e := decryptMessageSession_split E.C s m w.rand h1 h2 ck s2 rd h3
  have e' := decryptMessageSession_split _ s m w.rand h1 h2 ck _ rd hstep'.run
  have hsalt : (E.C.hkdf secret s.rootKey rootInfo 64).take 32 ≠ [] := by
    intro hh
    have := congrArg List.length hh
    simp [E.C.hkdf_len] at this
  have hf : finishDecrypt E.C m ck s2 = .ok (q, s1) := by rw [← hcur]; exact (congrArg Prod.fst e).symm
  obtain ⟨hk1, hk2⟩ := finishDecrypt_kept hf
  rw [withHkdf_finish _ _ _ _ _ hsalt,
    show s2.withNextSecrets root chain = s2.put root (s2.withSenderKey chain).senderChain from rfl, finishDecrypt_put, hf] at e'
  have hx : s1.put root (s2.withSenderKey chain).senderChain = s1.withNextSecrets root chain := by
    unfold SState.withNextSecrets SState.withSenderKey SState.put
    rw [hk2]
  simp only [Res.over_ok, hx] at e'
  obtain ⟨k1, k2, k3⟩ := decryptSignal_swap E { E with C := E.C.withHkdf fresh ((E.C.hkdf secret s.rootKey rootInfo 64).take 32) rootInfo (root ++ chain) } rfl rfl
    a m w w (SameBut.refl a w) r r (r.setSessionState s1) (r.setSessionState (s1.withNextSecrets root chain)) hr hr q rd
    (decryptRecord_current hs hdec) (decryptRecord_current hs e') rfl _ _ h
  rw [k1]
  unfold World.withNextSecrets
  rw [k3]
  rfl

/-- the hypotheses of C87 and C88 are met when Alice reads the first reply of Bob -/
example : ∃ (w1 : World) (r : Record) (s : SState) (m : Signal) (secret secret' fresh : Bytes), alice3.sessions bob = some r ∧ r.current = some s ∧
    r1 = .signal m ∧ ¬ s.HasChain m.senderRatchetKey ∧ (∃ x, (decryptMessageSession toy s m alice3.rand).1 = .ok x) ∧
    decryptMessage copying bob (.signal m) alice3 = (.ok (some [9]), w1) ∧
    toy.dh (clamp s.ratchetPrivate) m.senderRatchetKey.keyBytes = some secret ∧
    toy.dh (clamp (List.replicate 32 8)) m.senderRatchetKey.keyBytes = some secret' ∧
    List.replicate 32 7 ≠ (toy.hkdf secret s.rootKey rootInfo 64).take 32 ∧
    toy.dh (clamp (alice3.rand.take 32)) m.senderRatchetKey.keyBytes = some fresh ∧ fresh ≠ secret := by
  have h : (match alice3.sessions bob, r1 with
    | some r, .signal m => (match r.current with
      | some s => (match toy.dh (clamp s.ratchetPrivate) m.senderRatchetKey.keyBytes, toy.dh (clamp (List.replicate 32 8)) m.senderRatchetKey.keyBytes,
            toy.dh (clamp (alice3.rand.take 32)) m.senderRatchetKey.keyBytes with
        | some secret, some _, some fresh => (s.receiverChains.all fun c => c.senderRatchetKey != m.senderRatchetKey.bytes) &&
            (match (decryptMessageSession toy s m alice3.rand).1 with | .ok _ => true | _ => false) &&
            (List.replicate 32 7 != (toy.hkdf secret s.rootKey rootInfo 64).take 32) && (fresh != secret)
        | _, _, _ => false)
      | none => false)
    | _, _ => false) = true := by decide +kernel
  have hd := r1_delivered
  split at h
  · rename_i r m hr hm
    split at h
    · rename_i s hs
      split at h
      · rename_i secret secret' fresh e1 e2 e3
        simp only [Bool.and_eq_true, bne_iff_ne] at h
        obtain ⟨⟨⟨h1, h2⟩, h3⟩, h4⟩ := h
        refine ⟨(decryptMessage copying bob (.signal m) alice3).2, r, s, m, secret, secret', fresh, hr, hs, hm, ?_, ?_, ?_, e1, e2, h3, e3, h4⟩
        · rintro ⟨c, hc, he⟩
          have := List.all_eq_true.mp h1 c hc
          simp [he] at this
        · split at h2
          · exact ⟨_, by assumption⟩
          · simp at h2
        · rw [hm] at hd
          rw [← hd]
      · simp at h
    · simp at h
  · simp at h

end Verif
