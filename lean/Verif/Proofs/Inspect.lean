import Verif.Model.Inspect
import Verif.Proofs.Messages
import Verif.Proofs.Reading
import Verif.Proofs.Fingerprint

/-!
Stored records have a current session, and every session is the user's own.
-/

namespace Verif

/-- All the states of the record are sessions of the user with this identity key. -/
def Record.Of (id : PubKey) (r : Record) : Prop := ∀ s, r.HasState s → s.localIdentityPublic = id.bytes

theorem Record.Of.empty (id : PubKey) : ({} : Record).Of id := by
  rintro s (h | ⟨b, hb, _⟩)
  · simp at h
  · simp at hb

theorem Record.Of.set {id : PubKey} {r : Record} (h : r.Of id) {s : SState} (hs : s.localIdentityPublic = id.bytes) : (r.setSessionState s).Of id := by
  rintro t (ht | ht)
  · simp only [Record.setSessionState, Option.some.injEq] at ht
    rw [← ht]; exact hs
  · exact h t (.inr ht)

theorem Record.Of.promote {id : PubKey} {r : Record} (hw : r.WF) (h : r.Of id) {s : SState} (hs : s.localIdentityPublic = id.bytes) : (r.promoteState s).Of id := by
  intro t ht
  rcases hw.promoted_state ht with rfl | ht
  · exact hs
  · exact h t ht

theorem Record.Of.decrypt {C : Crypto} {id : PubKey} {r r' : Record} {m : Signal} {rd rd' p : Bytes} (hw : r.WF) (h : r.Of id)
    (hd : decryptRecord C r m rd = (.ok (p, r'), rd')) : r'.Of id ∧ r'.current.isSome := by
  obtain ⟨s, s', rd1, rd2, h1, hc, hor⟩ := hw.decrypted hd
  refine ⟨?_, by rw [hc]; rfl⟩
  have hk := (decryptMessageSession_keeps h1).2.2.1
  rcases hor with ⟨hs, hp, _⟩ | ⟨l, idx, hl, hi, hl', _⟩
  · rintro t (ht | ht)
    · rw [hc] at ht
      simp only [Option.some.injEq] at ht
      rw [← ht, hk]
      exact h s (.inl hs)
    · rw [hp] at ht
      exact h t (.inr ht)
  · intro t ht
    rcases ((hw.decrypt hd).hasState hl' t).1 ht with ht | ht
    · rw [hc] at ht
      simp only [Option.some.injEq] at ht
      rw [← ht, hk]
      exact h s ((hw.hasState hl s).2 (.inr (List.mem_of_getElem? hi)))
    · rw [List.mem_append] at ht
      rcases ht with ht | ht
      · exact h t ((hw.hasState hl t).2 (.inr (List.mem_of_mem_eraseIdx ht)))
      · simp only [Option.mem_toList] at ht
        exact h t (.inl ht)

theorem Processed.of {E : Env} {w : World} {r rec : Record} {m : PreKeyMsg} {id : Option UInt32} (hw : r.WF) (h : r.Of w.identity.pub)
    (hp : Processed E w r m id rec) : rec.Of w.identity.pub ∧ rec.current.isSome = true ∨ rec = r ∧ r.Knows m.version.toUInt32 m.baseKey := by
  cases hp with
  | found hf =>
    right
    refine ⟨rfl, ?_⟩
    rcases hw.hasSessionState m.version.toUInt32 m.baseKey with ⟨hk, _⟩ | ⟨_, hk⟩
    · exact hk
    · rw [hf] at hk; simp at hk
  | fresh hf signed oneTime s hs ho hi s' hs' =>
    left
    obtain ⟨_, _, _, _, _, _, _, _, _, _, _, _, rk, ck, _, rfl⟩ := initializeBob_ok hi
    exact ⟨h.promote hw (by subst hs'; rfl), rfl⟩

theorem run_identity (E : Env) (c : Call) (w : World) : (c.run E w).2.identity = w.identity := by
  obtain ⟨op, rd, fs⟩ := c
  cases op with
  | addPreKey id k => rfl
  | addSignedPreKey id k => rfl
  | encrypt b pt =>
    simp only [Call.run]
    have ho := encrypt_outcome E b pt { w with rand := rd, faults := fs }
    generalize encryptMessage E b pt _ = x at ho ⊢
    obtain ⟨r, w'⟩ := x
    simp only at ho ⊢
    cases ho <;> rfl
  | bundle b bd =>
    simp only [Call.run]
    have ho := bundle_outcome E b bd { w with rand := rd, faults := fs }
    generalize processPreKeyBundle E b bd _ = x at ho ⊢
    obtain ⟨r, w'⟩ := x
    simp only at ho ⊢
    cases ho <;> rfl
  | decrypt b c =>
    simp only [Call.run]
    cases c with
    | senderKey m => rfl
    | plaintext m => rfl
    | signal m =>
      simp only [decryptMessage]
      have ho := signal_outcome E b m { w with rand := rd, faults := fs }
      generalize decryptSignal E b m _ = x at ho ⊢
      obtain ⟨r, w'⟩ := x
      simp only at ho ⊢
      cases ho <;> rfl
    | preKey m =>
      rw [decryptMessage_preKey]
      have ho := preKey_outcome E b m { w with rand := rd, faults := fs }
      generalize decryptPreKey E b m _ = x at ho ⊢
      obtain ⟨r, w'⟩ := x
      simp only at ho ⊢
      cases ho <;> rfl

/-- Every stored record has a current session, and all its sessions are of this user. -/
def World.Owned (w : World) : Prop := ∀ a r, w.sessions a = some r → r.current.isSome ∧ r.Of w.identity.pub

theorem World.Owned.call {E : Env} {c : Call} {w : World} (hw : w.WF) (h : w.Owned) : (c.run E w).2.Owned := by
  intro a r hr
  rw [run_identity]
  rcases call_changed E c w a with he | ⟨r', he, hst⟩
  · rw [he] at hr
    exact h a r hr
  · rw [he] at hr
    simp only [Option.some.injEq] at hr
    subst hr
    have hwf : ((w.sessions a).getD {}).WF := hw.getD a
    have hof : ((w.sessions a).getD {}).Of w.identity.pub := by
      cases ho : w.sessions a with
      | none => exact Record.Of.empty _
      | some r => exact (h a r ho).2
    have hcur : ∀ s, ((w.sessions a).getD {}).HasState s → ((w.sessions a).getD {}).current.isSome = true := by
      intro s hs
      cases ho : w.sessions a with
      | none =>
        rw [ho] at hs
        rcases hs with hs | ⟨b, hb, _⟩
        · simp at hs
        · simp at hb
      | some r => exact (h a r ho).1
    generalize hop : c.op = op at hst
    dsimp only at hst
    generalize hr : (w.sessions a).getD {} = r at hst hof hwf hcur
    cases hst with
    | enc h2 h3 => exact ⟨rfl, hof.set (by rw [(encryptState_pending (hwf.current _ h2) h3).2.2]; exact hof _ (.inl h2))⟩
    | dec hd => exact (hof.decrypt hwf hd).symm
    | setUp hE hp _ =>
      rcases Processed.of (w := { w with rand := c.rand, faults := c.faults }) hwf hof hp with h1 | ⟨rfl, s, hs, _⟩
      · exact h1.symm
      · exact ⟨hcur s hs, hof⟩
    | preKey hp hd =>
      rcases Processed.of (w := { w with rand := c.rand, faults := c.faults }) hwf hof hp with h1 | ⟨rfl, _⟩
      · exact (Record.Of.decrypt (id := w.identity.pub) (hp.WF hwf) h1.1 hd).symm
      · exact (hof.decrypt hwf hd).symm
    | bundle hfb =>
      refine ⟨rfl, hof.promote hwf ?_⟩
      cases hfb with
      | mk base rd1 rd2 s hb hi s' hs' =>
        obtain ⟨kp, _, _, _, _, _, _, _, _, _, rk, ck, _, sr, sc, _, rfl⟩ := initializeAlice_ok hi
        subst hs'
        simp [SState.setUnacknowledgedPreKeyMessage, SState.setSenderChain, SState.addReceiverChain, maxReceiverChains]

theorem Reachable.owned {E : Env} {w : World} (h : Reachable E w) : w.Owned := by
  obtain ⟨w0, cs, rd, fs, h0, rfl⟩ := h
  have key : ∀ (cs : List Call) (w : World), w.WF → w.Owned → (Verif.after E cs w).Owned := by
    intro cs
    induction cs with
    | nil => exact fun w _ h => h
    | cons c cs ih => exact fun w hw h => ih _ hw.call (h.call hw)
  exact key cs w0 (World.NoSessions.WF h0) (fun a r hr => by rw [h0 a] at hr; simp at hr)

/-- What a decryption leaves in the store, in terms of `ReceiverChainKey`. -/
theorem SState.Received.chainKey {s : SState} (h : s.WF) {k : PubKey} {n : UInt32} (hr : s.Received k n) :
    ∃ ck, s.receiverChainKey k = .ok (some ck) ∧ n ≤ ck.index := by
  obtain ⟨c, hc, hk, ⟨ck, hck, hle⟩, _⟩ := hr
  obtain ⟨j, d, hj⟩ := findChain_exists 0 hc hk
  obtain ⟨_, hj', hdk, _⟩ := findChain_some hj
  have hd : d ∈ s.receiverChains := List.mem_of_getElem? hj'
  have he : d = c := by
    have := h.distinct
    rw [List.pairwise_iff_getElem] at this
    obtain ⟨i1, hi1, rfl⟩ := List.getElem_of_mem hc
    obtain ⟨i2, hi2, rfl⟩ := List.getElem_of_mem hd
    rcases Nat.lt_trichotomy i1 i2 with hlt | heq | hlt
    · exact absurd (hk.trans hdk.symm) (this i1 i2 hi1 hi2 hlt)
    · subst heq; rfl
    · exact absurd (hdk.trans hk.symm) (this i2 i1 hi2 hi1 hlt)
  subst he
  obtain ⟨ck', hck', hlen, _⟩ := (h.chainWF d hd).chain
  refine ⟨ck', PBChain.WF.receiverChainKey hj hck' hlen, ?_⟩
  rw [hck] at hck'
  simp only [Option.some.injEq] at hck'
  rw [hck'] at hle
  exact hle

/-! ## Texts -/

theorem decimalN_inj {n a b : Nat} (ha : a < 10 ^ n) (hb : b < 10 ^ n) (h : decimalN n a = decimalN n b) : a = b := by
  rw [← decValue_decimalN n a ha, h, decValue_decimalN n b hb]

end Verif
