import Verif.Proofs.HeapWorld

/-!
The calls of the session API: on pointers and on values they do the same.
-/

namespace Verif

section
variable {aliased : Bool} {a : Address} {h0 : HWorld}

theorem HSim.left {α γ δ} {h h' : HWorld} {x : M HWorld α} {u : α} {f : α → M HWorld γ} {y : M World δ} {R : γ → δ → HWorld → Prop} (hx : x h = (.ok u, h')) (hv : h'.values = h.values)
    (hf : HSim aliased a h0 h' (f u) y R) : HSim aliased a h0 h (x >>= f) y R := by
  unfold HSim at *
  rw [M.bind_ok_run hx, ← hv]
  exact hf

theorem HSim.failErr {α γ δ} {h : HWorld} {x : M HWorld α} {e : Err} {f : α → M HWorld γ} {R : γ → δ → HWorld → Prop} (hx : x h = (.err e, h)) (hk : Keep aliased a h0 h) :
    HSim aliased a h0 h (x >>= f) (M.throw e) R := by
  unfold HSim
  rw [M.bind_run, hx]
  exact ⟨rfl, hk, rfl⟩

theorem HSim.failPanic {α γ δ} {h : HWorld} {x : M HWorld α} {f : α → M HWorld γ} {R : γ → δ → HWorld → Prop} (hx : x h = (.panic, h)) (hk : Keep aliased a h0 h) :
    HSim aliased a h0 h (x >>= f) M.panic R := by
  unfold HSim
  rw [M.bind_run, hx]
  exact ⟨rfl, hk, trivial⟩

theorem HSim.get {γ δ} {h : HWorld} {f : HWorld → M HWorld γ} {g : World → M World δ} {R : γ → δ → HWorld → Prop}
    (hf : HSim aliased a h0 h (f h) (g h.values) R) : HSim aliased a h0 h (M.get >>= f) (M.get >>= g) R := hf

theorem HSim.getRecord {α γ δ} {loaded : Bool} {r : Nat} {rec : Record} {h : HWorld} {o : Record → Res α} {f : α → M HWorld γ} {g : α → M World δ} {R : γ → δ → HWorld → Prop} (hl : Local aliased a h0 loaded r rec h)
    (hf : ∀ u, HSim aliased a h0 h (f u) (g u) R) : HSim aliased a h0 h (Verif.getRecord r o >>= f) (M.lift (o rec) >>= g) R := by
  have hx : Verif.getRecord r o h = (o rec, h) := by rw [← hl.view]; rfl
  cases ho : o rec with
  | ok u => exact .left (ho ▸ hx) rfl (hf u)
  | err e => exact .failErr (ho ▸ hx) hl.keep
  | panic => exact .failPanic (ho ▸ hx) hl.keep

theorem HSim.touch (E : Env) (hE : E.aliased = aliased) {α γ δ} {loaded : Bool} {r : Nat} {rec rec' : Record} {h h' : HWorld} {x : M HWorld α} {u : α} {f : α → M HWorld γ} {g : Unit → M World δ} {R : γ → δ → HWorld → Prop}
    (hl : Local aliased a h0 loaded r rec h) (hx : x h = (.ok u, h')) (hr : h'.rest = h.rest) (hg : h.Grow r h') (hv : h'.view r = rec')
    (hf : Local aliased a h0 loaded r rec' h' → HSim aliased a h0 h' (f u) (g ()) R) : HSim aliased a h0 h (x >>= f) (Verif.touch E a loaded rec' >>= g) R := by
  have ht : Verif.touch E a loaded rec' h.values = (.ok (), h'.values) := by
    have := hl.touched E hE hg hv
    rw [hr] at this
    exact this
  have := hf (hl.grow hg hv)
  unfold HSim at *
  rw [M.bind_ok_run hx, M.bind_ok_run ht]
  exact this

/-! ## New states -/

/-- A state object that belongs to no record. -/
structure HWorld.FreeState (h : HWorld) (p : Nat) (s : SState) : Prop where
  lt : p < h.nextState
  free : ∀ i < h.nextRecord, (h.records i).current ≠ some p
  value : h.states p = s

theorem HWorld.FreeState.same {h h' : HWorld} {p : Nat} {s : SState} (hp : h.FreeState p s) (he : h.Same h') : h'.FreeState p s := by
  obtain ⟨w, rfl⟩ := he
  exact ⟨hp.lt, hp.free, hp.value⟩

theorem alloc_change {γ} (s : SState) (o : SState → SState) (k : Nat → M HWorld γ) : (allocState s >>= fun p => changeState p o >>= fun _ => k p) = allocState (o s) >>= k := by
  funext h
  have h1 : allocState s h = (.ok h.nextState, { h with states := upd h.states h.nextState s, nextState := h.nextState + 1 }) := rfl
  have h2 : changeState h.nextState o { h with states := upd h.states h.nextState s, nextState := h.nextState + 1 } =
      (.ok (), { h with states := upd h.states h.nextState (o s), nextState := h.nextState + 1 }) := by
    show (Res.ok (), _) = _
    simp only [upd_twice, upd_same]
  rw [M.bind_ok_run h1, M.bind_ok_run h2]
  rfl

theorem HSim.alloc {γ δ} {loaded : Bool} {r : Nat} {rec : Record} {h : HWorld} {s : SState} {f : Nat → M HWorld γ} {y : M World δ} {R : γ → δ → HWorld → Prop} (hl : Local aliased a h0 loaded r rec h)
    (hf : ∀ p h', h'.rest = h.rest → Local aliased a h0 loaded r rec h' → h'.FreeState p s → HSim aliased a h0 h' (f p) y R) : HSim aliased a h0 h (allocState s >>= f) y R := by
  have hfr : h.Fresh { h with states := upd h.states h.nextState s, nextState := h.nextState + 1 } := ⟨⟨_, rfl⟩, rfl, rfl, rfl, Nat.le_succ _, fun q hq => upd_ne _ _ (by omega)⟩
  have hs := hl.keep.sound
  refine .left (show allocState s h = (.ok h.nextState, _) from rfl) (values_same hs rfl rfl fun i hi => hfr.view (hs.valid i hi)) (hf _ _ rfl ?_ ?_)
  · exact hl.grow (hfr.grow r) ((hfr.view (hs.valid r hl.lt)).trans hl.view)
  · refine ⟨Nat.lt_succ_self _, fun i hi hc => ?_, upd_same ..⟩
    have := hs.valid i hi _ hc
    omega

theorem HSim.promote (E : Env) (hE : E.aliased = aliased) {γ δ} {loaded : Bool} {r p : Nat} {rec : Record} {s : SState} {h : HWorld} {f : Unit → M HWorld γ} {g : Unit → M World δ} {R : γ → δ → HWorld → Prop}
    (hl : Local aliased a h0 loaded r rec h) (hp : h.FreeState p s) (hf : ∀ h', Local aliased a h0 loaded r (rec.promoteState s) h' → HSim aliased a h0 h' (f ()) (g ()) R) :
    HSim aliased a h0 h (hPromoteState r p >>= f) (Verif.touch E a loaded (rec.promoteState s) >>= g) R := by
  obtain ⟨h', e1, e2, e3, e4, e5⟩ := promoteState_run r p h
  rw [hl.view, hp.value] at e5
  refine .touch E hE hl e1 (by rw [e2]) ?_ e5 (hf h')
  exact ⟨by rw [e2], e3, by rw [e2], by rw [e2]; exact Nat.le_refl _, fun q _ _ => by rw [e2], .inr ⟨p, e4, by rw [e2]; exact hp.lt, .inr fun i hi _ => hp.free i hi⟩⟩

/-! ## Decrypting with the local record -/

theorem decryptRecord_core (C : Crypto) {loaded : Bool} {r : Nat} {rec : Record} {h : HWorld} (m : Signal) (hl : Local aliased a h0 loaded r rec h) :
    ∃ (z : Res (Bytes × Record)) (h' : HWorld), hDecryptRecord C r m h = (Prod.fst <$> z, h') ∧ withRand (decryptRecord C rec m) h.values = (z, { h'.rest with sessions := h.values.sessions }) ∧ h.Grow r h' ∧
      (∀ pt rec', z = .ok (pt, rec') → h'.view r = rec') ∧ ((∀ y, z ≠ .ok y) → h'.view r = rec) := by
  have hv := hl.keep.sound.valid r hl.lt
  obtain ⟨h', e1, e2, e3, e4, e5⟩ := decryptRecord_hsim C r m hv
  rw [hl.view] at e1 e2 e4 e5
  exact ⟨_, h', e1, by rw [e2]; rfl, e3, e4, fun hn => ((e5 hn).view hv).trans hl.view⟩

theorem touch_same (E : Env) (hE : E.aliased = aliased) {loaded : Bool} {r : Nat} {rec : Record} {h h' : HWorld} (hl : Local aliased a h0 loaded r rec h) (hg : h.Grow r h') (hv : h'.view r = rec) :
    { h'.rest with sessions := h.values.sessions } = h'.values := by
  have h1 := hl.touched E hE hg hv
  unfold Verif.touch at h1
  split at h1
  · have h2 := congrArg Prod.snd h1
    simp only at h2
    rename_i hc
    rw [hE] at hc
    have hc' : aliased = true ∧ loaded = true := by cases aliased <;> cases loaded <;> simp_all
    have : upd h.values.sessions a (some rec) = h.values.sessions := by
      have : h.values.sessions a = some rec := by
        show (h.store a).map h.view = _
        rw [(hl.shared hc'.1 hc'.2).1, Option.map_some, hl.view]
      rw [← this, upd_at_self]
    rw [this] at h2
    exact h2
  · exact congrArg Prod.snd h1

theorem HSim.decryptRecord (E : Env) (hE : E.aliased = aliased) {γ δ} {loaded : Bool} {r : Nat} {rec : Record} {h : HWorld} (m : Signal) {f : Bytes → M HWorld γ} {g : Bytes × Record → Unit → M World δ} {R : γ → δ → HWorld → Prop}
    (hl : Local aliased a h0 loaded r rec h) (hf : ∀ pt rec' h', Local aliased a h0 loaded r rec' h' → HSim aliased a h0 h' (f pt) (g (pt, rec') ()) R) :
    HSim aliased a h0 h (hDecryptRecord E.C r m >>= f) (withRand (Verif.decryptRecord E.C rec m) >>= fun z => Verif.touch E a loaded z.2 >>= g z) R := by
  obtain ⟨z, h', e1, e2, e3, e4, e5⟩ := decryptRecord_core E.C m hl
  cases z with
  | ok z =>
    obtain ⟨pt, rec'⟩ := z
    have hv := e4 pt rec' rfl
    have := hf pt rec' h' (hl.grow e3 hv)
    unfold HSim at *
    rw [M.bind_ok_run (show hDecryptRecord E.C r m h = (.ok pt, h') from e1), M.bind_ok_run e2, M.bind_ok_run (hl.touched E hE e3 hv)]
    exact this
  | err e =>
    have hv := e5 (fun y hy => by cases hy)
    unfold HSim
    rw [M.bind_run, M.bind_run, e1, e2]
    exact ⟨touch_same E hE hl e3 hv, (hl.grow e3 hv).keep, rfl⟩
  | panic =>
    have hv := e5 (fun y hy => by cases hy)
    unfold HSim
    rw [M.bind_run, M.bind_run, e1, e2]
    exact ⟨touch_same E hE hl e3 hv, (hl.grow e3 hv).keep, trivial⟩

theorem HSim.attemptRecord (E : Env) (hE : E.aliased = aliased) {γ δ} {loaded : Bool} {r : Nat} {rec : Record} {h : HWorld} (m : Signal) {f : Except Err Bytes → M HWorld γ} {g : Except Err (Bytes × Record) → M World δ} {R : γ → δ → HWorld → Prop}
    (hl : Local aliased a h0 loaded r rec h)
    (hok : ∀ pt rec' (h' : HWorld), Local aliased a h0 loaded r rec' h' → ∃ k, g (.ok (pt, rec')) = Verif.touch E a loaded rec' >>= k ∧ HSim aliased a h0 h' (f (.ok pt)) (k ()) R)
    (herr : ∀ e (h' : HWorld), Local aliased a h0 loaded r rec h' → ∃ k, g (.error e) = Verif.touch E a loaded rec >>= k ∧ HSim aliased a h0 h' (f (.error e)) (k ()) R) :
    HSim aliased a h0 h (M.attempt (hDecryptRecord E.C r m) >>= f) (M.attempt (withRand (Verif.decryptRecord E.C rec m)) >>= g) R := by
  obtain ⟨z, h', e1, e2, e3, e4, e5⟩ := decryptRecord_core E.C m hl
  unfold HSim
  rw [M.bind_run, M.bind_run, M.attempt_run, M.attempt_run, e1, e2]
  cases z with
  | ok z =>
    obtain ⟨pt, rec'⟩ := z
    have hv := e4 pt rec' rfl
    obtain ⟨k, hk, hs⟩ := hok pt rec' h' (hl.grow e3 hv)
    simp only [hk]
    rw [M.bind_ok_run (hl.touched E hE e3 hv)]
    exact hs
  | err e =>
    have hv := e5 (fun y hy => by cases hy)
    obtain ⟨k, hk, hs⟩ := herr e h' (hl.grow e3 hv)
    simp only [hk]
    rw [M.bind_ok_run (hl.touched E hE e3 hv)]
    exact hs
  | panic =>
    have hv := e5 (fun y hy => by cases hy)
    exact ⟨touch_same E hE hl e3 hv, (hl.grow e3 hv).keep, trivial⟩

/-! ## The calls -/

theorem encryptState_keeps {C : Crypto} {s s' : SState} {pt : Bytes} {msg : Ciphertext} {k : PubKey} (he : encryptState C s pt = .ok (msg, s', k)) :
    ∃ ck, s.senderChainKey = .ok ck ∧ s' = s.setSenderChainKey (ck.next C) := by
  unfold encryptState at he
  obtain ⟨ck, h1, he⟩ := Res.bind_eq_ok.1 he
  obtain ⟨sr, h2, he⟩ := Res.bind_eq_ok.1 he
  obtain ⟨li, h3, he⟩ := Res.bind_eq_ok.1 he
  obtain ⟨o, h4, he⟩ := Res.bind_eq_ok.1 he
  cases o with
  | none => cases he
  | some k' =>
    obtain ⟨ct, h5, he⟩ := Res.bind_eq_ok.1 he
    obtain ⟨sg, h6, he⟩ := Res.bind_eq_ok.1 he
    obtain ⟨it, h7, he⟩ := Res.bind_eq_ok.1 he
    cases he
    exact ⟨ck, h1, rfl⟩

theorem encryptMessage_hsim (E : HEnv) (hE : E.aliased = aliased) (pt : Bytes) (hs : h0.Sound) :
    HSim aliased a h0 h0 (hEncryptMessage E a pt) (encryptMessage E.toEnv a pt) (fun u v _ => u = v) := by
  unfold hEncryptMessage encryptMessage
  refine .bind (loadSession_hsim E hE (.start hs) rfl) fun o o' h1 hk hq => ?_
  cases o with
  | none =>
    cases o' with
    | none => exact .throw hk
    | some rec => exact hq.elim
  | some r =>
    cases o' with
    | none => exact hq.elim
    | some rec =>
      have hl : Local aliased a h0 true r rec h1 := hq
      refine .left (show readRecord r h1 = (.ok (h1.records r), h1) from rfl) rfl ?_
      have hcur : rec.current = (h1.records r).current.map h1.states := by rw [← hl.view]; rfl
      cases hc : (h1.records r).current with
      | none =>
        rw [hc] at hcur
        simp only [hcur, Option.map_none]
        exact .throw hk
      | some p =>
        rw [hc] at hcur
        simp only [hcur, Option.map_some]
        have hget : ∀ {β} (o : SState → Res β), getState p o h1 = (o (h1.states p), h1) := fun _ => rfl
        cases henc : encryptState E.C (h1.states p) pt with
        | ok z =>
          obtain ⟨msg, s', k⟩ := z
          obtain ⟨ck, hck, hs'⟩ := encryptState_keeps henc
          refine .left ((hget _).trans (by rw [henc, Res.bind_ok, hck, Res.bind_ok, Res.pure_eq])) rfl ?_
          show HSim aliased a h0 h1 _ (Verif.touch E.toEnv a true (rec.setSessionState s') >>= _) _
          refine .touch E.toEnv hE hl (show changeState p _ h1 = (.ok (), { h1 with states := upd h1.states p _ }) from rfl) rfl ?_ ?_ fun hl' => ?_
          · refine ⟨rfl, fun _ _ => rfl, rfl, Nat.le_refl _, fun q _ hq => upd_ne _ _ ?_, .inl rfl⟩
            rintro rfl
            exact hq hc
          · rw [← hl.view, hs']
            simp [HWorld.view, hc, Record.setSessionState]
          · refine .rest (oblivious_isTrusted _ _ _ _) hl'.keep fun b h2 hsame => ?_
            have hl2 := hl'.same hsame
            cases b with
            | false => exact .throw hl2.keep
            | true =>
              refine .rest (oblivious_storeIdentity _ _) hl2.keep fun _ h3 hsame => ?_
              exact .bind (storeSession_hsim E (hl2.same hsame)) fun _ _ h4 hk4 _ => .pure hk4 rfl
        | err e => exact .failErr ((hget _).trans (by rw [henc]; rfl)) hk
        | panic => exact .failPanic ((hget _).trans (by rw [henc]; rfl)) hk

theorem loadOrNew_hsim (E : HEnv) (hE : E.aliased = aliased) {h : HWorld} (hk : Keep aliased a h0 h) (hst : h.store a = h0.store a) :
    HSim aliased a h0 h (hLoadOrNew E a) (loadSession a) (fun r o h' => Local aliased a h0 o.isSome r (o.getD {}) h') := by
  unfold hLoadOrNew
  have hid : (loadSession a : M World (Option Record)) = loadSession a >>= fun o => Pure.pure o := by
    funext w
    rw [M.bind_run]
    rcases loadSession a w with ⟨r, w'⟩
    cases r <;> rfl
  rw [hid]
  refine .bind (loadSession_hsim E hE hk hst) fun o o' h1 hk1 hq => ?_
  cases o with
  | none =>
    cases o' with
    | some rec => exact hq.elim
    | none =>
      have hs := hk1.sound
      have hv : ∀ i < h1.nextRecord, ({ h1 with records := upd h1.records h1.nextRecord {}, nextRecord := h1.nextRecord + 1 } : HWorld).view i = h1.view i := fun i hi => by
        simp [HWorld.view, upd_ne _ _ (show i ≠ h1.nextRecord by omega)]
      have hk2 : Keep aliased a h0 { h1 with records := upd h1.records h1.nextRecord {}, nextRecord := h1.nextRecord + 1 } := by
        refine ⟨⟨fun b i hb => Nat.lt_succ_of_lt (hs.stored b i hb), ?_, ?_, hs.single⟩, Nat.le_succ_of_le hk1.nextRecord, hk1.others, fun i hi hn => (hv i (Nat.lt_of_lt_of_le hi hk1.nextRecord)).trans (hk1.views i hi hn)⟩
        · intro i hi q hq
          simp only [upd] at hq
          simp only at hi
          split at hq
          · cases hq
          · exact hs.valid i (by omega) q hq
        · intro i hi j hj q hp hq
          simp only [upd] at hp hq
          simp only at hi hj
          split at hp
          · cases hp
          · split at hq
            · cases hq
            · exact hs.apart i (by omega) j (by omega) q hp hq
      refine ⟨(values_same (h' := { h1 with records := upd h1.records h1.nextRecord {}, nextRecord := h1.nextRecord + 1 }) hs rfl rfl hv).symm, hk2, ⟨hk2, Nat.lt_succ_self _, ?_, fun _ hn => by simp at hn, fun _ => ⟨fun b hb => ?_, hk1.nextRecord⟩⟩⟩
      · show HWorld.view _ h1.nextRecord = _
        simp [allocRecord, HWorld.view]
      · have := hs.stored b _ hb
        omega
  | some r =>
    cases o' with
    | none => exact hq.elim
    | some rec => exact .pure hk1 hq

theorem processPreKeyV3_hsim (E : HEnv) (hE : E.aliased = aliased) {loaded : Bool} {r : Nat} {rec : Record} {h : HWorld} (msg : PreKeyMsg) (hl : Local aliased a h0 loaded r rec h) :
    HSim aliased a h0 h (hProcessPreKeyV3 E r msg) (processPreKeyV3 E.toEnv a loaded rec msg) (fun u v h' => u = v.1 ∧ Local aliased a h0 loaded r v.2 h') := by
  unfold hProcessPreKeyV3 processPreKeyV3
  refine .getRecord hl fun found => ?_
  cases found with
  | true => exact .pure hl.keep ⟨rfl, hl⟩
  | false =>
    refine .rest (oblivious_loadSignedPreKey _) hl.keep fun signed h1 hs1 => ?_
    have hl1 := hl.same hs1
    have rest : ∀ (k : Option KeyPair) (h2 : HWorld), Local aliased a h0 loaded r rec h2 → HSim aliased a h0 h2 (do
        let h ← M.get
        let s ← M.lift (orPanic (initializeBobSession E.C
          { ourIdentityKeyPair := h.rest.identity, ourSignedPreKeyPair := signed, ourOneTimePreKeyPair := k, ourRatchetKeyPair := signed,
            theirIdentityKey := msg.identityKey, theirBaseKey := msg.baseKey }))
        let p ← allocState s
        changeState p fun s => { s with localRegistrationId := h.rest.regId }
        changeState p fun s => { s with remoteRegistrationId := msg.registrationID }
        changeState p fun s => { s with aliceBaseKey := msg.baseKey.bytes }
        hPromoteState r p
        return msg.preKeyID) (do
        let w ← M.get
        let s ← M.lift (orPanic (initializeBobSession E.C
          { ourIdentityKeyPair := w.identity, ourSignedPreKeyPair := signed, ourOneTimePreKeyPair := k, ourRatchetKeyPair := signed,
            theirIdentityKey := msg.identityKey, theirBaseKey := msg.baseKey }))
        let s := { s with localRegistrationId := w.regId, remoteRegistrationId := msg.registrationID, aliceBaseKey := msg.baseKey.bytes }
        let record := rec.promoteState s
        Verif.touch E.toEnv a loaded record
        return (msg.preKeyID, record)) (fun u v h' => u = v.1 ∧ Local aliased a h0 loaded r v.2 h') := by
      intro k h2 hl2
      refine .get (.lift hl2.keep fun s _ => ?_)
      rw [alloc_change, alloc_change, alloc_change]
      refine .alloc hl2 fun p h3 hr hl3 hp => ?_
      exact .promote E.toEnv hE hl3 hp fun h4 hl4 => .pure hl4.keep ⟨rfl, hl4⟩
    cases hid : msg.preKeyID with
    | none =>
      rw [hid] at rest
      exact rest none h1 hl1
    | some id =>
      rw [hid] at rest
      exact .rest (oblivious_loadPreKey id) hl1.keep fun k h2 hs2 => rest k h2 (hl1.same hs2)

theorem processPreKey_hsim (E : HEnv) (hE : E.aliased = aliased) {loaded : Bool} {r : Nat} {rec : Record} {h : HWorld} (msg : PreKeyMsg) (hl : Local aliased a h0 loaded r rec h) :
    HSim aliased a h0 h (hProcessPreKey E a r msg) (processPreKey E.toEnv a loaded rec msg) (fun u v h' => u = v.1 ∧ Local aliased a h0 loaded r v.2 h') := by
  unfold hProcessPreKey processPreKey
  refine .rest (oblivious_isTrusted _ _ _ _) hl.keep fun b h1 hs1 => ?_
  have hl1 := hl.same hs1
  cases b with
  | false => exact .throw hl1.keep
  | true =>
    refine .bind (processPreKeyV3_hsim E hE msg hl1) fun u v h2 hk2 hq => ?_
    obtain ⟨rfl, hl2⟩ := hq
    exact .rest (oblivious_storeIdentity _ _) hk2 fun _ h3 hs3 => .pure (hk2.same hs3) ⟨rfl, hl2.same hs3⟩

theorem decryptPreKey_hsim (E : HEnv) (hE : E.aliased = aliased) (msg : PreKeyMsg) (hs : h0.Sound) :
    HSim aliased a h0 h0 (hDecryptPreKey E a msg) (decryptPreKey E.toEnv a msg) (fun u v _ => u = v) := by
  unfold hDecryptPreKey decryptPreKey
  refine .bind (loadOrNew_hsim E hE (.start hs) rfl) fun r o h1 hk1 hl1 => ?_
  refine .bind (processPreKey_hsim E hE msg hl1) fun id v h2 hk2 hq => ?_
  obtain ⟨id', rec⟩ := v
  obtain ⟨he, hl2⟩ := hq
  simp only at he hl2
  subst he
  refine .decryptRecord E.toEnv hE msg.message hl2 (g := fun z _ => _) fun pt rec' h3 hl3 => ?_
  refine .bind (storeSession_hsim E hl3) fun _ _ h4 hk4 _ => ?_
  cases id with
  | none => exact .pure hk4 rfl
  | some id => exact .rest (oblivious_deletePreKey id) hk4 fun _ h5 hs5 => .pure (hk4.same hs5) rfl

theorem decryptSignal_hsim (E : HEnv) (hE : E.aliased = aliased) (msg : Signal) (hs : h0.Sound) :
    HSim aliased a h0 h0 (hDecryptSignal E a msg) (decryptSignal E.toEnv a msg) (fun u v _ => u = v) := by
  unfold hDecryptSignal decryptSignal
  refine .bind (loadSession_hsim E hE (.start hs) rfl) fun o o' h1 hk hq => ?_
  cases o with
  | none =>
    cases o' with
    | none => exact .throw hk
    | some rec => exact hq.elim
  | some r =>
    cases o' with
    | none => exact hq.elim
    | some rec =>
      have hl : Local aliased a h0 true r rec h1 := hq
      have rest : ∀ (pt : Option Bytes) (rec : Record) (h2 : HWorld), Local aliased a h0 true r rec h2 → HSim aliased a h0 h2 (do
          let c ← readRecord r
          match c.current with
          | none => M.throw .mustHaveState
          | some p =>
            let s ← readState p
            match s.remoteIdentityKey with
            | .ok (some theirIdentityKey) =>
              let trusted ← hRest (isTrusted E.toEnv a theirIdentityKey .receiving)
              if trusted then
                hRest (storeIdentity a theirIdentityKey)
                hStoreSession E a r
                return pt
              else M.throw (.untrustedIdentity a)
            | .panic => M.panic
            | _ => M.throw .mustHaveIdentity) (do
          match rec.current with
          | none => M.throw .mustHaveState
          | some state =>
            match state.remoteIdentityKey with
            | .ok (some theirIdentityKey) =>
              let trusted ← isTrusted E.toEnv a theirIdentityKey .receiving
              if trusted then
                storeIdentity a theirIdentityKey
                storeSession a rec
                return pt
              else M.throw (.untrustedIdentity a)
            | .panic => M.panic
            | _ => M.throw .mustHaveIdentity) (fun u v _ => u = v) := by
        intro pt rec h2 hl2
        refine .left (show readRecord r h2 = (.ok (h2.records r), h2) from rfl) rfl ?_
        have hcur : rec.current = (h2.records r).current.map h2.states := by rw [← hl2.view]; rfl
        cases hc : (h2.records r).current with
        | none =>
          rw [hc] at hcur
          simp only [hcur, Option.map_none]
          exact .throw hl2.keep
        | some p =>
          rw [hc] at hcur
          simp only [hcur, Option.map_some]
          refine .left (show readState p h2 = (.ok (h2.states p), h2) from rfl) rfl ?_
          cases (h2.states p).remoteIdentityKey with
          | panic => exact .panic hl2.keep
          | err e => exact .throw hl2.keep
          | ok k =>
            cases k with
            | none => exact .throw hl2.keep
            | some k =>
              refine .rest (oblivious_isTrusted _ _ _ _) hl2.keep fun b h3 hs3 => ?_
              have hl3 := hl2.same hs3
              cases b with
              | false => exact .throw hl3.keep
              | true =>
                refine .rest (oblivious_storeIdentity _ _) hl3.keep fun _ h4 hs4 => ?_
                exact .bind (storeSession_hsim E (hl3.same hs4)) fun _ _ h5 hk5 _ => .pure hk5 rfl
      refine .attemptRecord E.toEnv hE msg hl (fun pt rec' h2 hl2 => ⟨_, rfl, ?_⟩) (fun e h2 hl2 => ⟨_, rfl, ?_⟩)
      · exact rest (some pt) rec' h2 hl2
      · exact rest none rec h2 hl2

theorem decryptMessage_hsim (E : HEnv) (hE : E.aliased = aliased) (c : Ciphertext) (hs : h0.Sound) :
    HSim aliased a h0 h0 (hDecryptMessage E a c) (decryptMessage E.toEnv a c) (fun u v _ => u = v) := by
  cases c with
  | preKey m => exact .bind (decryptPreKey_hsim E hE m hs) fun u v h1 hk he => .pure hk (by rw [he])
  | signal m => exact decryptSignal_hsim E hE m hs
  | senderKey m => exact .throw (.start hs)
  | plaintext m => exact .throw (.start hs)

theorem processPreKeyBundle_hsim (E : HEnv) (hE : E.aliased = aliased) (b : Bundle) (hs : h0.Sound) :
    HSim aliased a h0 h0 (hProcessPreKeyBundle E a b) (processPreKeyBundle E.toEnv a b) (fun u v _ => u = v) := by
  unfold hProcessPreKeyBundle processPreKeyBundle
  refine .rest (oblivious_isTrusted _ _ _ _) (.start hs) fun t h1 hs1 => ?_
  have hk1 : Keep aliased a h0 h1 := (Keep.start hs).same hs1
  cases t with
  | false => exact .throw hk1
  | true =>
    simp only [if_true]
    refine .lift hk1 fun ok _ => ?_
    cases ok with
    | false => exact .throw hk1
    | true =>
      simp only [if_true]
      refine .bind (loadOrNew_hsim E hE hk1 (by obtain ⟨w, rfl⟩ := hs1; rfl)) fun r o h2 hk2 hl2 => ?_
      refine .rest (oblivious_withRand _) hk2 fun kp h3 hs3 => .get ?_
      have hl3 := hl2.same hs3
      refine .rest (oblivious_withRand _) hl3.keep fun s h4 hs4 => ?_
      have hl4 := hl3.same hs4
      rw [alloc_change, alloc_change, alloc_change, alloc_change]
      refine .alloc hl4 fun p h5 hr hl5 hp => ?_
      refine .rest (oblivious_storeIdentity _ _) hl5.keep fun _ h6 hs6 => ?_
      refine .promote E.toEnv hE (hl5.same hs6) (hp.same hs6) fun h7 hl7 => ?_
      have := storeSession_hsim E hl7
      unfold HSim at this ⊢
      obtain ⟨e1, e2, e3⟩ := this
      refine ⟨e1, e2, ?_⟩
      split
      · trivial
      · split at e3 <;> simp_all
      · trivial
      · split at e3 <;> simp_all

end

end Verif
