import Verif.Proofs.Duo
import Verif.Spec.Recovery

/-!
A conversation that starts afresh runs like one between strangers: what is in the archive does not matter.
-/

namespace Verif

/-- A user who has talked to this address before, and one who has not: the session in use is the same. -/
structure Aged (a : Address) (base : Bytes) (w w0 : World) : Prop where
  known : w.known = w0.known
  preKeys : w.preKeys = w0.preKeys
  signed : w.signedPreKeys = w0.signedPreKeys
  identity : w.identity = w0.identity
  reg : w.regId = w0.regId
  sess : (w0.sessions a = none ∧ ∀ r, w.sessions a = some r → r.hasSessionState 3 base = .ok false) ∨
    ∃ t r, w0.sessions a = some { current := some t } ∧ w.sessions a = some r ∧ r.current = some t

theorem decryptRecord_by_current {C : Crypto} {rec : Record} {t t' : SState} {m : Signal} {rd rd' p : Bytes} (hc : rec.current = some t)
    (h : decryptMessageSession C t m rd = (.ok (p, t'), rd')) : decryptRecord C rec m rd = (.ok (p, rec.setSessionState t'), rd') := by
  unfold decryptRecord
  simp only [hc]
  rw [M.bind_run, M.attempt, h]
  rfl

theorem Aged.signal {E : Env} {a : Address} {base : Bytes} {w w0 : World} (h : Aged a base w w0) {m : Signal} (rd p : Bytes)
    (hr : (decryptSignal E a m { w0 with rand := rd, faults := [] }).1 = .ok (some p)) :
    (decryptSignal E a m { w with rand := rd, faults := [] }).1 = .ok (some p) ∧
    Aged a base (decryptSignal E a m { w with rand := rd, faults := [] }).2 (decryptSignal E a m { w0 with rand := rd, faults := [] }).2 := by
  have ho := signal_outcome E a m { w0 with rand := rd, faults := [] }
  generalize decryptSignal E a m { w0 with rand := rd, faults := [] } = x at ho hr ⊢
  obtain ⟨r, w0'⟩ := x
  simp only at ho hr ⊢
  subst hr
  generalize hq : (Res.ok (some p) : Res (Option Bytes)) = q at ho
  cases ho with
  | early _ fs rd' hb => subst hq; simp at hb
  | stopped _ fs hb => subst hq; simp at hb
  | done fs rec rec' pt rd' st k h1 h2 h3 h4 ht =>
    simp only [Res.ok.injEq] at hq
    subst hq
    rcases h.sess with ⟨hn, _⟩ | ⟨t, r, s1, s2, s3⟩
    · rw [hn] at h1; simp at h1
    · rw [s1] at h1
      simp only [Option.some.injEq] at h1
      subst h1
      cases h2 with
      | ok _ _ _ hd =>
        obtain ⟨t', hd', rfl⟩ := decryptRecord_one hd
        simp only [Option.some.injEq] at h3
        subst h3
        have hrun := signal_run (E := E) (a := a) (m := m) (w := { w with rand := rd, faults := [] }) (rec := r) rfl s2
          (.ok _ _ _ (decryptRecord_by_current s3 hd')) rfl h4 (by rw [show ({ w with rand := rd, faults := [] } : World).known = w0.known from h.known]; exact ht)
        rw [hrun]
        refine ⟨rfl, ⟨?_, h.preKeys, h.signed, h.identity, h.reg, .inr ⟨t', _, upd_same _ _ _, upd_same _ _ _, rfl⟩⟩⟩
        simp only [h.known]

theorem Aged.preKey {E : Env} {a : Address} {base : Bytes} {w w0 : World} (h : Aged a base w w0) {m : PreKeyMsg} (rd p : Bytes)
    (hb : m.baseKey.bytes = base) (hv : m.version = 3)
    (hf : ∀ r0, w0.sessions a = some r0 → ∀ t, r0.current = some t → t.version = 3 ∧ t.aliceBaseKey = base)
    (hr : (decryptPreKey E a m { w0 with rand := rd, faults := [] }).1 = .ok p) :
    (decryptPreKey E a m { w with rand := rd, faults := [] }).1 = .ok p ∧
    Aged a base (decryptPreKey E a m { w with rand := rd, faults := [] }).2 (decryptPreKey E a m { w0 with rand := rd, faults := [] }).2 := by
  have ho := preKey_outcome E a m { w0 with rand := rd, faults := [] }
  generalize decryptPreKey E a m { w0 with rand := rd, faults := [] } = x at ho hr ⊢
  obtain ⟨r, w0'⟩ := x
  simp only at ho hr ⊢
  subst hr
  generalize hq : (Res.ok p : Res Bytes) = q at ho
  cases ho with
  | early _ fs hb => subst hq; simp at hb
  | processed _ fs hb => subst hq; simp at hb
  | decrypted _ fs hb => subst hq; simp at hb
  | done fs id rec rec' p' rd' ht hp hd =>
    simp only [Res.ok.injEq] at hq
    subst hq
    have ht' : E.trusted ({ w with rand := rd, faults := [] } : World).known a m.identityKey .receiving = true := by
      rw [show ({ w with rand := rd, faults := [] } : World).known = w0.known from h.known]; exact ht
    have key : ∀ (rec1 : Record) (t : SState), rec = { current := some t } → rec1.current = some t →
        Processed E { w with rand := rd, faults := [] } ((w.sessions a).getD {}) m id rec1 →
        (decryptPreKey E a m { w with rand := rd, faults := [] }).1 = .ok p ∧
        Aged a base (decryptPreKey E a m { w with rand := rd, faults := [] }).2
          { w0 with rand := rd', faults := fs, sessions := upd w0.sessions a (some rec'), known := upd w0.known a (some m.identityKey), preKeys := dropPreKey w0.preKeys id } := by
      intro rec1 t he hc hp1
      subst he
      obtain ⟨t', hd', rfl⟩ := decryptRecord_one hd
      have hrun := preKey_run (E := E) (a := a) (m := m) (w := { w with rand := rd, faults := [] }) rfl ht' hp1 (decryptRecord_by_current hc hd')
      rw [hrun]
      refine ⟨rfl, ⟨?_, ?_, h.signed, h.identity, h.reg, .inr ⟨t', _, upd_same _ _ _, upd_same _ _ _, rfl⟩⟩⟩
      · simp only [h.known]
      · simp only [h.preKeys]
    rcases h.sess with ⟨hn, hno⟩ | ⟨t, r, s1, s2, s3⟩
    · simp only [hn, Option.getD_none] at hp
      have hfalse : ((w.sessions a).getD {}).hasSessionState m.version.toUInt32 m.baseKey.bytes = .ok false := by
        cases hw : w.sessions a with
        | none => simp [Record.hasSessionState, Record.previousStates, Record.parseAll]
        | some r => rw [hb, hv]; exact hno r hw
      cases hp with
      | found hx => simp [Record.hasSessionState, Record.previousStates, Record.parseAll] at hx
      | fresh hx signed one s hs hone hi s' hs' =>
        refine key (((w.sessions a).getD {}).promoteState s') s' rfl rfl ?_
        refine .fresh hfalse signed one s ?_ ?_ ?_ s' ?_
        · rw [show ({ w with rand := rd, faults := [] } : World).signedPreKeys = w0.signedPreKeys from h.signed]; exact hs
        · rw [show ({ w with rand := rd, faults := [] } : World).preKeys = w0.preKeys from h.preKeys]; exact hone
        · rw [show ({ w with rand := rd, faults := [] } : World).identity = w0.identity from h.identity]; exact hi
        · rw [show ({ w with rand := rd, faults := [] } : World).regId = w0.regId from h.reg]; exact hs'
    · obtain ⟨v1, v2⟩ := hf _ s1 t rfl
      have hfound : ∀ r : Record, r.current = some t → r.hasSessionState m.version.toUInt32 m.baseKey.bytes = .ok true := by
        intro r hr
        simp [Record.hasSessionState, hr, v1, v2, hb, hv]
      simp only [s1, Option.getD_some] at hp
      cases hp with
      | found =>
        refine key r t rfl s3 ?_
        have := Processed.found (E := E) (w := { w with rand := rd, faults := [] }) (msg := m) (hfound r s3)
        rwa [s2]
      | fresh hx =>
        rw [hfound _ rfl] at hx
        simp at hx

theorem Aged.encrypt {E : Env} {a : Address} {base : Bytes} {w w0 : World} (h : Aged a base w w0) {pt : Bytes} {c : Ciphertext}
    (hr : (encryptMessage E a pt { w0 with faults := [] }).1 = .ok c) :
    (encryptMessage E a pt { w with faults := [] }).1 = .ok c ∧
    Aged a base (encryptMessage E a pt { w with faults := [] }).2 (encryptMessage E a pt { w0 with faults := [] }).2 := by
  have ho := encrypt_outcome E a pt { w0 with faults := [] }
  generalize encryptMessage E a pt { w0 with faults := [] } = x at ho hr ⊢
  obtain ⟨r, w0'⟩ := x
  simp only at ho hr ⊢
  subst hr
  generalize hq : (Res.ok c : Res Ciphertext) = q at ho
  cases ho with
  | early _ fs hb => subst hq; simp at hb
  | stopped _ fs hb => subst hq; simp at hb
  | done fs rec st st' msg k h1 h2 h3 ht =>
    simp only [Res.ok.injEq] at hq
    subst hq
    rcases h.sess with ⟨hn, _⟩ | ⟨t, r, s1, s2, s3⟩
    · rw [hn] at h1; simp at h1
    · rw [s1] at h1
      simp only [Option.some.injEq] at h1
      subst h1
      simp only [Option.some.injEq] at h2
      subst h2
      have hrun := encrypt_run (E := E) (a := a) (w := { w with faults := [] }) (rec := r) rfl s2 s3 h3
        (by rw [show ({ w with faults := [] } : World).known = w0.known from h.known]; exact ht)
      rw [hrun]
      refine ⟨rfl, ⟨?_, h.preKeys, h.signed, h.identity, h.reg, .inr ⟨st', _, upd_same _ _ _, upd_same _ _ _, rfl⟩⟩⟩
      simp only [h.known]

variable {d : Duo} {ident : Side → PubKey} {b : Bundle} {base : PubKey} {o : Opening} {F : List Bytes} {N : Nat} {L : Nat → Rung}
  {lev cnt : Side → Nat} {st : Side → Option SState} {S S0 : DSys}

/-- The conversation, and the same one between strangers. -/
structure Alike (d : Duo) (base : PubKey) (S S0 : DSys) : Prop where
  sent : S.sent = S0.sent
  got : S.got = S0.got
  world : ∀ s, Aged (d.address s.other) base.bytes (S.world s) (S0.world s)

theorem Alike.upd {w w0 : World} (h : Alike d base S S0) {s : Side} (hw : Aged (d.address s.other) base.bytes w w0) :
    ∀ u, Aged (d.address u.other) base.bytes (upd S.world s w u) (upd S0.world s w0 u) := by
  intro u
  by_cases hu : u = s
  · subst hu; simpa using hw
  · rw [upd_ne _ _ hu, upd_ne _ _ hu]; exact h.world u

theorem Alike.receive (htr : ∀ s (known : Address → Option PubKey) dir, known (d.address s.other) = none ∨ known (d.address s.other) = some (ident s.other) →
      d.trusted s known (d.address s.other) (ident s.other) dir = true) {rd : Bytes}
    (h : Alike d base S S0) (hI : Inv d ident b base o (rd :: F) N L lev cnt st S0) {s : Side} {c : Ciphertext} {pt : Bytes} {k : PubKey} {j : UInt32}
    (hc : (c, pt) ∈ S0.sent s.other) (hp : c.position = some (k, j)) (hw : InWindow (S0.got s) k j) :
    (d.receive s c rd (S.world s)).1 = .ok (some pt) ∧
    Aged (d.address s.other) base.bytes (d.receive s c rd (S.world s)).2 (d.receive s c rd (S0.world s)).2 := by
  have hr := hI.delivers htr hc hp hw
  obtain ⟨m, e, _, _, _, _, hre, _, hkind⟩ := hI.sent _ _ hc
  simp only at hre hkind
  have hrecv : ∀ w, d.receive s c rd w = decryptMessage (d.env s) (d.address s.other) c { w with rand := rd, faults := [] } := by
    intro w
    simp only [Duo.receive, hre]
  rw [hrecv] at hr ⊢
  rw [hrecv]
  rcases hkind with ⟨rfl, _⟩ | ⟨hs, pm, rfl, hm, hv, hb, _⟩
  · exact (h.world s).signal rd pt hr
  · obtain rfl : s = .bob := by cases s <;> simp_all [Side.other]
    simp only [decryptMessage] at hr ⊢
    have hr' : (decryptPreKey (d.env .bob) (d.address Side.bob.other) pm { S0.world .bob with rand := rd, faults := [] }).1 = .ok pt := by
      rw [M.bind_run] at hr
      generalize decryptPreKey (d.env .bob) (d.address Side.bob.other) pm { S0.world .bob with rand := rd, faults := [] } = x at hr
      obtain ⟨r, w⟩ := x
      cases r with
      | ok p =>
        have : p = pt := by simpa [M.pure_run] using hr
        rw [this]
      | err => simp at hr
      | panic => simp at hr
    have := (h.world .bob).preKey rd pt (by rw [hb]) hv (fun r0 h0 t ht => by
      rw [hI.sess .bob] at h0
      cases hst : st .bob with
      | none => rw [hst] at h0; simp at h0
      | some t0 =>
        rw [hst] at h0
        simp only [Option.map_some, Option.some.injEq] at h0
        subst h0
        simp only [Option.some.injEq] at ht
        subst ht
        have hv := hI.view .bob t0 hst
        exact ⟨by simp [SState.version, hv.wf.version], (hI.ready t0 hst).2.1⟩) hr'
    obtain ⟨h1, h2⟩ := this
    have hrun : ∀ {w : World}, (decryptPreKey (d.env .bob) (d.address Side.bob.other) pm w).1 = .ok pt →
        (decryptPreKey (d.env .bob) (d.address Side.bob.other) pm >>= fun p => (pure (some p) : M World (Option Bytes))) w =
          (.ok (some pt), (decryptPreKey (d.env .bob) (d.address Side.bob.other) pm w).2) := by
      intro w hw
      rw [M.bind_ok_run (Prod.ext hw rfl)]
      rfl
    rw [hrun h1, hrun hr']
    exact ⟨rfl, h2⟩

theorem Alike.step (htr : ∀ s (known : Address → Option PubKey) dir, known (d.address s.other) = none ∨ known (d.address s.other) = some (ident s.other) →
      d.trusted s known (d.address s.other) (ident s.other) dir = true) {es : List DEvent} {ev : DEvent}
    (h : Alike d base S S0) (hI : Inv d ident b base o (deliveryRand (ev :: es)) N L lev cnt st S0) (hok : ev.Smooth S) :
    Alike d base (d.step S ev) (d.step S0 ev) ∧ ev.Ok d S0 := by
  cases ev with
  | send s pt =>
    obtain ⟨h1, h2⟩ := hok
    refine ⟨?_, h1⟩
    obtain ⟨c, hc⟩ := hI.canSend htr s (by rw [← h.got]; exact h2) pt
    obtain ⟨hc', ha⟩ := (h.world s).encrypt hc
    have e1 : encryptMessage (d.env s) (d.address s.other) pt { S.world s with faults := [] } = (.ok c, _) := Prod.ext hc' rfl
    have e2 : encryptMessage (d.env s) (d.address s.other) pt { S0.world s with faults := [] } = (.ok c, _) := Prod.ext hc rfl
    simp only [Duo.step]
    rw [e1, e2]
    exact ⟨by simp only [h.sent], h.got, h.upd ha⟩
  | deliver s i rd =>
    constructor
    · simp only [Duo.step, h.sent]
      cases hi : (S0.sent s.other)[i]? with
      | none => exact h
      | some cp =>
        obtain ⟨c, pt⟩ := cp
        have hmem := List.mem_of_getElem? hi
        obtain ⟨m, e, _, _, _, _, _, hpos, _⟩ := hI.sent _ _ hmem
        simp only at hpos
        have hw : InWindow (S0.got s) m.senderRatchetKey m.counter := by
          rw [← h.got]
          exact hok c pt _ _ (by rw [h.sent]; exact hi) hpos
        obtain ⟨r1, ha⟩ := Alike.receive htr h (F := deliveryRand es) hI hmem hpos hw
        have r2 := Inv.delivers htr (F := deliveryRand es) hI hmem hpos hw
        have e1 : d.receive s c rd (S.world s) = (.ok (some pt), _) := Prod.ext r1 rfl
        have e2 : d.receive s c rd (S0.world s) = (.ok (some pt), _) := Prod.ext r2 rfl
        simp only
        rw [e1, e2, hpos]
        exact ⟨rfl, by simp only [h.got], h.upd ha⟩
    · intro c pt k n hi hpos hseen hrec
      have := hok c pt k n (by rw [h.sent]; exact hi) hpos
      rw [h.got] at this
      rcases this.chain with hx | hx
      · exact absurd hx hrec
      · exact absurd hseen hx

theorem Alike.run (htr : ∀ s (known : Address → Option PubKey) dir, known (d.address s.other) = none ∨ known (d.address s.other) = some (ident s.other) →
      d.trusted s known (d.address s.other) (ident s.other) dir = true) (es es' : List DEvent) :
    ∀ {S S0 : DSys} {N : Nat} {L : Nat → Rung} {lev cnt : Side → Nat} {st : Side → Option SState}, Alike d base S S0 →
    Inv d ident b base o (deliveryRand (es ++ es')) N L lev cnt st S0 → d.Smooth S es → N + es.length < 4294967296 →
    Alike d base (d.run S es) (d.run S0 es) ∧
    ∃ L lev cnt st, Inv d ident b base o (deliveryRand es') (N + es.length) L lev cnt st (d.run S0 es) := by
  induction es with
  | nil =>
    intro S S0 N L lev cnt st h hI _ _
    exact ⟨h, L, lev, cnt, st, hI⟩
  | cons ev es ih =>
    intro S S0 N L lev cnt st h hI hok hN
    rw [List.length_cons] at hN
    rw [List.length_cons, show N + (es.length + 1) = N + 1 + es.length by omega]
    obtain ⟨h1, h2⟩ := Alike.step htr h hI hok.1
    obtain ⟨L1, lev1, cnt1, st1, hI'⟩ := Inv.run htr [ev] (es ++ es') hI ⟨h2, trivial⟩ (by simp; omega)
    exact ih h1 hI' hok.2 (by omega)

/-- This user without any session with this address. -/
def World.forgetting (w : World) (a : Address) : World := { w with sessions := Verif.upd w.sessions a none }

theorem Duo.Afresh.strangers {alice bob : World} {rand : Bytes} (h : d.Afresh alice bob b rand) :
    d.Strangers (alice.forgetting (d.address .bob)) (bob.forgetting (d.address .alice)) b :=
  ⟨upd_same _ _ _, upd_same _ _ _, h.aliceKey, ⟨h.offers.identity, h.offers.signed, h.offers.signature, h.offers.oneTime⟩, h.aliceTrusts, h.bobTrusts⟩

theorem Duo.Afresh.begins {alice bob : World} {rand : Bytes} {es : List DEvent} (h : d.Afresh alice bob b rand) (hf : FreshKeys d.C b rand es) :
    (processPreKeyBundle (d.env .alice) (d.address .bob) b { alice with rand := rand, faults := [] }).1 = .ok () ∧
    ∃ base o L lev cnt st S0, Inv d (identOf alice bob) b base o (deliveryRand es) 0 L lev cnt st S0 ∧ Alike d base (d.start alice bob b rand) S0 := by
  obtain ⟨hp, base, o, L, lev, cnt, st, hI, hb⟩ := Duo.begins h.strangers hf
  obtain ⟨bk, k1, k2, _⟩ := hb.keys
  have ho := bundle_outcome (d.env .alice) (d.address .bob) b { alice.forgetting (d.address .bob) with rand := rand, faults := [] }
  have hstart : (d.start (alice.forgetting (d.address .bob)) (bob.forgetting (d.address .alice)) b rand) =
    { world := fun | .alice => (processPreKeyBundle (d.env .alice) (d.address .bob) b { alice.forgetting (d.address .bob) with rand := rand, faults := [] }).2 | .bob => bob.forgetting (d.address .alice) } := rfl
  have key : (processPreKeyBundle (d.env .alice) (d.address .bob) b { alice with rand := rand, faults := [] }).1 = .ok () ∧
      Aged (d.address .bob) base.bytes (processPreKeyBundle (d.env .alice) (d.address .bob) b { alice with rand := rand, faults := [] }).2
        (processPreKeyBundle (d.env .alice) (d.address .bob) b { alice.forgetting (d.address .bob) with rand := rand, faults := [] }).2 := by
    generalize processPreKeyBundle (d.env .alice) (d.address .bob) b { alice.forgetting (d.address .bob) with rand := rand, faults := [] } = x at ho hp ⊢
    obtain ⟨r, w0⟩ := x
    simp only at ho hp ⊢
    subst hp
    generalize hq : (Res.ok () : Res Unit) = q at ho
    cases ho with
    | early _ fs rd hb => subst hq; simp at hb
    | stopped _ fs hb => subst hq; simp at hb
    | done fs s rd ht hv hfb =>
      obtain ⟨bk', rd1, rd2, s0, g1, g2, _, rfl⟩ := hfb
      have hfb' : FromBundle (d.env .alice) { alice with rand := rand, faults := [] } b _ rd :=
        FromBundle.mk (w := { alice with rand := rand, faults := [] }) bk' rd1 rd s0 g1 g2 _ rfl
      have hrun := bundle_run (E := d.env .alice) (a := d.address .bob) (w := { alice with rand := rand, faults := [] }) rfl ht hv hfb'
      rw [hrun]
      refine ⟨rfl, ⟨rfl, rfl, rfl, rfl, rfl, .inr ⟨_, _, ?_, upd_same _ _ _, rfl⟩⟩⟩
      simp only [World.forgetting, upd_same]
      rfl
  refine ⟨key.1, base, o, L, lev, cnt, st, _, hI, ?_⟩
  rw [hstart]
  refine ⟨rfl, rfl, ?_⟩
  intro s
  cases s with
  | alice => exact key.2
  | bob =>
    refine ⟨rfl, rfl, rfl, rfl, rfl, .inl ⟨upd_same _ _ _, ?_⟩⟩
    intro r hr
    have hwf := h.bobHistory.WF _ _ hr
    have hpk : publicKeyOf d.C rand = some base := by rw [k2]; unfold publicKeyOf; rw [k1]
    have hnew : ∀ u, r.HasState u → (base.bytes == u.aliceBaseKey) = false := by
      intro u hu
      have := h.newBase r u base hr hu hpk
      simp only [beq_eq_false_iff_ne, ne_eq]
      exact fun he => this he.symm
    obtain ⟨l, hl, hl2, hl3⟩ := hwf.states
    have hany : (l.any fun s => (3 : UInt32) == s.version && base.bytes == s.aliceBaseKey) = false := by
      rw [List.any_eq_false]
      intro u hu
      have : r.HasState u := (hwf.hasState hl3 u).2 (.inr hu)
      simp [hnew u this]
    unfold Record.hasSessionState
    rw [hl3]
    cases hc : r.current with
    | none => simp [hany]
    | some t => simp [hany, hnew t (.inl hc)]

end Verif
