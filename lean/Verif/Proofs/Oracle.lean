import Verif.Spec.Oracle
import Verif.Proofs.GroupTranscript

/-!
# Helper lemmas for C122
-/

namespace Verif

open Doc

theorem verifyMAC_wrong (C : Crypto) {sec : Bytes} {snd rcv : PubKey} {m : Signal} (hk : ((sec.drop 32).take 32).length = 32)
    (h : m.WrongMac C sec snd rcv) : m.verifyMAC C ((sec.drop 32).take 32) snd rcv = .ok false := by
  obtain ⟨body, mac, h1, h2, h3⟩ := h
  rw [verifyMAC_eq C _ hk snd rcv m _ _ h1 h2]
  simp only [Res.ok.injEq, beq_eq_false_iff_ne, ne_eq]
  exact fun h => h3 h.symm

/-- The MAC is wrong for one state. -/
def SState.ForgedFor (C : Crypto) (s : SState) (m : Signal) : Prop :=
  ∀ sender receiver secrets, s.remoteIdentityPublic = wireKey sender → s.localIdentityPublic = wireKey receiver →
    s.Secrets C m.senderRatchetKey m.counter secrets → m.WrongMac C secrets sender receiver

section
variable {C C' : Crypto} (hC : C.SameButAesOn C' (fun _ => True)) {m m' : Signal} (hm : m.SameHeader m')
include hC hm

theorem forged_session {s : SState} (hs : s.WF) (hg : s.ForgedFor C m) (hg' : s.ForgedFor C m') (rd : Bytes) :
    decryptMessageSession C' s m' rd = decryptMessageSession C s m rd := by
  obtain ⟨f, g, l1, l2, l3, rfl⟩ := hC.eq
  obtain ⟨hm1, hm2, hm3⟩ := hm
  by_cases hc : s.senderChain.isSome
  rotate_left
  · have : s.senderChain = none := by simpa using hc
    unfold decryptMessageSession
    simp only [this]
  by_cases hv : m.version.toUInt32 = s.version
  rotate_left
  · obtain ⟨x, hx⟩ := Option.isSome_iff_exists.mp hc
    unfold decryptMessageSession
    simp only [hx]
    rw [hm1, if_pos hv, if_pos hv]
  have hsame : chainKeyFor (C.otherAes f g l1 l2 l3) s m'.senderRatchetKey rd = chainKeyFor C s m.senderRatchetKey rd := by rw [hm2]; rfl
  cases hck : chainKeyFor C s m.senderRatchetKey rd with
  | mk res rd' =>
    cases res with
    | err e =>
      obtain ⟨x, hx⟩ := Option.isSome_iff_exists.mp hc
      have run : ∀ (D : Crypto) (m : Signal), m.version.toUInt32 = s.version → chainKeyFor D s m.senderRatchetKey rd = (.err e, rd') →
          decryptMessageSession D s m rd = (.err e, rd') := by
        intro D m hv hD
        unfold decryptMessageSession
        simp only [hx]
        rw [if_neg (by simp [hv]), M.bind_run, hD]
      rw [run _ _ hv hck, run _ _ (by rw [hm1, hv]) (hsame.trans hck)]
    | panic =>
      obtain ⟨x, hx⟩ := Option.isSome_iff_exists.mp hc
      have run : ∀ (D : Crypto) (m : Signal), m.version.toUInt32 = s.version → chainKeyFor D s m.senderRatchetKey rd = (.panic, rd') →
          decryptMessageSession D s m rd = (.panic, rd') := by
        intro D m hv hD
        unfold decryptMessageSession
        simp only [hx]
        rw [if_neg (by simp [hv]), M.bind_run, hD]
      rw [run _ _ hv hck, run _ _ (by rw [hm1, hv]) (hsame.trans hck)]
    | ok y =>
      obtain ⟨ck, s1⟩ := y
      rw [decryptMessageSession_split C s m rd hc hv ck s1 rd' hck,
        decryptMessageSession_split _ s m' rd hc (by rw [hm1, hv]) ck s1 rd' (hsame.trans hck)]
      unfold finishDecrypt
      rw [otherAes_messageKeysFor, hm2, hm3]
      cases hmk : messageKeysFor C s1 m.senderRatchetKey ck m.counter with
      | err e => rfl
      | panic => rfl
      | ok z =>
        obtain ⟨mk, s2⟩ := z
        obtain ⟨sec, e1, e2, e3, e4, e5⟩ := keys_secrets hs hck hmk
        obtain ⟨hw, hck0⟩ := hs.chainKeyFor hck
        obtain ⟨hl, hr, _⟩ := hs.chainKeyFor_ids hck
        obtain ⟨i, c, c', _, _, _, rfl⟩ := messageKeysFor_taken hw hck0 hmk
        obtain ⟨lk, hlk⟩ := hs.localId
        obtain ⟨rk, hrk⟩ := hs.remoteId
        simp only [Res.bind_ok]
        rw [SState.remoteIdentityKey_bytes (k := rk) (by exact hr.trans hrk)]
        simp only [Res.bind_ok]
        rw [SState.localIdentityKey_bytes (k := lk) (by exact hl.trans hlk)]
        simp only [Res.bind_ok]
        rw [e3] at e5
        have v1 := verifyMAC_wrong C e5 (hg rk lk sec hrk hlk e1)
        have v2 := verifyMAC_wrong C e5 (hg' rk lk sec hrk hlk (by rw [hm2, hm3]; exact e1))
        have hmac : m'.verifyMAC (C.otherAes f g l1 l2 l3) mk.macKey rk lk = m'.verifyMAC C mk.macKey rk lk := rfl
        rw [hmac, e3, v1, v2]
        rfl

theorem forged_previous (l : List SState) : ∀ (i : Nat) (o : Option (Nat × SState × Bytes)) (rd : Bytes),
    (∀ s ∈ l, s.WF ∧ s.ForgedFor C m ∧ s.ForgedFor C m') → tryPrevious C' m' l i o rd = tryPrevious C m l i o rd := by
  induction l with
  | nil => exact fun i o rd _ => rfl
  | cons s l ih =>
    intro i o rd hl
    obtain ⟨hw, hg, hg'⟩ := hl s (List.mem_cons_self ..)
    have ih' := fun i o rd => ih i o rd (fun t ht => hl t (List.mem_cons_of_mem _ ht))
    simp only [tryPrevious, M.bind_run, M.attempt, forged_session hC hm hw hg hg' rd]
    generalize decryptMessageSession C s m rd = x
    obtain ⟨x1, x2⟩ := x
    cases x1 with
    | panic => rfl
    | ok z => exact ih' _ _ _
    | err er =>
      by_cases hd : er = .duplicateMessage
      · subst hd; rfl
      · cases er <;> first | exact absurd rfl hd | exact ih' _ _ _

theorem forged_decryptPrevious {r : Record} (hr : r.WF) (hg : ∀ s, r.HasState s → s.ForgedFor C m ∧ s.ForgedFor C m') (rd : Bytes) :
    decryptPrevious C' r m' rd = decryptPrevious C r m rd := by
  obtain ⟨l, hl, _, hp⟩ := hr.states
  have hall : ∀ s ∈ l, s.WF ∧ s.ForgedFor C m ∧ s.ForgedFor C m' := fun s hs => ⟨hl s hs, hg s ((hr.hasState hp s).mpr (.inr hs))⟩
  unfold decryptPrevious
  simp only [M.bind_run, M.lift_run, hp, forged_previous hC hm l 0 none rd hall]

theorem forged_record {r : Record} (hr : r.WF) (hg : ∀ s, r.HasState s → s.ForgedFor C m ∧ s.ForgedFor C m') (rd : Bytes) :
    decryptRecord C' r m' rd = decryptRecord C r m rd := by
  unfold decryptRecord
  cases hc : r.current with
  | none => exact forged_decryptPrevious hC hm hr hg rd
  | some s =>
    simp only
    obtain ⟨g1, g2⟩ := hg s (.inl hc)
    simp only [M.bind_run, M.attempt, forged_session hC hm (hr.current s hc) g1 g2 rd]
    generalize decryptMessageSession C s m rd = x
    obtain ⟨x1, x2⟩ := x
    cases x1 with
    | panic => rfl
    | ok z => rfl
    | err er =>
      by_cases hd : er = .duplicateMessage
      · subst hd; rfl
      · cases er <;> first | exact absurd rfl hd | exact forged_decryptPrevious hC hm hr hg _

end

section
variable {E : Env} {C' : Crypto} (hC : E.C.SameButAesOn C' (fun _ => True))
include hC

theorem forged_preKey {a : Address} {m : PreKeyMsg} {inner : Signal} {ser : Bytes} (hm : m.message.SameHeader inner) {w : World} (hw : w.WF)
    (hg : w.Forged E.C a (.preKey m)) (hg' : w.Forged E.C a (.preKey { m with message := inner, serialized := ser })) :
    decryptPreKey { E with C := C' } a { m with message := inner, serialized := ser } w = decryptPreKey E a m w := by
  have hrec : ∀ {r : Record} (rd : Bytes), r.WF → (∀ s, r.HasState s → s.ForgedFor E.C m.message ∧ s.ForgedFor E.C inner) → _ :=
    fun rd hr hg => forged_record hC hm hr hg rd
  obtain ⟨f, g, l1, l2, l3, hE⟩ := hC.eq
  have hp : ∀ b r, processPreKey { E with C := C' } a b r { m with message := inner, serialized := ser } = processPreKey E a b r m := by
    intro b r; rw [hE]; rfl
  unfold decryptPreKey
  rcases load_cases a w with ⟨fs, hfs, hl⟩ | hl
  rotate_left
  · simp only [M.bind_run (loadSession a)]
    generalize loadSession a w = x at hl ⊢
    obtain ⟨r, w1⟩ := x
    cases r with
    | ok x => exact absurd rfl (hl x)
    | err e => rfl
    | panic => rfl
  rw [M.bind_ok_run hl, M.bind_ok_run hl]
  simp only [M.bind_run (processPreKey _ _ _ _ _), hp]
  cases hpr : processPreKey E a (w.sessions a).isSome ((w.sessions a).getD {}) m { w with faults := fs } with
  | mk res w1 =>
    cases res with
    | err e => rfl
    | panic => rfl
    | ok y =>
      obtain ⟨oid, rec⟩ := y
      have hproc := processPreKey_ok hfs hpr
      have hwf : rec.WF := hproc.WF (hw.getD a)
      have k := hrec w1.rand hwf fun s hs => by
        have hrd := (processed_reader hw hproc hs).2
        refine ⟨fun snd rcv sec x1 x2 x3 => hg m.message s snd rcv sec rfl hrd x1 x2 x3, fun snd rcv sec x1 x2 x3 => hg' inner s snd rcv sec rfl ?_ x1 x2 x3⟩
        cases hrd with
        | stored _ r _ x y => exact .stored _ r s x y
        | fresh _ _ x y => exact .fresh _ s x ⟨y.ours, y.theirs, y.fresh, y.keys⟩
      simp only [M.bind_run (withRand _), withRand, k]
      rfl

theorem forged_signal {a : Address} {m m' : Signal} (hm : m.SameHeader m') {w : World} (hw : w.WF) (hg : w.Forged E.C a (.signal m))
    (hg' : w.Forged E.C a (.signal m')) : decryptSignal { E with C := C' } a m' w = decryptSignal E a m w := by
  unfold decryptSignal
  rcases load_cases a w with ⟨fs, hfs, hl⟩ | hl
  rotate_left
  · simp only [M.bind_run (loadSession a)]
    generalize loadSession a w = x at hl ⊢
    obtain ⟨r, w1⟩ := x
    cases r with
    | ok x => exact absurd rfl (hl x)
    | err e => rfl
    | panic => rfl
  rw [M.bind_ok_run hl, M.bind_ok_run hl]
  cases hr : w.sessions a with
  | none => rfl
  | some rec =>
    have k := forged_record hC hm (hw a rec hr) (fun s hs => ⟨fun snd rcv sec x1 x2 x3 => hg m s snd rcv sec rfl (.stored _ rec s hr hs) x1 x2 x3,
      fun snd rcv sec x1 x2 x3 => hg' m' s snd rcv sec rfl (.stored _ rec s hr hs) x1 x2 x3⟩) w.rand
    simp only [M.bind_run (M.attempt _), M.attempt, withRand, k]
    rfl

theorem forged_decrypt {a : Address} {x x' : Ciphertext} (hx : x.SameHeader x') {w : World} (hw : w.WF) (hg : w.Forged E.C a x)
    (hg' : w.Forged E.C a x') : decryptMessage { E with C := C' } a x' w = decryptMessage E a x w := by
  cases hx with
  | signal m m' h => exact forged_signal hC h hw hg hg'
  | preKey m inner ser h =>
    rw [decryptMessage_preKey, decryptMessage_preKey, forged_preKey hC h hw hg hg']

end

theorem forged_group {E : GEnv} {C' : Crypto} (hC : E.C.SameButAesOn C' (fun _ => True)) {a : Address} {m m' : SenderKeyMsg} (hm : m.SameHeader m')
    {w : GWorld} (hw : w.WF) (hg : w.Forged E.C a m) (hg' : w.Forged E.C a m') :
    groupDecrypt C' E.aliased a m' w = groupDecrypt E.C E.aliased a m w ∧ ∀ p, (groupDecrypt E.C E.aliased a m w).1 ≠ .ok p := by
  obtain ⟨f, g, l1, l2, l3, hE⟩ := hC.eq
  obtain ⟨hm1, hm2, hm3⟩ := hm
  have hwrong : ∀ {m : SenderKeyMsg} {k : PubKey}, m.WrongSignature E.C k → m.verifySignature E.C k = .ok false := by
    rintro m k ⟨body, sig, h1, h2, h3⟩
    unfold SenderKeyMsg.verifySignature PubKey.verifySignature
    have hlen : m.serialized.length = body.length + 64 := by rw [h1, List.length_append, h2]
    have hi : m.serialized.length - 64 = body.length := by omega
    rw [if_neg (by omega)]
    simp only [hi]
    rw [h1, List.take_left, List.drop_left, if_neg (by simp [h2])]
    simp only [List.flatten_cons, List.flatten_nil, List.append_nil, h3]
    rfl
  have hsig : ∀ k, m'.verifySignature C' k = m'.verifySignature E.C k := by intro k; rw [hE]; rfl
  unfold groupDecrypt
  rw [hm2]
  rcases gLoad_cases (a, m.distID) w with ⟨fs, hl⟩ | hl
  rotate_left
  · simp only [M.bind_run (gLoad _)]
    generalize gLoad (a, m.distID) w = x at hl ⊢
    obtain ⟨r, w1⟩ := x
    cases r with
    | ok x => exact absurd rfl (hl x)
    | err e => exact ⟨rfl, fun p h => by cases h⟩
    | panic => exact ⟨rfl, fun p h => by cases h⟩
  rw [M.bind_ok_run hl, M.bind_ok_run hl]
  cases hr : w.records (a, m.distID) with
  | none => exact ⟨rfl, fun p h => by cases h⟩
  | some g =>
  simp only [hm3]
  cases hst : GRecord.stateForChainID g m.chainID with
  | none => exact ⟨rfl, fun p h => by cases h⟩
  | some s =>
  simp only [hm1]
  by_cases hv : m.version.toUInt32 = s.version
  rotate_left
  · rw [if_pos hv, if_pos hv]; exact ⟨rfl, fun p h => by cases h⟩
  rw [if_neg (by simpa using hv), if_neg (by simpa using hv)]
  obtain ⟨hmem, hcid⟩ := GRecord.stateForChainID_some hst
  obtain ⟨k, hk, hpk⟩ := ((hw _ g hr).states s hmem).publicKey
  have v1 := hwrong (hg g s k hr hmem hcid hk)
  have v2 := hwrong (hg' g s k (by rw [hm2]; exact hr) hmem (by rw [hm3]; exact hcid) hk)
  simp only [M.bind_run (M.lift _), M.lift_run, hpk, hsig, v1, v2]
  exact ⟨rfl, fun p h => by cases h⟩

theorem tampered_calls {E : Env} {w : World} {cs cs' : List Call} (h : Tampered E w cs cs') : w.WF → runCalls E cs' w = runCalls E cs w := by
  induction h with
  | nil w => exact fun _ => rfl
  | same w c cs cs' hs ih =>
    intro hw
    simp only [runCalls, ih hw.call]
  | forged w a x x' rand faults cs cs' h h1 h2 hs ih =>
    intro hw
    have move : ∀ {x : Ciphertext}, w.Forged E.C a x → World.Forged E.C { w with rand := rand, faults := faults } a x := by
      intro x h m s snd rcv sec h1 h2
      refine h m s snd rcv sec h1 ?_
      cases h2 with
      | stored _ r _ x y => exact .stored _ r s x y
      | fresh m' _ x y => exact .fresh m' s x ⟨y.ours, y.theirs, y.fresh, y.keys⟩
    have hw' : World.WF { w with rand := rand, faults := faults } := hw
    have e := forged_decrypt (E := E) ⟨rfl, rfl, rfl, rfl, rfl, rfl, rfl, fun _ _ _ => rfl, fun _ _ _ => rfl⟩ h hw' (move h1) (move h2)
    have e' : Call.run E ⟨.decrypt a x', rand, faults⟩ w = Call.run E ⟨.decrypt a x, rand, faults⟩ w := by
      simp only [Call.run]
      have : ({ E with C := E.C } : Env) = E := rfl
      rw [this] at e
      rw [e]
    simp only [runCalls, e', ih hw.call]

theorem tampered_gcalls {E : GEnv} {w : GWorld} {cs cs' : List GCall} (h : GTampered E w cs cs') : w.WF →
    runGCalls E cs' w = runGCalls E cs w := by
  induction h with
  | nil w => exact fun _ => rfl
  | same w c cs cs' hs ih =>
    intro hw
    simp only [runGCalls, ih (hw.call _)]
  | forged w a m m' rand sysRand faults cs cs' h h1 h2 hs ih =>
    intro hw
    have hw' : GWorld.WF { w with rand := rand, sysRand := sysRand, faults := faults } := hw
    obtain ⟨e, hn⟩ := forged_group (E := E) (w := { w with rand := rand, sysRand := sysRand, faults := faults })
      ⟨rfl, rfl, rfl, rfl, rfl, rfl, rfl, fun _ _ _ => rfl, fun _ _ _ => rfl⟩ h hw' h1 h2
    have e' : GCall.run E ⟨.decrypt a m', rand, sysRand, faults⟩ w = GCall.run E ⟨.decrypt a m, rand, sysRand, faults⟩ w := by
      simp only [GCall.run]
      rw [e]
      generalize groupDecrypt E.C E.aliased a m { w with rand := rand, sysRand := sysRand, faults := faults } = x at hn ⊢
      obtain ⟨r, w1⟩ := x
      cases r with
      | ok p => exact absurd rfl (hn p)
      | err e => rfl
      | panic => rfl
    simp only [runGCalls, e', ih (hw.call _)]

end Verif
