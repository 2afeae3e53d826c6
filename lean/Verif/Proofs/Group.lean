import Verif.Spec.Group
import Verif.Proofs.Ops
import Verif.Proofs.State

/-!
Group sessions: the message key ratchet in closed form, and complete case analyses of the group operations.
-/

namespace Verif

attribute [local irreducible] maxMessageKeys

/-! ## The ratchet -/

/-- `n` steps along a sender-key chain. -/
def skIter (C : Crypto) (ck : SKChainKey) : Nat → SKChainKey
  | 0 => ck
  | n + 1 => (skIter C ck n).next C

theorem skIter_next (C : Crypto) (ck : SKChainKey) (n : Nat) : skIter C (ck.next C) n = skIter C ck (n + 1) := by
  induction n with
  | zero => rfl
  | succ n ih => simp only [skIter] at ih ⊢; rw [ih]

theorem skIter_add (C : Crypto) (ck : SKChainKey) (m n : Nat) : skIter C (skIter C ck m) n = skIter C ck (m + n) := by
  induction n with
  | zero => rfl
  | succ n ih =>
    show (skIter C (skIter C ck m) n).next C = (skIter C ck (m + n)).next C
    rw [ih]

theorem skIter_iteration (C : Crypto) (ck : SKChainKey) (n : Nat) : (skIter C ck n).iteration = ck.iteration + UInt32.ofNat n := by
  induction n with
  | zero => simp [skIter]
  | succ n ih =>
    have e : UInt32.ofNat (n + 1) = UInt32.ofNat n + 1 := UInt32.ofNat_add n 1
    simp only [skIter, SKChainKey.next, ih, e]
    rw [UInt32.add_assoc]

/-- The stored form of a message key (protocol/session/group_state.go:82-85). -/
def SKMessageKey.stored (k : SKMessageKey) : SKChainKey := { seed := k.seed, iteration := k.iteration }

/-- The message keys stored when a chain moves `n` steps on. -/
def skSkipped (C : Crypto) (ck : SKChainKey) (n : Nat) : List SKChainKey :=
  (List.range n).map fun i => ((skIter C ck i).messageKey C).stored

theorem skSkipped_succ (C : Crypto) (ck : SKChainKey) (n : Nat) :
    skSkipped C ck (n + 1) = (ck.messageKey C).stored :: skSkipped C (ck.next C) n := by
  simp only [skSkipped, List.range_succ_eq_map, List.map_cons, List.map_map]
  congr 1
  apply List.map_congr_left
  intro i _
  simp [skIter_next]

@[simp] theorem skSkipped_length (C : Crypto) (ck : SKChainKey) (n : Nat) : (skSkipped C ck n).length = n := by simp [skSkipped]

theorem GState.addMessageKey_eq {s : GState} (h : s.messageKeys.length ≤ maxMessageKeys) (k : SKMessageKey) :
    s.addMessageKey k = { s with messageKeys := lastN maxMessageKeys (s.messageKeys ++ [k.stored]) } := by
  simp only [GState.addMessageKey]
  rw [← push_eq_lastN _ h]
  rfl

theorem groupSkipLoop_spec (C : Crypto) (it : UInt32) (n : Nat) (ck : SKChainKey) (s : GState)
    (hl : s.messageKeys.length ≤ maxMessageKeys) (hn : ck.iteration.toNat + n = it.toNat) :
    groupSkipLoop C it n ck s = (skIter C ck n, { s with messageKeys := lastN maxMessageKeys (s.messageKeys ++ skSkipped C ck n) }) := by
  induction n generalizing ck s with
  | zero => simp [groupSkipLoop, skIter, skSkipped, lastN_of_le hl]
  | succ n ih =>
    have hlt : ck.iteration < it := by rw [UInt32.lt_iff_toNat_lt]; omega
    have hb := it.toNat_lt
    have hnext : (ck.next C).iteration.toNat = ck.iteration.toNat + 1 := by
      have : (ck.iteration + 1).toNat = (ck.iteration.toNat + 1) % 2 ^ 32 := by simp [UInt32.toNat_add]
      simp only [SKChainKey.next, this]
      omega
    simp only [groupSkipLoop, hlt, if_true]
    rw [GState.addMessageKey_eq hl]
    rw [ih _ _ (by simp only [lastN_length]; omega) (by omega)]
    simp only [skIter_next, skSkipped_succ]
    rw [lastN_append]
    simp

/-- How a state changes when an iteration is taken from it. -/
inductive GTaken (C : Crypto) (s : GState) (n : UInt32) : SKMessageKey → GState → Prop
  /-- a stored key -/
  | stored (hlt : n.toNat < s.chainKey.iteration.toNat) (k : SKChainKey)
      (hk : s.messageKeys.find? (fun k => k.iteration = n) = some k) :
      GTaken C s n (deriveSKMessageKey C k.seed k.iteration)
        { s with messageKeys := s.messageKeys.eraseP fun k => k.iteration = n }
  /-- the chain moves on -/
  | ahead (d : Nat) (hd : s.chainKey.iteration.toNat + d = n.toNat) (hj : d ≤ 25000) :
      GTaken C s n ((skIter C s.chainKey d).messageKey C)
        { s with messageKeys := lastN maxMessageKeys (s.messageKeys ++ skSkipped C s.chainKey d), chainKey := skIter C s.chainKey (d + 1) }

/-- Every outcome of `messageKey`. -/
inductive GKeyCase (C : Crypto) (s : GState) (n : UInt32) : Res (SKMessageKey × GState) → Prop
  | taken (mk : SKMessageKey) (s' : GState) (h : GTaken C s n mk s') : GKeyCase C s n (.ok (mk, s'))
  | duplicate (hlt : n.toNat < s.chainKey.iteration.toNat) (hno : ∀ k ∈ s.messageKeys, k.iteration ≠ n) :
      GKeyCase C s n (.err .duplicateMessage)
  | far (h : s.chainKey.iteration.toNat + 25000 < n.toNat) : GKeyCase C s n (.err .tooFarInFuture)

theorem groupMessageKey_cases (C : Crypto) (s : GState) (hl : s.messageKeys.length ≤ maxMessageKeys) (n : UInt32) :
    GKeyCase C s n (groupMessageKey C s n) := by
  unfold groupMessageKey
  simp only
  split
  · rename_i h
    have hlt : n.toNat < s.chainKey.iteration.toNat := UInt32.lt_iff_toNat_lt.mp h
    simp only [GState.removeMessageKeys]
    split
    · rename_i hx
      split at hx
      · rename_i hf
        refine .duplicate hlt ?_
        intro k hk he
        have := List.find?_eq_none.mp hf k hk
        simp [he] at this
      · simp at hx
    · rename_i out hx
      split at hx
      · simp at hx
      · rename_i k hk
        simp only [Option.some.injEq] at hx
        subst hx
        exact .taken _ _ (.stored hlt k hk)
  · rename_i h
    have hge : s.chainKey.iteration.toNat ≤ n.toNat := by
      rw [gt_iff_lt, UInt32.lt_iff_toNat_lt] at h; omega
    have hsub : (n - s.chainKey.iteration).toNat = n.toNat - s.chainKey.iteration.toNat :=
      UInt32.toNat_sub_of_le _ _ (UInt32.le_iff_toNat_le.mpr hge)
    split
    · rename_i hj
      rw [gt_iff_lt, UInt32.lt_iff_toNat_lt, hsub] at hj
      have : maxJumps.toNat = 25000 := rfl
      exact .far (by omega)
    · rename_i hj
      rw [gt_iff_lt, UInt32.lt_iff_toNat_lt, hsub] at hj
      have : maxJumps.toNat = 25000 := rfl
      rw [groupSkipLoop_spec C n _ _ s hl (by omega)]
      exact .taken _ _ (.ahead _ (by omega) (by omega))

/-! ## Store calls -/

theorem gStoreCall_cases {α} (act : GWorld → α × GWorld) (w : GWorld) :
    ∃ fs, (∀ f ∈ fs, f ∈ w.faults) ∧ (
      (gStoreCall act w = (.ok (act { w with faults := fs }).1, (act { w with faults := fs }).2)) ∨
      (gStoreCall act w = (.err .store, { w with faults := fs }) ∧ Fault.before ∈ w.faults) ∨
      (gStoreCall act w = (.err .store, (act { w with faults := fs }).2) ∧ Fault.after ∈ w.faults)) := by
  unfold gStoreCall
  rcases hf : w.faults with _ | ⟨f, fs⟩
  · refine ⟨[], by simp, .inl ?_⟩
    have e : ({ w with faults := [] } : GWorld) = w := by rw [← hf]
    simp [e]
  · refine ⟨fs, fun f hf => by simp [hf], ?_⟩
    cases f with
    | none => exact .inl rfl
    | before => exact .inr (.inl ⟨rfl, by simp⟩)
    | after => exact .inr (.inr ⟨rfl, by simp⟩)

theorem gStoreCall_bind {α β} {act : GWorld → α × GWorld} {f : α → M GWorld β} {w : GWorld} (P : Res β → GWorld → Prop)
    (hok : ∀ fs, (∀ g ∈ fs, g ∈ w.faults) →
      P (f (act { w with faults := fs }).1 (act { w with faults := fs }).2).1
        (f (act { w with faults := fs }).1 (act { w with faults := fs }).2).2)
    (hb : ∀ fs, Fault.before ∈ w.faults → P (.err .store) { w with faults := fs })
    (ha : ∀ fs, Fault.after ∈ w.faults → P (.err .store) (act { w with faults := fs }).2) :
    P ((gStoreCall act >>= f) w).1 ((gStoreCall act >>= f) w).2 := by
  obtain ⟨fs, hfs, h | ⟨h, h'⟩ | ⟨h, h'⟩⟩ := gStoreCall_cases act w
  · rw [M.bind_ok_run h]; exact hok fs hfs
  · rw [M.bind_err_run h]; exact hb fs h'
  · rw [M.bind_err_run h]; exact ha fs h'

theorem gStoreCall_none {α} (act : GWorld → α × GWorld) {w : GWorld} (h : w.faults = []) :
    gStoreCall act w = (.ok (act w).1, (act w).2) := by
  unfold gStoreCall; rw [h]

/-- The records as a sharing store shows them after a loaded record was mutated to `r`. -/
def gmid (aliased : Bool) (k : Address × DistId) (loaded : Bool) (m : Address × DistId → Option GRecord) (r : GRecord) :
    Address × DistId → Option GRecord :=
  if aliased && loaded then upd m k (some r) else m

theorem gTouch_run (al : Bool) (k : Address × DistId) (loaded : Bool) (r : GRecord) (w : GWorld) :
    gTouch al k loaded r w = (.ok (), { w with records := gmid al k loaded w.records r }) := by
  unfold gTouch gmid
  split <;> rfl

theorem upd_gmid (al : Bool) (k : Address × DistId) (l : Bool) (m : Address × DistId → Option GRecord) (r r' : GRecord) :
    upd (gmid al k l m r) k (some r') = upd m k (some r') := by
  unfold gmid; split
  · exact upd_upd _ _ _ _
  · rfl

theorem gWithRand_bind {α β} {x : M Bytes α} {f : α → M GWorld β} {w : GWorld} (P : Res β → GWorld → Prop)
    (hok : ∀ a rd, x w.rand = (.ok a, rd) → P (f a { w with rand := rd }).1 (f a { w with rand := rd }).2)
    (hb : ∀ (r' : Res β) rd, r'.Bad → P r' { w with rand := rd }) :
    P ((gWithRand x >>= f) w).1 ((gWithRand x >>= f) w).2 := by
  rw [M.bind_run]
  unfold gWithRand
  rcases h : x w.rand with ⟨r, rd⟩
  cases r with
  | ok a => exact hok a rd h
  | err e => exact hb (.err e) rd (by simp)
  | panic => exact hb .panic rd (by simp)

theorem gWithSysRand_bind {α β} {x : M Bytes α} {f : α → M GWorld β} {w : GWorld} (P : Res β → GWorld → Prop)
    (hok : ∀ a rd, x w.sysRand = (.ok a, rd) → P (f a { w with sysRand := rd }).1 (f a { w with sysRand := rd }).2)
    (hb : ∀ (r' : Res β) rd, r'.Bad → P r' { w with sysRand := rd }) :
    P ((gWithSysRand x >>= f) w).1 ((gWithSysRand x >>= f) w).2 := by
  rw [M.bind_run]
  unfold gWithSysRand
  rcases h : x w.sysRand with ⟨r, rd⟩
  cases r with
  | ok a => exact hok a rd h
  | err e => exact hb (.err e) rd (by simp)
  | panic => exact hb .panic rd (by simp)

/-! ## DecryptMessage -/

/-- A message that gets as far as using a message key. -/
structure GAccepted (C : Crypto) (w : GWorld) (sender : Address) (m : SenderKeyMsg) (g : GRecord) (s : GState) (k : PubKey)
    (mk : SKMessageKey) (s' : GState) : Prop where
  record : w.records (sender, m.distID) = some g
  state : g.stateForChainID m.chainID = some s
  version : m.version.toUInt32 = s.version
  key : s.publicSigningKey = .ok k
  signed : m.verifySignature C k = .ok true
  taken : groupMessageKey C s m.iteration = .ok (mk, s')

/-- Every outcome of the group `DecryptMessage`. -/
inductive GDecOutcome (C : Crypto) (al : Bool) (sender : Address) (m : SenderKeyMsg) (w : GWorld) : Res Bytes → GWorld → Prop
  /-- stopped before anything was changed -/
  | early (r : Res Bytes) (fs : List Fault) (hr : r.Bad) : GDecOutcome C al sender m w r { w with faults := fs }
  /-- a message key was taken, and then decryption or the store failed -/
  | stopped (r : Res Bytes) (fs : List Fault) (hr : r.Bad) (g : GRecord) (s : GState) (k : PubKey) (mk : SKMessageKey) (s' : GState)
      (h : GAccepted C w sender m g s k mk s') (records : Address × DistId → Option GRecord)
      (hs : records = gmid al (sender, m.distID) true w.records (g.setStateForChainID m.chainID s') ∨
        (records = upd w.records (sender, m.distID) (some (g.setStateForChainID m.chainID s')) ∧ Fault.after ∈ w.faults)) :
      GDecOutcome C al sender m w r { w with faults := fs, records := records }
  /-- success -/
  | done (fs : List Fault) (g : GRecord) (s : GState) (k : PubKey) (mk : SKMessageKey) (s' : GState) (p : Bytes)
      (h : GAccepted C w sender m g s k mk s') (hp : cbcDecrypt C mk.cipherKey mk.iv m.ciphertext = .ok p) :
      GDecOutcome C al sender m w (.ok p)
        { w with faults := fs, records := upd w.records (sender, m.distID) (some (g.setStateForChainID m.chainID s')) }

theorem groupDecrypt_outcome (C : Crypto) (al : Bool) (sender : Address) (m : SenderKeyMsg) (w : GWorld) :
    GDecOutcome C al sender m w (groupDecrypt C al sender m w).1 (groupDecrypt C al sender m w).2 := by
  unfold groupDecrypt
  refine gStoreCall_bind (GDecOutcome C al sender m w) (fun f1 hf1 => ?_) (fun fs _ => .early _ _ (by simp))
    (fun fs _ => .early _ _ (by simp))
  simp only
  cases hrec : w.records (sender, m.distID) with
  | none => exact .early _ _ (by simp)
  | some g =>
  simp only
  cases hst : GRecord.stateForChainID g m.chainID with
  | none => exact .early _ _ (by simp)
  | some s =>
  simp only
  by_cases hv : m.version.toUInt32 = s.version
  rotate_left
  · rw [if_pos hv]; exact .early _ _ (by simp)
  rw [if_neg (by simpa using hv)]
  refine lift_bind (GDecOutcome C al sender m w) (fun k hk => ?_) (fun r hr => .early _ _ hr)
  refine lift_bind (GDecOutcome C al sender m w) (fun valid hsig => ?_) (fun r hr => .early _ _ hr)
  cases valid with
  | false => exact .early _ _ (by simp)
  | true =>
  simp only [if_true]
  refine lift_bind (GDecOutcome C al sender m w) (fun x hmk => ?_) (fun r hr => .early _ _ hr)
  obtain ⟨mk, s'⟩ := x
  have hacc : GAccepted C w sender m g s k mk s' := ⟨hrec, hst, hv, hk, hsig, hmk⟩
  simp only
  rw [M.bind_ok_run (gTouch_run ..)]
  refine lift_bind (GDecOutcome C al sender m w) (fun p hp => ?_) (fun r hr => .stopped _ _ hr g s k mk s' hacc _ (.inl rfl))
  refine gStoreCall_bind (GDecOutcome C al sender m w) (fun f2 hf2 => ?_)
    (fun fs _ => .stopped _ _ (by simp) g s k mk s' hacc _ (.inl rfl))
    (fun fs h => .stopped _ _ (by simp) g s k mk s' hacc _ (.inr ⟨by exact upd_gmid .., hf1 _ h⟩))
  simp only
  rw [upd_gmid]
  exact .done f2 g s k mk s' p hacc hp

/-- The exact result when the store does not fail. -/
theorem groupDecrypt_run (C : Crypto) (al : Bool) (sender : Address) (m : SenderKeyMsg) (w : GWorld) (hf : w.faults = [])
    (g : GRecord) (s : GState) (k : PubKey) (hrec : w.records (sender, m.distID) = some g)
    (hst : g.stateForChainID m.chainID = some s) (hv : m.version.toUInt32 = s.version) (hk : s.publicSigningKey = .ok k)
    (hsig : m.verifySignature C k = .ok true) :
    (∀ e, groupMessageKey C s m.iteration = .err e → groupDecrypt C al sender m w = (.err e, w)) ∧
    (∀ mk s' p, groupMessageKey C s m.iteration = .ok (mk, s') → cbcDecrypt C mk.cipherKey mk.iv m.ciphertext = .ok p →
      groupDecrypt C al sender m w =
        (.ok p, { w with records := upd w.records (sender, m.distID) (some (g.setStateForChainID m.chainID s')) })) := by
  have hload : gLoad (sender, m.distID) w = (.ok (some g), w) := by
    simp only [gLoad]; rw [gStoreCall_none _ hf, hrec]
  refine ⟨fun e he => ?_, fun mk s' p hmk hp => ?_⟩
  · unfold groupDecrypt
    rw [M.bind_ok_run hload]
    simp only [hst, ne_eq, hv, not_true_eq_false, if_false]
    rw [M.bind_ok_run (show M.lift _ _ = (.ok k, w) by rw [M.lift_run, hk]),
      M.bind_ok_run (show M.lift _ _ = (.ok true, w) by rw [M.lift_run, hsig])]
    simp only [if_true]
    rw [M.bind_err_run (show M.lift _ _ = (.err e, w) by rw [M.lift_run, he])]
  · unfold groupDecrypt
    rw [M.bind_ok_run hload]
    simp only [hst, ne_eq, hv, not_true_eq_false, if_false]
    rw [M.bind_ok_run (show M.lift _ _ = (.ok k, w) by rw [M.lift_run, hk]),
      M.bind_ok_run (show M.lift _ _ = (.ok true, w) by rw [M.lift_run, hsig])]
    simp only [if_true]
    rw [M.bind_ok_run (show M.lift _ _ = (.ok (mk, s'), w) by rw [M.lift_run, hmk])]
    simp only
    rw [M.bind_ok_run (gTouch_run ..)]
    rw [M.bind_ok_run (show M.lift _ _ = (.ok p, _) by rw [M.lift_run, hp])]
    rw [M.bind_run, gStore, gStoreCall_none _ (by exact hf)]
    simp only [upd_gmid, M.pure_run]

/-! ## EncryptMessage -/

/-- What the group `EncryptMessage` computes before the store is written. -/
structure GBuilt (C : Crypto) (w : GWorld) (sender : Address) (dist : DistId) (pt : Bytes) (s : GState) (rest : GRecord)
    (sk : PrivKey) (m : SenderKeyMsg) (rd : Bytes) : Prop where
  record : w.records (sender, dist) = some (s :: rest)
  key : s.privateSigningKey = .ok sk
  built : ∃ ct, cbcEncrypt C (s.chainKey.messageKey C).cipherKey (s.chainKey.messageKey C).iv pt = .ok ct ∧
    newSenderKey C s.version.toUInt8 dist s.chainId s.chainKey.iteration ct sk w.rand = (.ok m, rd)

/-- Every outcome of the group `EncryptMessage`. -/
inductive GEncOutcome (C : Crypto) (al : Bool) (sender : Address) (dist : DistId) (pt : Bytes) (w : GWorld) :
    Res SenderKeyMsg → GWorld → Prop
  /-- stopped before anything was changed -/
  | early (r : Res SenderKeyMsg) (fs : List Fault) (rd : Bytes) (hr : r.Bad) :
      GEncOutcome C al sender dist pt w r { w with faults := fs, rand := rd }
  /-- the store failed -/
  | stopped (r : Res SenderKeyMsg) (fs : List Fault) (hr : r.Bad) (s : GState) (rest : GRecord) (sk : PrivKey) (m : SenderKeyMsg) (rd : Bytes)
      (h : GBuilt C w sender dist pt s rest sk m rd) (records : Address × DistId → Option GRecord)
      (hs : (records = gmid al (sender, dist) true w.records (s.setSenderChainKey (s.chainKey.next C) :: rest) ∧ Fault.before ∈ w.faults) ∨
        (records = upd w.records (sender, dist) (some (s.setSenderChainKey (s.chainKey.next C) :: rest)) ∧ Fault.after ∈ w.faults)) :
      GEncOutcome C al sender dist pt w r { w with faults := fs, rand := rd, records := records }
  /-- success -/
  | done (fs : List Fault) (s : GState) (rest : GRecord) (sk : PrivKey) (m : SenderKeyMsg) (rd : Bytes)
      (h : GBuilt C w sender dist pt s rest sk m rd) :
      GEncOutcome C al sender dist pt w (.ok m)
        { w with faults := fs, rand := rd, records := upd w.records (sender, dist) (some (s.setSenderChainKey (s.chainKey.next C) :: rest)) }

theorem groupEncrypt_outcome (C : Crypto) (al : Bool) (sender : Address) (dist : DistId) (pt : Bytes) (w : GWorld) :
    GEncOutcome C al sender dist pt w (groupEncrypt C al sender dist pt w).1 (groupEncrypt C al sender dist pt w).2 := by
  unfold groupEncrypt
  refine gStoreCall_bind (GEncOutcome C al sender dist pt w) (fun f1 hf1 => ?_) (fun fs _ => .early _ _ w.rand (by simp))
    (fun fs _ => .early _ _ w.rand (by simp))
  simp only
  cases hrec : w.records (sender, dist) with
  | none => exact .early _ _ w.rand (by simp)
  | some g =>
  cases g with
  | nil => exact .early _ _ w.rand (by simp [GRecord.state, M.bind_run])
  | cons s rest =>
  simp only [GRecord.state]
  refine lift_bind (GEncOutcome C al sender dist pt w) (fun s1 hs1 => ?_) (fun r hr => .early _ _ w.rand hr)
  simp only [Res.ok.injEq] at hs1
  subst hs1
  refine lift_bind (GEncOutcome C al sender dist pt w) (fun ct hct => ?_) (fun r hr => .early _ _ w.rand hr)
  refine lift_bind (GEncOutcome C al sender dist pt w) (fun sk hsk => ?_) (fun r hr => .early _ _ w.rand hr)
  refine gWithRand_bind (GEncOutcome C al sender dist pt w) (fun m rd hm => ?_) (fun r rd hr => .early _ _ rd hr)
  have hb : GBuilt C w sender dist pt s rest sk m rd := ⟨hrec, hsk, ct, hct, hm⟩
  simp only
  rw [M.bind_ok_run (gTouch_run ..)]
  refine gStoreCall_bind (GEncOutcome C al sender dist pt w) (fun f2 hf2 => ?_)
    (fun fs h => .stopped _ _ (by simp) s rest sk m rd hb _ (.inl ⟨rfl, hf1 _ h⟩))
    (fun fs h => .stopped _ _ (by simp) s rest sk m rd hb _ (.inr ⟨by exact upd_gmid .., hf1 _ h⟩))
  simp only
  rw [upd_gmid]
  exact .done f2 s rest sk m rd hb

/-! ## Distribution messages -/

theorem newGroupState_publicKey (v : UInt8) (c i : UInt32) (ck : Bytes) (k : PubKey) (p : Option PrivKey) :
    (newGroupState v c i ck k p).publicSigningKey = .ok k := by
  simp only [GState.publicSigningKey, newGroupState]
  exact newPublicKey_bytes k

/-- What `AddState` does. -/
def GRecord.added (g : GRecord) (s : GState) (k : PubKey) : GRecord :=
  let rest := (g.eraseP (GRecord.isState s.chainId k)).filter fun t => t.chainId ≠ s.chainId
  (if rest.length ≥ maxSenderKeyStates then rest.drop 1 else rest) ++ [(g.find? (GRecord.isState s.chainId k)).getD s]

theorem GRecord.addState_eq (g : GRecord) (s : GState) (k : PubKey) (h : s.publicSigningKey = .ok k) :
    g.addState s = .ok (g.added s k) := by
  simp only [GRecord.addState, h, Res.bind_ok, GRecord.removeState, GRecord.removeStates, GRecord.added]
  rfl

/-- The state a distribution message describes. -/
def DistributionMsg.state (d : DistributionMsg) : GState := newGroupState d.version d.chainID d.iteration d.chainKey d.signingKey none

/-- Every outcome of `ProcessSenderKeyDistribution`. -/
inductive GProcOutcome (al : Bool) (sender : Address) (d : DistributionMsg) (w : GWorld) : Res Unit → GWorld → Prop
  | early (fs : List Fault) : GProcOutcome al sender d w (.err .store) { w with faults := fs }
  | stopped (fs : List Fault) (records : Address × DistId → Option GRecord)
      (hs : records = gmid al (sender, d.distID) (w.records (sender, d.distID)).isSome w.records (((w.records (sender, d.distID)).getD []).added d.state d.signingKey) ∨
        (records = upd w.records (sender, d.distID) (some (((w.records (sender, d.distID)).getD []).added d.state d.signingKey)) ∧ Fault.after ∈ w.faults)) :
      GProcOutcome al sender d w (.err .store) { w with faults := fs, records := records }
  | done (fs : List Fault) :
      GProcOutcome al sender d w (.ok ())
        { w with faults := fs, records := upd w.records (sender, d.distID) (some (((w.records (sender, d.distID)).getD []).added d.state d.signingKey)) }

theorem processDistribution_outcome (al : Bool) (sender : Address) (d : DistributionMsg) (w : GWorld) :
    GProcOutcome al sender d w (processDistribution al sender d w).1 (processDistribution al sender d w).2 := by
  unfold processDistribution
  refine gStoreCall_bind (GProcOutcome al sender d w) (fun f1 hf1 => ?_) (fun fs _ => .early _) (fun fs _ => .early _)
  simp only
  rw [GRecord.addState_eq _ _ d.signingKey (newGroupState_publicKey ..)]
  rw [M.bind_ok_run (M.lift_run _ _)]
  rw [M.bind_ok_run (gTouch_run ..)]
  have hbind : ∀ (x : M GWorld Unit) (s : GWorld), x s = (x >>= fun u => (pure u : M GWorld Unit)) s := by
    intro x s
    rw [M.bind_run]
    rcases x s with ⟨r, s'⟩
    cases r <;> rfl
  rw [hbind (gStore (sender, d.distID) (((w.records (sender, d.distID)).getD []).added (newGroupState d.version d.chainID d.iteration d.chainKey d.signingKey none) d.signingKey))]
  refine gStoreCall_bind (GProcOutcome al sender d w) (fun f2 hf2 => ?_) (fun fs _ => .stopped _ _ (.inl rfl))
    (fun fs h => .stopped _ _ (.inr ⟨by exact upd_gmid .., hf1 _ h⟩))
  simp only
  rw [upd_gmid]
  exact .done f2

/-- The record `NewSenderKeyDistribution` creates. -/
structure GCreated (C : Crypto) (w : GWorld) (g : GRecord) : Prop where
  shape : ∃ (cid : UInt32) (seed : Bytes) (k : KeyPair), cid.toNat < 2 ^ 31 ∧ seed.length = 32 ∧ k.Matched C ∧
    (4 ≤ w.sysRand.length ∧ cid.toNat = leNat (w.sysRand.take 4) / 2 ∧ seed = w.rand.take 32 ∧ (generateKeyPair C (w.rand.drop 32)).1 = .ok k) ∧
    g = [newGroupState 3 cid 0 seed k.pub (some k.priv)]

/-- The distribution message for the first state of a record. -/
def GState.distribution (s : GState) (dist : DistId) (k : PubKey) : DistributionMsg :=
  newDistribution s.version.toUInt8 dist s.chainId s.chainKey.iteration s.chainKey.seed k

/-- Every outcome of `NewSenderKeyDistribution`. -/
inductive GNewOutcome (C : Crypto) (sender : Address) (dist : DistId) (w : GWorld) : Res DistributionMsg → GWorld → Prop
  /-- nothing was changed -/
  | early (r : Res DistributionMsg) (fs : List Fault) (rd srd : Bytes) (hr : r.Bad) :
      GNewOutcome C sender dist w r { w with faults := fs, rand := rd, sysRand := srd }
  /-- a key was created, but the store reported a failure -/
  | stopped (fs : List Fault) (rd srd : Bytes) (g : GRecord) (h : GCreated C w g) (hn : w.records (sender, dist) = none)
      (hf : Fault.after ∈ w.faults) :
      GNewOutcome C sender dist w (.err .store) { w with faults := fs, rand := rd, sysRand := srd, records := upd w.records (sender, dist) (some g) }
  /-- the key exists -/
  | existing (fs : List Fault) (s : GState) (rest : GRecord) (k : PubKey) (h : w.records (sender, dist) = some (s :: rest))
      (hk : s.publicSigningKey = .ok k) :
      GNewOutcome C sender dist w (.ok (s.distribution dist k)) { w with faults := fs }
  /-- a key was created -/
  | created (fs : List Fault) (rd srd : Bytes) (s : GState) (k : PubKey) (h : GCreated C w [s]) (hn : w.records (sender, dist) = none)
      (hk : s.publicSigningKey = .ok k) :
      GNewOutcome C sender dist w (.ok (s.distribution dist k))
        { w with faults := fs, rand := rd, sysRand := srd, records := upd w.records (sender, dist) (some [s]) }

theorem newSenderKeyDistribution_outcome (C : Crypto) (sender : Address) (dist : DistId) (w : GWorld) :
    GNewOutcome C sender dist w (newSenderKeyDistribution C sender dist w).1 (newSenderKeyDistribution C sender dist w).2 := by
  unfold newSenderKeyDistribution
  refine gStoreCall_bind (GNewOutcome C sender dist w) (fun f1 hf1 => ?_) (fun fs _ => .early _ _ w.rand w.sysRand (by simp))
    (fun fs _ => .early _ _ w.rand w.sysRand (by simp))
  simp only
  cases hrec : w.records (sender, dist) with
  | some g =>
    simp only
    cases g with
    | nil => exact .early _ _ w.rand w.sysRand (by simp [GRecord.state, M.bind_run])
    | cons s rest =>
      rw [M.bind_ok_run (M.pure_run _ _)]
      simp only [GRecord.state]
      rw [M.bind_ok_run (M.lift_run _ _)]
      refine lift_bind (GNewOutcome C sender dist w) (fun k hk => ?_) (fun r hr => .early _ _ w.rand w.sysRand hr)
      exact .existing _ s rest k hrec hk
  | none =>
    simp only [createSenderKey]
    rw [bind_assoc_run]
    refine gWithSysRand_bind (GNewOutcome C sender dist w) (fun cid srd hcid => ?_) (fun r srd hr => .early _ _ w.rand srd hr)
    rw [bind_assoc_run]
    refine gWithRand_bind (GNewOutcome C sender dist w) (fun seed rd hseed => ?_) (fun r rd hr => .early _ _ rd srd hr)
    rw [bind_assoc_run]
    refine gWithRand_bind (GNewOutcome C sender dist w) (fun k rd' hk => ?_) (fun r rd hr => .early _ _ rd srd hr)
    simp only at hseed hk ⊢
    rw [GRecord.addState_eq _ _ k.pub (newGroupState_publicKey ..), bind_assoc_run]
    rw [M.bind_ok_run (M.lift_run _ _)]
    have hadd : GRecord.added [] (newGroupState 3 (cid >>> 1) 0 seed k.pub (some k.priv)) k.pub =
        [newGroupState 3 (cid >>> 1) 0 seed k.pub (some k.priv)] := by
      simp [GRecord.added, maxSenderKeyStates]
    rw [hadd]
    have hcr : GCreated C w [newGroupState 3 (cid >>> 1) 0 seed k.pub (some k.priv)] := by
      refine ⟨cid >>> 1, seed, k, ?_, ?_, ?_, ?_, rfl⟩
      · have := cid.toNat_lt
        simp only [UInt32.toNat_shiftRight, UInt32.reduceToNat, Nat.reduceMod, Nat.shiftRight_eq_div_pow]
        omega
      · by_cases hl : 32 ≤ w.rand.length
        · rw [readFull_ok _ _ hl] at hseed
          simp only [Prod.mk.injEq, Res.ok.injEq] at hseed
          rw [← hseed.1, List.length_take]; omega
        · rw [readFull_short _ _ hl] at hseed
          simp at hseed
      · exact (generateKeyPair_ok hk).2.2.1
      · have hs : 4 ≤ w.sysRand.length ∧ cid = UInt32.ofNat (leNat (w.sysRand.take 4)) := by
          unfold randomUint32 at hcid
          by_cases hl : 4 ≤ w.sysRand.length
          · rw [M.bind_ok_run (readFull_ok _ _ hl)] at hcid
            simp only [M.pure_run, Prod.mk.injEq, Res.ok.injEq] at hcid
            exact ⟨hl, hcid.1.symm⟩
          · rw [M.bind_err_run (readFull_short _ _ hl)] at hcid
            simp at hcid
        have hr : seed = w.rand.take 32 ∧ rd = w.rand.drop 32 := by
          by_cases hl : 32 ≤ w.rand.length
          · rw [readFull_ok _ _ hl] at hseed
            simp only [Prod.mk.injEq, Res.ok.injEq] at hseed
            exact ⟨hseed.1.symm, hseed.2.symm⟩
          · rw [readFull_short _ _ hl] at hseed
            simp at hseed
        refine ⟨hs.1, ?_, hr.1, by rw [← hr.2, hk]⟩
        have hlt : leNat (w.sysRand.take 4) < 2 ^ 32 := by
          have := leNat_lt (w.sysRand.take 4)
          rw [List.length_take, Nat.min_eq_left hs.1] at this
          exact this
        rw [hs.2]
        simp only [UInt32.toNat_shiftRight, UInt32.toNat_ofNat', UInt32.reduceToNat, Nat.reduceMod, Nat.shiftRight_eq_div_pow]
        omega
    rw [bind_assoc_run]
    refine gStoreCall_bind (GNewOutcome C sender dist w) (fun f2 hf2 => ?_) (fun fs _ => .early _ _ rd' srd (by simp))
      (fun fs h => .stopped _ rd' srd _ hcr hrec (hf1 _ h))
    rw [M.bind_ok_run (M.pure_run _ _)]
    simp only [GRecord.state]
    rw [M.bind_ok_run (M.lift_run _ _)]
    rw [newGroupState_publicKey, M.bind_ok_run (M.lift_run _ _)]
    exact .created f2 rd' srd _ k.pub hcr hrec (newGroupState_publicKey ..)

/-! ## Invariants -/

/-- What holds of every stored state. -/
structure GState.WF (s : GState) : Prop where
  keys : s.messageKeys.length ≤ maxMessageKeys
  signing : ∃ k : PubKey, s.signingPublic = k.bytes

/-- What holds of every stored record. -/
structure GRecord.WF (g : GRecord) : Prop where
  size : g.length ≤ 5
  distinct : g.Pairwise fun s t => s.chainId ≠ t.chainId
  states : ∀ s ∈ g, s.WF

theorem GTaken.chainId {C : Crypto} {s s' : GState} {n : UInt32} {mk : SKMessageKey} (h : GTaken C s n mk s') :
    s'.chainId = s.chainId ∧ s'.signingPublic = s.signingPublic ∧ s'.signingPrivate = s.signingPrivate ∧ s'.messageVersion = s.messageVersion := by
  cases h <;> exact ⟨rfl, rfl, rfl, rfl⟩

theorem GTaken.WF {C : Crypto} {s s' : GState} {n : UInt32} {mk : SKMessageKey} (hs : s.WF) (h : GTaken C s n mk s') : s'.WF := by
  refine ⟨?_, by obtain ⟨k, hk⟩ := hs.signing; exact ⟨k, h.chainId.2.1.trans hk⟩⟩
  cases h with
  | stored hlt k hk => exact Nat.le_trans List.length_eraseP_le hs.keys
  | ahead d hd hj => simp only [lastN_length]; omega

theorem GRecord.stateForChainID_some {g : GRecord} {c : UInt32} {s : GState} (h : g.stateForChainID c = some s) : s ∈ g ∧ s.chainId = c := by
  have := List.find?_some h
  exact ⟨List.mem_of_find?_eq_some h, by simpa [eq_comm] using this⟩

theorem GRecord.WF.stateForChainID {g : GRecord} (h : g.WF) {s : GState} (hs : s ∈ g) : GRecord.stateForChainID g s.chainId = some s := by
  have hp := h.distinct
  clear h
  unfold GRecord.stateForChainID
  induction g with
  | nil => simp at hs
  | cons t g ih =>
    rw [List.pairwise_cons] at hp
    rcases List.mem_cons.mp hs with rfl | hs
    · simp
    · have : ¬ (s.chainId = t.chainId) := fun e => hp.1 s hs e.symm
      rw [List.find?_cons_of_neg (by simpa using this)]
      exact ih hs hp.2

theorem GRecord.mem_setState {g : GRecord} {c : UInt32} {s' t : GState} (h : t ∈ g.setStateForChainID c s') : t = s' ∨ t ∈ g := by
  induction g with
  | nil => simp [GRecord.setStateForChainID] at h
  | cons x g ih =>
    simp only [GRecord.setStateForChainID] at h
    split at h
    · rcases List.mem_cons.mp h with h | h
      · exact .inl h
      · exact .inr (by simp [h])
    · rcases List.mem_cons.mp h with h | h
      · exact .inr (by simp [h])
      · rcases ih h with h | h
        · exact .inl h
        · exact .inr (by simp [h])

theorem GRecord.setState_map {g : GRecord} {c : UInt32} {s' : GState} (h : s'.chainId = c) :
    (g.setStateForChainID c s').map GState.chainId = g.map GState.chainId := by
  induction g with
  | nil => rfl
  | cons x g ih =>
    simp only [GRecord.setStateForChainID]
    split
    · rename_i hx; simp [h, hx]
    · simp [ih]

/-- Which states are in the record after one of them was changed. -/
theorem GRecord.WF.mem_setState {g : GRecord} (hg : g.WF) {s s' : GState} (hs : s ∈ g) (hc : s'.chainId = s.chainId) (t : GState) :
    t ∈ g.setStateForChainID s.chainId s' ↔ t = s' ∨ (t ∈ g ∧ t.chainId ≠ s.chainId) := by
  have hp := hg.distinct
  clear hg
  induction g with
  | nil => simp at hs
  | cons x g ih =>
    rw [List.pairwise_cons] at hp
    simp only [GRecord.setStateForChainID]
    split
    · rename_i hx
      simp only [List.mem_cons]
      constructor
      · rintro (h | h)
        · exact .inl h
        · exact .inr ⟨.inr h, fun e => hp.1 t h (hx.symm.trans e.symm)⟩
      · rintro (h | ⟨rfl | h, hne⟩)
        · exact .inl h
        · exact absurd hx.symm hne
        · exact .inr h
    · rename_i hx
      have hs' : s ∈ g := by
        rcases List.mem_cons.mp hs with rfl | h
        · exact absurd rfl hx
        · exact h
      simp only [List.mem_cons, ih hs' hp.2]
      constructor
      · rintro (rfl | h | h)
        · exact .inr ⟨.inl rfl, fun e => hx e.symm⟩
        · exact .inl h
        · exact .inr ⟨.inr h.1, h.2⟩
      · rintro (h | ⟨h | h, hne⟩)
        · exact .inr (.inl h)
        · exact .inl h
        · exact .inr (.inr ⟨h, hne⟩)

theorem GRecord.distinct_of_map {g g' : GRecord} (h : g'.map GState.chainId = g.map GState.chainId)
    (hp : g.Pairwise fun s t => s.chainId ≠ t.chainId) : g'.Pairwise fun s t => s.chainId ≠ t.chainId := by
  have h1 : (g.map GState.chainId).Pairwise (· ≠ ·) := List.pairwise_map.mpr hp
  rw [← h] at h1
  exact List.pairwise_map.mp h1

theorem GRecord.WF.setState {g : GRecord} (hg : g.WF) {s s' : GState} (hs : s ∈ g) (hc : s'.chainId = s.chainId) (hw : s'.WF) :
    (g.setStateForChainID s.chainId s').WF := by
  have hm := GRecord.setState_map (g := g) hc
  have hl := congrArg List.length hm
  simp only [List.length_map] at hl
  refine ⟨by have := hg.size; omega, GRecord.distinct_of_map hm hg.distinct, ?_⟩
  intro t ht
  rcases (hg.mem_setState hs hc t).mp ht with rfl | ⟨h, _⟩
  · exact hw
  · exact hg.states t h

theorem GState.WF.publicKey {s : GState} (h : s.WF) : ∃ k : PubKey, s.signingPublic = k.bytes ∧ s.publicSigningKey = .ok k := by
  obtain ⟨k, hk⟩ := h.signing
  exact ⟨k, hk, by rw [GState.publicSigningKey, hk]; exact newPublicKey_bytes k⟩

theorem GState.WF.isState {s : GState} (h : s.WF) (c : UInt32) (k : PubKey) :
    GRecord.isState c k s = true ↔ s.chainId = c ∧ s.signingPublic = k.bytes := by
  obtain ⟨k', hk', hp⟩ := h.publicKey
  simp only [GRecord.isState, hp, Bool.and_eq_true, beq_iff_eq]
  rw [hk']
  constructor
  · rintro ⟨h1, h2⟩
    rw [PubKey.equal_iff] at h2
    exact ⟨h1, by rw [h2]⟩
  · rintro ⟨h1, h2⟩
    exact ⟨h1, by rw [PubKey.equal_iff]; exact (PubKey.bytes_inj h2).symm⟩

theorem newGroupState_WF (v : UInt8) (c i : UInt32) (ck : Bytes) (k : PubKey) (p : Option PrivKey) : (newGroupState v c i ck k p).WF :=
  ⟨by simp [newGroupState], k, rfl⟩

/-- The states of other chain ids, and the new last one. -/
theorem GRecord.WF.added_eq {g : GRecord} (hg : g.WF) (s : GState) (k : PubKey) :
    g.added s k = lastN 4 (g.filter fun t => t.chainId ≠ s.chainId) ++ [(g.find? (GRecord.isState s.chainId k)).getD s] := by
  have he : (g.eraseP (GRecord.isState s.chainId k)).filter (fun t => t.chainId ≠ s.chainId) = g.filter fun t => t.chainId ≠ s.chainId := by
    have hst := hg.states
    clear hg
    induction g with
    | nil => rfl
    | cons x g ih =>
      by_cases hx : GRecord.isState s.chainId k x = true
      · rw [List.eraseP_cons_of_pos hx]
        have : x.chainId = s.chainId := (((hst x (by simp)).isState _ _).mp hx).1
        rw [List.filter_cons_of_neg (by simp [this])]
      · rw [List.eraseP_cons_of_neg hx]
        simp only [List.filter_cons]
        rw [ih fun t ht => hst t (by simp [ht])]
  simp only [GRecord.added, he, maxSenderKeyStates]
  have hlen : (g.filter fun t => t.chainId ≠ s.chainId).length ≤ 5 := Nat.le_trans (List.length_filter_le _ _) hg.size
  split
  · rename_i h
    congr 1
    unfold lastN
    have : (g.filter fun t => t.chainId ≠ s.chainId).length - 4 = 1 := by omega
    rw [this]
  · rename_i h
    rw [lastN_of_le (by omega)]

/-- The state that `AddState` puts last. -/
theorem GRecord.WF.added_last {g : GRecord} (hg : g.WF) (s : GState) (k : PubKey) (hk : s.signingPublic = k.bytes) :
    (∃ t, g.Holds s.chainId k t ∧ (g.find? (GRecord.isState s.chainId k)).getD s = t) ∨
    ((∀ t, ¬ g.Holds s.chainId k t) ∧ (g.find? (GRecord.isState s.chainId k)).getD s = s) := by
  cases hf : g.find? (GRecord.isState s.chainId k) with
  | some t =>
    have hm := List.mem_of_find?_eq_some hf
    exact .inl ⟨t, ⟨hm, ((hg.states t hm).isState _ _).mp (List.find?_some hf)⟩, rfl⟩
  | none =>
    refine .inr ⟨fun t ht => ?_, rfl⟩
    have := List.find?_eq_none.mp hf t ht.1
    exact this (((hg.states t ht.1).isState _ _).mpr ht.2)

theorem GRecord.WF.added {g : GRecord} (hg : g.WF) {s : GState} (hs : s.WF) {k : PubKey} (hk : s.signingPublic = k.bytes) :
    (g.added s k).WF := by
  rw [hg.added_eq]
  have hlast : ((g.find? (GRecord.isState s.chainId k)).getD s).WF ∧ ((g.find? (GRecord.isState s.chainId k)).getD s).chainId = s.chainId := by
    rcases hg.added_last s k hk with ⟨t, ht, he⟩ | ⟨_, he⟩
    · rw [he]; exact ⟨hg.states t ht.1, ht.2.1⟩
    · rw [he]; exact ⟨hs, rfl⟩
  have hmem : ∀ t ∈ lastN 4 (g.filter fun t => t.chainId ≠ s.chainId), t ∈ g ∧ t.chainId ≠ s.chainId := by
    intro t ht
    simpa using lastN_mem ht
  refine ⟨?_, ?_, ?_⟩
  · simp only [List.length_append, lastN_length, List.length_singleton]; omega
  · rw [List.pairwise_append]
    refine ⟨?_, by simp, ?_⟩
    · exact (hg.distinct.filter _).sublist (List.drop_sublist _ _)
    · intro t ht u hu
      simp only [List.mem_singleton] at hu
      subst hu
      rw [hlast.2]
      exact (hmem t ht).2
  · intro t ht
    rcases List.mem_append.mp ht with ht | ht
    · exact hg.states t (hmem t ht).1
    · simp only [List.mem_singleton] at ht
      subst ht
      exact hlast.1

theorem GCreated.WF {C : Crypto} {w : GWorld} {g : GRecord} (h : GCreated C w g) : g.WF := by
  obtain ⟨cid, seed, k, _, _, _, _, rfl⟩ := h.shape
  exact ⟨by simp, by simp, by simp [newGroupState_WF]⟩

theorem GRecord.WF.head {s s' : GState} {rest : GRecord} (hg : GRecord.WF (s :: rest)) (hc : s'.chainId = s.chainId) (hw : s'.WF) :
    GRecord.WF (s' :: rest) := by
  refine ⟨hg.size, ?_, ?_⟩
  · have := hg.distinct
    rw [List.pairwise_cons] at this ⊢
    exact ⟨fun t ht => by rw [hc]; exact this.1 t ht, this.2⟩
  · intro t ht
    rcases List.mem_cons.mp ht with rfl | ht
    · exact hw
    · exact hg.states t (by simp [ht])

/-! ## Histories -/

/-- How a call can change a record. -/
inductive GStep (E : GEnv) (w : GWorld) : GOp → Option GRecord → GRecord → Prop
  | enc {a : Address} {d : DistId} {pt : Bytes} {s : GState} {rest : GRecord} {sk : PrivKey} {m : SenderKeyMsg} {rd : Bytes}
      (h : GBuilt E.C w a d pt s rest sk m rd) :
      GStep E w (.encrypt a d pt) (some (s :: rest)) (s.setSenderChainKey (s.chainKey.next E.C) :: rest)
  | dec {a : Address} {m : SenderKeyMsg} {g : GRecord} {s : GState} {k : PubKey} {mk : SKMessageKey} {s' : GState}
      (h : GAccepted E.C w a m g s k mk s') : GStep E w (.decrypt a m) (some g) (g.setStateForChainID m.chainID s')
  | proc {a : Address} {d : DistributionMsg} {o : Option GRecord} : GStep E w (.process a d) o ((o.getD []).added d.state d.signingKey)
  | create {a : Address} {d : DistId} {g : GRecord} (h : GCreated E.C w g) : GStep E w (.distribute a d) none g

/-- The record after a call: unchanged, or changed by a step. -/
def GChanged (E : GEnv) (w : GWorld) (op : GOp) (k : Address × DistId) (rs : Address × DistId → Option GRecord) : Prop :=
  rs k = w.records k ∨ ∃ g', op.key = k ∧ rs k = some g' ∧ GStep E w op (w.records k) g'

theorem GChanged.upd {E : GEnv} {w : GWorld} {op : GOp} {k : Address × DistId} {g' : GRecord}
    (h : GStep E w op (w.records op.key) g') : GChanged E w op k (upd w.records op.key (some g')) := by
  by_cases hk : k = op.key
  · subst hk; exact .inr ⟨g', rfl, upd_same _ _ _, h⟩
  · exact .inl (upd_ne _ _ hk)

theorem GChanged.mid {E : GEnv} {w : GWorld} {op : GOp} {k : Address × DistId} {g' : GRecord} {l : Bool}
    (h : GStep E w op (w.records op.key) g') : GChanged E w op k (gmid E.aliased op.key l w.records g') := by
  unfold gmid
  split
  · exact GChanged.upd h
  · exact .inl rfl

theorem gcall_changed (E : GEnv) (c : GCall) (w : GWorld) (k : Address × DistId) :
    GChanged E { w with rand := c.rand, sysRand := c.sysRand, faults := c.faults } c.op k (c.run E w).2.records := by
  obtain ⟨op, rd, srd, fs⟩ := c
  simp only
  cases op with
  | encrypt a d pt =>
    simp only [GCall.run]
    have ho := groupEncrypt_outcome E.C E.aliased a d pt { w with rand := rd, sysRand := srd, faults := fs }
    generalize ({ w with rand := rd, sysRand := srd, faults := fs } : GWorld) = w1 at ho ⊢
    generalize groupEncrypt E.C E.aliased a d pt w1 = x at ho ⊢
    obtain ⟨r, w'⟩ := x
    simp only at ho ⊢
    have hs : ∀ {s rest sk m rd}, GBuilt E.C w1 a d pt s rest sk m rd → GStep E w1 (.encrypt a d pt) (w1.records (GOp.encrypt a d pt).key) (s.setSenderChainKey (s.chainKey.next E.C) :: rest) := by
      intro s rest sk m rd h
      have := GStep.enc (E := E) h
      rw [← h.record] at this
      exact this
    cases ho with
    | early _ fs rd hr => exact .inl rfl
    | stopped _ fs hr s rest sk m rd h rs hrs =>
      rcases hrs with ⟨rfl, _⟩ | ⟨rfl, _⟩
      · exact GChanged.mid (hs h)
      · exact GChanged.upd (hs h)
    | done fs s rest sk m rd h => exact GChanged.upd (hs h)
  | decrypt a m =>
    simp only [GCall.run]
    have ho := groupDecrypt_outcome E.C E.aliased a m { w with rand := rd, sysRand := srd, faults := fs }
    generalize ({ w with rand := rd, sysRand := srd, faults := fs } : GWorld) = w1 at ho ⊢
    generalize groupDecrypt E.C E.aliased a m w1 = x at ho ⊢
    obtain ⟨r, w'⟩ := x
    simp only at ho ⊢
    have hs : ∀ {g s k mk s'}, GAccepted E.C w1 a m g s k mk s' → GStep E w1 (.decrypt a m) (w1.records (GOp.decrypt a m).key) (g.setStateForChainID m.chainID s') := by
      intro g s k mk s' h
      have := GStep.dec (E := E) h
      rw [← h.record] at this
      exact this
    cases ho with
    | early _ fs hr => exact .inl rfl
    | stopped _ fs hr g s k mk s' h rs hrs =>
      rcases hrs with rfl | ⟨rfl, _⟩
      · exact GChanged.mid (hs h)
      · exact GChanged.upd (hs h)
    | done fs g s k mk s' p h hp => exact GChanged.upd (hs h)
  | process a d =>
    simp only [GCall.run]
    have ho := processDistribution_outcome E.aliased a d { w with rand := rd, sysRand := srd, faults := fs }
    generalize ({ w with rand := rd, sysRand := srd, faults := fs } : GWorld) = w1 at ho ⊢
    generalize processDistribution E.aliased a d w1 = x at ho ⊢
    obtain ⟨r, w'⟩ := x
    simp only at ho ⊢
    cases ho with
    | early fs => exact .inl rfl
    | stopped fs rs hrs =>
      rcases hrs with rfl | ⟨rfl, _⟩
      · exact GChanged.mid (op := .process a d) .proc
      · exact GChanged.upd (op := .process a d) .proc
    | done fs => exact GChanged.upd (op := .process a d) .proc
  | distribute a d =>
    simp only [GCall.run]
    have ho := newSenderKeyDistribution_outcome E.C a d { w with rand := rd, sysRand := srd, faults := fs }
    generalize ({ w with rand := rd, sysRand := srd, faults := fs } : GWorld) = w1 at ho ⊢
    generalize newSenderKeyDistribution E.C a d w1 = x at ho ⊢
    obtain ⟨r, w'⟩ := x
    simp only at ho ⊢
    have hs : ∀ {g}, w1.records (a, d) = none → GCreated E.C w1 g → GStep E w1 (.distribute a d) (w1.records (GOp.distribute a d).key) g := by
      intro g hn h
      have := GStep.create (E := E) (a := a) (d := d) h
      rw [← hn] at this
      exact this
    cases ho with
    | early _ fs rd srd hr => exact .inl rfl
    | stopped fs rd srd g h hn hf => exact GChanged.upd (op := .distribute a d) (hs hn h)
    | existing fs s rest k h hk => exact .inl rfl
    | created fs rd srd s k h hn hk => exact GChanged.upd (op := .distribute a d) (hs hn h)

theorem GAccepted.gtaken {C : Crypto} {w : GWorld} {a : Address} {m : SenderKeyMsg} {g : GRecord} {s s' : GState} {k : PubKey}
    {mk : SKMessageKey} (h : GAccepted C w a m g s k mk s') (hs : s.WF) : GTaken C s m.iteration mk s' := by
  have ht := groupMessageKey_cases C s hs.keys m.iteration
  rw [h.taken] at ht
  cases ht with
  | taken _ _ ht => exact ht

theorem GStep.WF {E : GEnv} {w : GWorld} {op : GOp} {o : Option GRecord} {g' : GRecord} (h : GStep E w op o g')
    (ho : ∀ g, o = some g → g.WF) : g'.WF := by
  cases h with
  | enc h =>
    have hg := ho _ rfl
    refine hg.head rfl ?_
    have := hg.states _ (List.mem_cons_self ..)
    exact ⟨this.keys, this.signing⟩
  | dec h =>
    have hg := ho _ rfl
    obtain ⟨hm, hc⟩ := GRecord.stateForChainID_some h.state
    have hsw := hg.states _ hm
    have ht := h.gtaken hsw
    rw [← hc]
    exact hg.setState hm ht.chainId.1 (ht.WF hsw)
  | proc =>
    refine GRecord.WF.added ?_ (newGroupState_WF ..) rfl
    cases o with
    | none => exact ⟨by simp, by simp, by simp⟩
    | some g => exact ho g rfl
  | create h => exact h.WF

/-- Every stored record is well-formed. -/
def GWorld.WF (w : GWorld) : Prop := ∀ k g, w.records k = some g → g.WF

theorem GWorld.WF.call {E : GEnv} {w : GWorld} (h : w.WF) (c : GCall) : (c.run E w).2.WF := by
  intro k g hg
  rcases gcall_changed E c w k with he | ⟨g', _, he, hst⟩
  · rw [he] at hg; exact h k g hg
  · rw [he] at hg
    simp only [Option.some.injEq] at hg
    subst hg
    exact hst.WF fun g hg => h k g hg

theorem GWorld.WF.after {E : GEnv} {w : GWorld} (h : w.WF) (cs : List GCall) : (gAfter E cs w).WF := by
  induction cs generalizing w with
  | nil => exact h
  | cons c cs ih => exact ih (h.call c)

theorem GReachable.WF {E : GEnv} {w : GWorld} (h : GReachable E w) : w.WF := by
  obtain ⟨w0, cs, rd, srd, fs, h0, rfl⟩ := h
  have : w0.WF := fun k g hg => by rw [h0 k] at hg; simp at hg
  exact this.after cs

end Verif
