import Verif.Model.Heap

/-!
Code on one `*State`: writing through the pointer does what the functions on values compute, and touches nothing else.
-/

namespace Verif

/-- One state cell and the random reader have changed. -/
def HWorld.setState (h : HWorld) (p : Nat) (s : SState) (rd : Bytes) : HWorld :=
  { h with rest := { h.rest with rand := rd }, states := upd h.states p s }

theorem upd_at_self {α β} [DecidableEq α] (f : α → β) (a : α) : upd f a (f a) = f := by
  funext x; unfold upd; split <;> simp_all

theorem upd_twice {α β} [DecidableEq α] (f : α → β) (a : α) (b c : β) : upd (upd f a b) a c = upd f a c := by
  funext x; unfold upd; split <;> rfl

theorem HWorld.setState_self (h : HWorld) (p : Nat) : h.setState p (h.states p) h.rest.rand = h := by
  simp [HWorld.setState, upd_at_self]

theorem HWorld.setState_setState (h : HWorld) (p : Nat) (s s' : SState) (rd rd' : Bytes) : (h.setState p s rd).setState p s' rd' = h.setState p s' rd' := by
  simp [HWorld.setState, upd_twice]

@[simp] theorem HWorld.setState_states (h : HWorld) (p : Nat) (s : SState) (rd : Bytes) : (h.setState p s rd).states p = s := upd_same ..
@[simp] theorem HWorld.setState_rand (h : HWorld) (p : Nat) (s : SState) (rd : Bytes) : (h.setState p s rd).rest.rand = rd := rfl

/-- From the memory `h`, the code `x` on the pointer `p` does what `z` computes on the value. When it fails, some other value may be
left behind. -/
def SimAt {α} (p : Nat) (h : HWorld) (x : M HWorld α) (z : M Bytes (α × SState)) : Prop :=
  ∃ s', x h = (Prod.fst <$> (z h.rest.rand).1, h.setState p s' (z h.rest.rand).2) ∧ ∀ a s'', (z h.rest.rand).1 = .ok (a, s'') → s' = s''

theorem SimAt.pure {α} {p : Nat} {h : HWorld} (a : α) {s : SState} (hs : h.states p = s) : SimAt p h (Pure.pure a) (Pure.pure (a, s)) := by
  subst hs
  refine ⟨h.states p, ?_, fun a s'' he => (Prod.mk.inj (Res.ok.inj he)).2⟩
  simp only [M.pure_run, HWorld.setState_self]
  rfl

theorem SimAt.throw {α} {p : Nat} {h : HWorld} (e : Err) : SimAt (α := α) p h (M.throw e) (M.throw e) := by
  refine ⟨h.states p, ?_, fun a s'' he => by cases he⟩
  simp only [M.throw_run, HWorld.setState_self]
  rfl

theorem SimAt.panic {α} {p : Nat} {h : HWorld} : SimAt (α := α) p h M.panic M.panic := by
  refine ⟨h.states p, ?_, fun a s'' he => by cases he⟩
  simp only [M.panic_run, HWorld.setState_self]
  rfl

theorem SimAt.bind {α β} {p : Nat} {h : HWorld} {x : M HWorld α} {z : M Bytes (α × SState)} {f : α → M HWorld β} {g : α × SState → M Bytes (β × SState)}
    (hx : SimAt p h x z) (hf : ∀ a h', SimAt p h' (f a) (g (a, h'.states p))) : SimAt p h (x >>= f) (z >>= g) := by
  obtain ⟨s1, h1, h2⟩ := hx
  unfold SimAt
  rw [M.bind_run, M.bind_run, h1]
  rcases hy : z h.rest.rand with ⟨r, rd⟩
  rw [hy] at h1 h2
  cases r with
  | ok y =>
    obtain ⟨a, s2⟩ := y
    have := h2 a s2 rfl
    subst this
    obtain ⟨s3, h3, h4⟩ := hf a (h.setState p s1 rd)
    rw [HWorld.setState_states, HWorld.setState_rand, HWorld.setState_setState] at h3
    rw [HWorld.setState_states, HWorld.setState_rand] at h4
    exact ⟨s3, h3, h4⟩
  | err e => exact ⟨s1, rfl, fun a s'' he => by cases he⟩
  | panic => exact ⟨s1, rfl, fun a s'' he => by cases he⟩

theorem SimAt.lift {α β} {p : Nat} {h : HWorld} {r : Res α} {f : α → M HWorld β} {g : α → M Bytes (β × SState)}
    (hf : ∀ a, r = .ok a → SimAt p h (f a) (g a)) : SimAt p h (M.lift r >>= f) (M.lift r >>= g) := by
  cases r with
  | ok a => exact hf a rfl
  | err e => exact .throw e
  | panic => exact .panic

theorem SimAt.read {β} {p : Nat} {h : HWorld} {f : SState → M HWorld β} {z : M Bytes (β × SState)}
    (hf : SimAt p h (f (h.states p)) z) : SimAt p h (readState p >>= f) z := hf

theorem SimAt.get {α β} {p : Nat} {h : HWorld} {o : SState → Res α} {f : α → M HWorld β} {g : α → M Bytes (β × SState)} {s : SState} (hs : h.states p = s)
    (hf : ∀ a, o s = .ok a → SimAt p h (f a) (g a)) : SimAt p h (getState p o >>= f) (M.lift (o s) >>= g) := by
  subst hs
  have : SimAt p h (M.lift (o (h.states p)) >>= f) (M.lift (o (h.states p)) >>= g) := .lift hf
  unfold SimAt at this ⊢
  rw [show (getState p o >>= f) h = (M.lift (o (h.states p)) >>= f) h from rfl]
  exact this

theorem SimAt.write {β} {p : Nat} {h : HWorld} {s : SState} {f : Unit → M HWorld β} {z : M Bytes (β × SState)}
    (hf : ∀ h' : HWorld, h'.states p = s → SimAt p h' (f ()) z) : SimAt p h (writeState p s >>= f) z := by
  obtain ⟨s3, h3, h4⟩ := hf (h.setState p s h.rest.rand) (upd_same ..)
  rw [HWorld.setState_rand, HWorld.setState_setState] at h3
  exact ⟨s3, h3, h4⟩

theorem SimAt.change {β} {p : Nat} {h : HWorld} {o : SState → SState} {s : SState} {f : Unit → M HWorld β} {z : M Bytes (β × SState)} (hs : h.states p = s)
    (hf : ∀ h' : HWorld, h'.states p = o s → SimAt p h' (f ()) z) : SimAt p h (changeState p o >>= f) z := by
  subst hs
  exact SimAt.write (h := h) hf

theorem SimAt.changeF {β} {p : Nat} {h : HWorld} {o : SState → Res SState} {s : SState} {f : Unit → M HWorld β} {g : SState → M Bytes (β × SState)} (hs : h.states p = s)
    (hf : ∀ h' : HWorld, SimAt p h' (f ()) (g (h'.states p))) : SimAt p h (changeState? p o >>= f) (M.lift (o s) >>= g) := by
  subst hs
  have : SimAt p h (M.lift (o (h.states p)) >>= fun s' => writeState p s' >>= f) (M.lift (o (h.states p)) >>= g) := .lift fun s' _ => .write fun h' hs' => hs' ▸ hf h'
  unfold SimAt at this ⊢
  have he : (changeState? p o >>= f) h = (M.lift (o (h.states p)) >>= fun s' => writeState p s' >>= f) h := by
    rw [M.bind_run, M.bind_run, M.lift_run]
    rw [show changeState? p o h = (M.lift (o (h.states p)) >>= fun s' => writeState p s' : M HWorld Unit) h from rfl]
    rw [M.bind_run, M.lift_run]
    cases o (h.states p) <;> rfl
  rw [he]
  exact this

theorem SimAt.rand {α β} {p : Nat} {h : HWorld} {y : M Bytes α} {f : α → M HWorld β} {g : α → M Bytes (β × SState)}
    (hf : ∀ a (h' : HWorld), h'.states p = h.states p → SimAt p h' (f a) (g a)) : SimAt p h (hRest (withRand y) >>= f) (y >>= g) := by
  unfold SimAt
  rw [M.bind_run, M.bind_run]
  have : hRest (withRand y) h = ((y h.rest.rand).1, h.setState p (h.states p) (y h.rest.rand).2) := by
    simp [hRest, withRand, HWorld.setState, upd_at_self]
  rw [this]
  rcases y h.rest.rand with ⟨r, rd⟩
  cases r with
  | ok a =>
    obtain ⟨s3, h3, h4⟩ := hf a (h.setState p (h.states p) rd) (upd_same ..)
    rw [HWorld.setState_rand, HWorld.setState_setState] at h3
    exact ⟨s3, h3, h4⟩
  | err e => exact ⟨h.states p, rfl, fun a s'' he => by cases he⟩
  | panic => exact ⟨h.states p, rfl, fun a s'' he => by cases he⟩

/-! ## The functions -/

theorem M.bind_assoc' {σ α β γ} (x : M σ α) (f : α → M σ β) (g : β → M σ γ) : (x >>= f) >>= g = x >>= fun a => f a >>= g := by
  funext s
  simp only [M.bind_run]
  rcases x s with ⟨r, s'⟩
  cases r <;> rfl

theorem M.lift_bind' {σ α β} (x : Res α) (f : α → Res β) : (M.lift (x >>= f) : M σ β) = M.lift x >>= fun a => M.lift (f a) := by
  funext s
  rw [M.bind_run, M.lift_run, M.lift_run]
  cases x <;> rfl

theorem chainKey_hsim (C : Crypto) (p : Nat) (e : PubKey) (h : HWorld) : SimAt p h (hChainKey C p e) (chainKeyFor C (h.states p) e) := by
  unfold hChainKey chainKeyFor
  refine .get rfl fun o _ => ?_
  cases o with
  | some chain => exact .pure _ rfl
  | none =>
    refine .get rfl fun rootKey _ => .get rfl fun ourEphemeral _ => .lift fun x _ => .rand fun k h1 hs => .lift fun y _ => .get hs fun ck _ =>
      .change hs fun h2 hs => .change hs fun h3 hs => .change hs fun h4 hs => .change hs fun h5 hs => .pure _ hs

theorem skipLoop_hsim (C : Crypto) (p : Nat) (e : PubKey) (counter : UInt32) : ∀ (fuel : Nat) (ck : ChainKey) (h : HWorld),
    SimAt p h (hSkipLoop C p e counter fuel ck) (M.lift (skipLoop C e counter fuel ck (h.states p))) := by
  intro fuel
  induction fuel with
  | zero => exact fun ck h => .pure _ rfl
  | succ fuel ih =>
    intro ck h
    unfold hSkipLoop skipLoop
    split
    · rw [M.lift_bind']
      exact .changeF rfl fun h' => ih _ h'
    · exact .pure _ rfl

theorem takeMessageKeys_hsim (p : Nat) (e : PubKey) (counter : UInt32) (h : HWorld) :
    SimAt p h (hTakeMessageKeys p e counter) (M.lift ((h.states p).takeMessageKeys e counter)) := by
  unfold hTakeMessageKeys SState.takeMessageKeys
  refine .read ?_
  cases (h.states p).receiverChain e with
  | none => exact .pure _ rfl
  | some x =>
    obtain ⟨idx, chain⟩ := x
    refine .write fun h' hs => ?_
    simp only
    cases (chain.messageKeys.filter fun k => k.index = counter).getLast? with
    | none => exact .pure _ hs
    | some k =>
      simp only [M.lift_bind']
      exact .lift fun mk _ => .pure _ hs

theorem messageKeys_hsim (C : Crypto) (p : Nat) (e : PubKey) (ck : ChainKey) (counter : UInt32) (h : HWorld) :
    SimAt p h (hMessageKeys C p e ck counter) (M.lift (messageKeysFor C (h.states p) e ck counter)) := by
  unfold hMessageKeys messageKeysFor
  split
  · rw [M.lift_bind']
    refine .bind (takeMessageKeys_hsim p e counter h) fun o h' => ?_
    cases o with
    | none => exact .throw _
    | some k => exact .pure _ rfl
  · have tail : SimAt p h (do
        let ck ← hSkipLoop C p e counter (counter.toNat - ck.index.toNat) ck
        changeState? p fun s => s.setReceiverChainKey e ck
        return ck.messageKeys C) (M.lift (do
        let (ck, s) ← skipLoop C e counter (counter.toNat - ck.index.toNat) ck (h.states p)
        let s ← s.setReceiverChainKey e ck
        return (ck.messageKeys C, s))) := by
      rw [M.lift_bind']
      refine .bind (skipLoop_hsim C p e counter _ _ h) fun ck' h' => ?_
      simp only [M.lift_bind']
      exact .changeF rfl fun h'' => .pure _ rfl
    simp only
    split
    · simp only [M.lift_bind']
      refine .get rfl fun b _ => ?_
      cases b with
      | true => exact tail
      | false => exact .throw _
    · exact tail

theorem decryptMessageSession_hsim (C : Crypto) (p : Nat) (m : Signal) (h : HWorld) : SimAt p h (hDecryptMessageSession C p m) (decryptMessageSession C (h.states p) m) := by
  unfold hDecryptMessageSession decryptMessageSession
  refine .read ?_
  cases (h.states p).senderChain with
  | none => exact .throw _
  | some ch =>
    simp only
    split
    · exact .throw _
    · refine .bind (chainKey_hsim C p _ h) fun ck h1 => ?_
      rw [M.lift_bind']
      refine .bind (messageKeys_hsim C p _ _ _ h1) fun mk h2 => ?_
      rw [M.lift_bind']
      refine .get rfl fun o _ => ?_
      cases o with
      | none => exact .throw _
      | some k =>
        simp only [M.lift_bind']
        refine .get rfl fun loc _ => .lift fun valid _ => ?_
        cases valid with
        | true =>
          simp only [if_true, M.lift_bind']
          exact .lift fun pt _ => .change rfl fun h3 hs => .pure _ hs
        | false => exact .throw _

end Verif
