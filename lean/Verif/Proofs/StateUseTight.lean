import Verif.Proofs.StateUseSim

namespace Verif

/-- No room is left behind the bytes. -/
def Slice.Full (x : Slice) : Prop := x.cap = x.len

def ChainOf.Full (c : ChainOf Slice) : Prop := ∀ k ∈ c.chainKey, k.key.Full

/-- No room is left behind the base key and the chain keys. -/
structure StateOf.Full (s : StateOf Slice) : Prop where
  base : s.aliceBaseKey.Full
  sender : ∀ c ∈ s.senderChain, c.Full
  receivers : ∀ c ∈ s.receiverChains, c.Full

/-! ## What a call leaves -/

def Ensures {σ α} (x : M σ α) (P : α → Prop) : Prop := ∀ m a m', x m = (.ok a, m') → P a

theorem ensures_bind {σ α β} {x : M σ α} {f : α → M σ β} {P : α → Prop} {Q : β → Prop} (hx : Ensures x P) (hf : ∀ a, P a → Ensures (f a) Q) :
    Ensures (x >>= f) Q := by
  intro m b m' e
  rw [M.bind_run] at e
  rcases h : x m with ⟨r, n⟩
  rw [h] at e
  cases r with
  | ok a => exact hf a (hx _ _ _ h) _ _ _ e
  | err e' => cases e
  | panic => cases e

theorem ensures_any {σ α} (x : M σ α) : Ensures x fun _ => True := fun _ _ _ _ => trivial

theorem ensures_pure {σ α} {a : α} {P : α → Prop} (h : P a) : Ensures (pure a : M σ α) P := by
  intro m b m' e
  cases e
  exact h

theorem ensures_mpure {σ α} {a : α} {P : α → Prop} (h : P a) : Ensures (M.pure a : M σ α) P := ensures_pure h

theorem ensures_throw {σ α} {e : Err} {P : α → Prop} : Ensures (M.throw e : M σ α) P := by
  intro m b m' h
  cases h

theorem ensures_lift {σ α} {r : Res α} {P : α → Prop} (h : ∀ a, r = .ok a → P a) : Ensures (M.lift r : M σ α) P := by
  intro m b m' e
  simp only [M.lift, Prod.mk.injEq] at e
  exact h b e.1

theorem ensures_onMem {α} {x : M Heap α} {P : α → Prop} (h : Ensures x P) : Ensures (onMem x) P := by
  intro m b m' e
  simp only [onMem, Prod.mk.injEq] at e
  exact h m.heap b (x m.heap).2 (Prod.ext e.1 rfl)

theorem ensures_alloc (b : Bytes) : Ensures (allocBytes b) Slice.Full := by
  intro m x m' e
  cases e
  rfl

/-! ## The steps -/

theorem newBytes_full (b : Bytes) (h : Heap) : (newBytes b h).1.Full := rfl

theorem newChainKeyBytes_full (o : Option PBChainKey) (h : Heap) : ∀ k ∈ (newOptional newChainKeyBytes o h).1, k.key.Full := by
  cases o with
  | none => simp [newOptional]
  | some c =>
    intro k hk
    simp only [newOptional, newChainKeyBytes, Option.mem_def, Option.some.injEq] at hk
    subst hk
    exact newBytes_full _ _

theorem newChainBytes_full (c : PBChain) (h : Heap) : (newChainBytes c h).1.Full := newChainKeyBytes_full _ _

theorem newOptional_full (o : Option PBChain) (h : Heap) : ∀ c ∈ (newOptional newChainBytes o h).1, c.Full := by
  cases o with
  | none => simp [newOptional]
  | some c =>
    intro k hk
    simp only [newOptional, Option.mem_def, Option.some.injEq] at hk
    subst hk
    exact newChainBytes_full _ _

theorem newRepeated_full (l : List PBChain) (h : Heap) : ∀ c ∈ (newRepeated newChainBytes l h).1, c.Full := by
  induction l generalizing h with
  | nil => simp [newRepeated]
  | cons c l ih =>
    intro k hk
    simp only [newRepeated, List.mem_cons] at hk
    rcases hk with rfl | hk
    · exact newChainBytes_full _ _
    · exact ih _ _ hk

theorem newStateBytes_full (s : SState) (h : Heap) : (newStateBytes s h).1.Full :=
  ⟨newBytes_full _ _, newOptional_full _ _, newRepeated_full _ _⟩

theorem findChainOf_mem {h : Heap} {key : Bytes} {cs : List (ChainOf Slice)} {i j : Nat} {c : ChainOf Slice}
    (e : StateOf.findChainOf h key cs i = some (j, c)) : c ∈ cs := by
  induction cs generalizing i with
  | nil => cases e
  | cons a as ih =>
    unfold StateOf.findChainOf at e
    split at e
    · cases e
      exact List.mem_cons_self
    · exact List.mem_cons_of_mem _ (ih e)

theorem StateOf.Full.setChain {s : StateOf Slice} (hs : s.Full) (i : Nat) {c : ChainOf Slice} (hc : c.Full) : (s.setChain i c).Full := by
  refine ⟨hs.base, hs.sender, fun d hd => ?_⟩
  rcases List.mem_or_eq_of_mem_set hd with h | rfl
  · exact hs.receivers d h
  · exact hc

theorem StateOf.Full.messageKeySlices {s : StateOf Slice} (hs : s.Full) (h : Heap) (k : PubKey) (n : UInt32) : (s.messageKeySlices h k n).2.Full := by
  unfold StateOf.messageKeySlices
  split
  · exact hs
  · rename_i i c hf
    have hc := hs.receivers c (findChainOf_mem hf)
    have := hs.setChain i (c := { c with messageKeys := c.messageKeys.filter fun k => k.index ≠ n }) hc
    dsimp only
    split
    · exact this
    · split
      · exact this
      · split
        · exact this
        · split <;> exact this

theorem StateOf.Full.receiverChainKeyRef {s : StateOf Slice} (hs : s.Full) {h : Heap} {k : PubKey} {ck : ChainKeyRef}
    (e : s.receiverChainKeyRef h k = .ok (some ck)) : ck.key.Full := by
  unfold StateOf.receiverChainKeyRef at e
  split at e
  · cases e
  · rename_i i c hf
    have hc := hs.receivers c (findChainOf_mem hf)
    split at e
    · cases e
    · rename_i ck' hk
      unfold chainKeyFromSlice at e
      split at e
      · cases e
      · cases e
        exact hc ck' hk

theorem StateOf.Full.setReceiverChainKeyRef {s s' : StateOf Slice} (hs : s.Full) {h : Heap} {k : PubKey} {ck : ChainKeyRef} (hk : ck.key.Full)
    (e : s.setReceiverChainKeyRef h k ck = .ok s') : s'.Full := by
  unfold StateOf.setReceiverChainKeyRef at e
  split at e
  · cases e
  · cases e
    refine hs.setChain _ fun x hx => ?_
    simp only [Option.mem_def, Option.some.injEq] at hx
    subst hx
    exact hk

theorem StateOf.Full.setMessageKeysRef {s s' : StateOf Slice} (hs : s.Full) {h : Heap} {k : PubKey} {mk : MessageKeysRef}
    (e : s.setMessageKeysRef h k mk = .ok s') : s'.Full := by
  unfold StateOf.setMessageKeysRef at e
  split at e
  · cases e
  · rename_i i c hf
    cases e
    exact hs.setChain _ (hs.receivers c (findChainOf_mem hf))

theorem ensures_next (C : Crypto) (c : ChainKeyRef) : Ensures (c.next C) fun k => k.key.Full := by
  intro h a h' e
  exact ensures_bind (ensures_alloc (chainHash C (h.read c.key) [2])) (fun x hx => ensures_pure (P := fun k : ChainKeyRef => k.key.Full) hx) h a h' e

theorem ensures_createChain (C : Crypto) (root : Slice) (ours : PrivKey) (theirs : PubKey) :
    Ensures (createChainRef C root ours theirs) fun o => o.2.key.Full := by
  intro h a h' e
  unfold createChainRef at e
  split at e
  · cases e
    rfl
  · cases e
  · cases e

theorem ensures_chainKeyFor (C : Crypto) {s : StateOf Slice} (hs : s.Full) (k : PubKey) :
    Ensures (chainKeyForRef C s k) fun o => o.1.key.Full ∧ o.2.Full := by
  unfold chainKeyForRef
  refine ensures_bind (ensures_any _) fun m _ => ?_
  refine ensures_bind (P := fun o => ∀ ck, o = some ck → ck.key.Full) (ensures_lift fun o e ck h => hs.receiverChainKeyRef (h ▸ e)) fun o ho => ?_
  cases o with
  | some ck => exact ensures_pure ⟨ho ck rfl, hs⟩
  | none =>
    refine ensures_bind (ensures_any _) fun root _ => ensures_bind (ensures_any _) fun ours _ =>
      ensures_bind (ensures_onMem (ensures_createChain _ _ _ _)) fun ⟨root1, receiving⟩ h1 => ensures_bind (ensures_any _) fun pair _ =>
      ensures_bind (ensures_onMem (ensures_createChain _ _ _ _)) fun ⟨root2, sending⟩ h2 => ensures_bind (ensures_any _) fun current _ =>
      ensures_bind (ensures_any _) fun ratchet _ => ensures_bind (ensures_any _) fun none' _ => ensures_bind (ensures_any _) fun pub _ =>
      ensures_bind (ensures_any _) fun priv _ => ensures_pure ⟨h1, hs.base, ?_, ?_⟩
    · intro c hc
      simp only [StateOf.setSenderChainRef, Option.mem_def, Option.some.injEq] at hc
      subst hc
      intro x hx
      simp only [Option.mem_def, Option.some.injEq] at hx
      subst hx
      exact h2
    · have hall : ∀ c ∈ s.receiverChains ++ [(⟨ratchet, none', some ⟨receiving.index, receiving.key⟩, []⟩ : ChainOf Slice)], c.Full := by
        intro c hc
        rcases List.mem_append.1 hc with h | h
        · exact hs.receivers c h
        · rw [List.mem_singleton.1 h]
          intro x hx
          simp only [Option.mem_def, Option.some.injEq] at hx
          subst hx
          exact h1
      intro c hc
      simp only [StateOf.setSenderChainRef, StateOf.addReceiverChainRef] at hc
      split at hc
      · exact hall c (List.mem_of_mem_drop hc)
      · exact hall c hc

theorem ensures_skip (C : Crypto) (k : PubKey) (counter : UInt32) (fuel : Nat) {ck : ChainKeyRef} (hk : ck.key.Full) {s : StateOf Slice} (hs : s.Full) :
    Ensures (skipLoopRef C k counter fuel ck s) fun o => o.1.key.Full ∧ o.2.Full := by
  induction fuel generalizing ck s with
  | zero => exact ensures_mpure ⟨hk, hs⟩
  | succ fuel ih =>
    unfold skipLoopRef
    split
    · exact ensures_bind (ensures_any _) fun keys _ => ensures_bind (ensures_any _) fun h _ =>
        ensures_bind (ensures_lift fun s' e => hs.setMessageKeysRef e) fun s' hs' => ensures_bind (ensures_next _ _) fun next hn => ih hn hs'
    · exact ensures_mpure ⟨hk, hs⟩

theorem ensures_messageKeysFor (C : Crypto) {s : StateOf Slice} (hs : s.Full) (k : PubKey) {ck : ChainKeyRef} (hk : ck.key.Full) (counter : UInt32) :
    Ensures (messageKeysForRef C s k ck counter) fun o => o.2.Full := by
  unfold messageKeysForRef
  refine ensures_bind (ensures_any _) fun h _ => ?_
  split
  · refine ensures_bind (ensures_any _) fun o _ => ?_
    cases o with
    | some k => exact ensures_pure (hs.messageKeySlices _ _ _)
    | none => exact ensures_throw
  · exact ensures_bind (ensures_any _) fun _ _ => ensures_bind (ensures_skip C k counter _ hk hs) fun out ho => ensures_bind (ensures_any _) fun h _ =>
      ensures_bind (ensures_lift fun s' e => ho.2.setReceiverChainKeyRef ho.1 e) fun s' hs' => ensures_bind (ensures_any _) fun keys _ => ensures_pure hs'

theorem ensures_decrypt (C : Crypto) (s : StateOf Slice) (c : Signal) : Ensures (decryptStateRef C s c) fun o => o.2.Full := by
  unfold decryptStateRef
  refine ensures_bind (ensures_any _) fun m _ => ensures_bind (P := StateOf.Full) (ensures_onMem ?_) fun s hs => ?_
  · intro h a h' e
    simp only [Prod.mk.injEq, Res.ok.injEq] at e
    rw [← e.1]
    exact newStateBytes_full _ _
  · split
    · exact ensures_throw
    · refine ensures_bind (ensures_any _) fun m _ => ?_
      split
      · exact ensures_throw
      · refine ensures_bind (ensures_chainKeyFor C hs _) fun ⟨ck, s1⟩ h1 => ensures_bind (ensures_onMem (ensures_messageKeysFor C h1.2 _ h1.1 _)) fun ⟨keys, s2⟩ h2 =>
          ensures_bind (ensures_any _) fun m _ => ensures_lift fun a e => ?_
        generalize (StateOf.seen m.heap s2).remoteIdentityKey = r at e
        rcases r with (_ | their) | _ | _
        · cases e
        · simp only [Res.bind_ok] at e
          generalize (StateOf.seen m.heap s2).localIdentityKey = r at e
          rcases r with loc | _ | _
          · simp only [Res.bind_ok] at e
            generalize c.verifyMAC C (m.heap.read keys.macKey) their loc = r at e
            rcases r with v | _ | _
            · simp only [Res.bind_ok] at e
              split at e
              · generalize cbcDecrypt C (m.heap.read keys.cipherKey) (m.heap.read keys.iv) c.ciphertext = r at e
                rcases r with p | _ | _
                · cases e
                  exact ⟨h2.base, h2.sender, h2.receivers⟩
                · cases e
                · cases e
              · cases e
            · cases e
            · cases e
          · cases e
          · cases e
        · cases e
        · cases e

theorem ensures_encrypt (C : Crypto) {s : StateOf Slice} (hs : s.Full) (plaintext : Bytes) : Ensures (encryptStateRef C s plaintext) fun o => o.2.Full := by
  intro h a h' e
  unfold encryptStateRef at e
  split at e
  · split at e
    · cases e
    · rename_i chain hc
      split at e
      · cases e
      · refine ensures_bind (ensures_next _ _) (fun next hn => ensures_pure (P := fun o : Ciphertext × StateOf Slice => o.2.Full) ⟨hs.base, ?_, hs.receivers⟩) h a h' e
        intro c hc
        simp only [StateOf.setSenderChainKeyRef, Option.mem_def, Option.some.injEq] at hc
        subst hc
        intro x hx
        simp only [Option.mem_def, Option.some.injEq] at hx
        subst hx
        exact hn
  · cases e
  · cases e

/-! ## Programs -/

theorem StateMem.step_full (C : Crypto) {m : StateMem} (hm : m.state.Full) (op : StateOp) : (m.step C op).2.state.Full := by
  unfold StateMem.step
  cases op with
  | shared f => dsimp only; split <;> exact hm
  | copied f => dsimp only; split <;> exact hm
  | messageKeys k n =>
    have := hm.messageKeySlices m.heap k n
    dsimp only
    split <;> (rename_i e; rw [e] at this; exact this)
  | write i o b =>
    dsimp only
    split
    · unfold StateMem.writeTo
      split <;> exact hm
    · exact hm
  | writeShared i o b =>
    dsimp only
    split
    · unfold StateMem.writeTo
      split <;> exact hm
    · exact hm

theorem UseMem.step_full (C : Crypto) {m : UseMem} (hm : m.state.Full) (op : UseOp) : (m.step C op).2.state.Full := by
  unfold UseMem.step
  cases op with
  | look op => exact StateMem.step_full C (m := m.looking) hm op
  | send p =>
    dsimp only
    split
    · rename_i e
      exact ensures_encrypt C hm p _ _ _ e
    · exact hm
    · exact hm
  | receive c r =>
    dsimp only
    split
    · rename_i e
      exact ensures_decrypt C m.state c _ _ _ e
    · exact hm
    · exact hm

theorem UseMem.run_full (C : Crypto) {m : UseMem} (hm : m.state.Full) (ops : List UseOp) : (m.run C ops).2.state.Full := by
  induction ops generalizing m with
  | nil => exact hm
  | cons op ops ih => exact ih (UseMem.step_full C hm op)

theorem newStateBytes_root_full (s : SState) (h : Heap) : (newStateBytes s h).1.rootKey.Full := newBytes_full _ _

theorem messageKeySlices_root (s : StateOf Slice) (h : Heap) (k : PubKey) (n : UInt32) : (s.messageKeySlices h k n).2.rootKey = s.rootKey := by
  unfold StateOf.messageKeySlices
  split
  · rfl
  · dsimp only
    split
    · rfl
    · split
      · rfl
      · split
        · rfl
        · split <;> rfl

theorem StateMem.step_root (C : Crypto) (m : StateMem) (op : StateOp) : (m.step C op).2.state.rootKey = m.state.rootKey := by
  unfold StateMem.step
  cases op with
  | shared f => dsimp only; split <;> rfl
  | copied f => dsimp only; split <;> rfl
  | messageKeys k n =>
    have := messageKeySlices_root m.state m.heap k n
    dsimp only
    split <;> (rename_i e; rw [e] at this; exact this)
  | write i o b =>
    dsimp only
    split
    · unfold StateMem.writeTo
      split <;> rfl
    · rfl
  | writeShared i o b =>
    dsimp only
    split
    · unfold StateMem.writeTo
      split <;> rfl
    · rfl

theorem ensures_encrypt_root (C : Crypto) (s : StateOf Slice) (plaintext : Bytes) : Ensures (encryptStateRef C s plaintext) fun o => o.2.rootKey = s.rootKey := by
  intro h a h' e
  unfold encryptStateRef at e
  split at e
  · split at e
    · cases e
    · split at e
      · cases e
      · exact ensures_bind (ensures_any _) (fun next _ => ensures_pure (P := fun o : Ciphertext × StateOf Slice => o.2.rootKey = s.rootKey) rfl) h a h' e
  · cases e
  · cases e

theorem UseMem.run_root (C : Crypto) (m : UseMem) (ops : List UseOp) (hn : ∀ message random, UseOp.receive message random ∉ ops) :
    (m.run C ops).2.state.rootKey = m.state.rootKey := by
  induction ops generalizing m with
  | nil => rfl
  | cons op ops ih =>
    have h1 : (m.step C op).2.state.rootKey = m.state.rootKey := by
      unfold UseMem.step
      cases op with
      | look op => exact StateMem.step_root C m.looking op
      | send p =>
        dsimp only
        split
        · rename_i e
          exact ensures_encrypt_root C m.state p _ _ _ e
        · rfl
        · rfl
      | receive c r => exact absurd List.mem_cons_self (hn c r)
    exact (ih _ fun c r h => hn c r (List.mem_cons_of_mem _ h)).trans h1

/-! ## `append` -/

theorem read_append_full {h : Heap} {x y : Slice} (hx : x.Full) (hy : h.Valid y) (bs : Bytes) : (goAppend h x bs).2.read y = h.read y := by
  unfold goAppend
  by_cases fit : x.len + bs.length ≤ x.cap
  · have h0 : bs = [] := by
      apply List.eq_nil_of_length_eq_zero
      have : x.cap = x.len := hx
      omega
    subst h0
    rw [if_pos fit]
    have : (fun a => overwrite a (x.off + x.len) []) = id := by
      funext a
      simp [overwrite]
    simp only [this]
    simp
  · rw [if_neg fit]
    exact (Grows.append h _).read hy

theorem StateOf.Full.shared {s : StateOf Slice} (hs : s.Full) {h : Heap} {f : SharedField} (hf : f ≠ .rootKey ∨ s.rootKey.Full) {x : Slice}
    (e : f.slice h s = .ok (some x)) : x.Full := by
  have key : ∀ {a b : Slice}, keySlice a = .ok b → b = a := by
    intro a b e
    unfold keySlice at e
    split at e
    · cases e
    · cases e
      rfl
  cases f with
  | aliceBaseKey =>
    cases e
    exact hs.base
  | rootKey =>
    have hr := hf.resolve_left fun h => h rfl
    simp only [SharedField.slice, StateOf.rootKeySlice] at e
    generalize hk : keySlice s.rootKey = r at e
    cases r with
    | ok y =>
      cases e
      rw [key hk]
      exact hr
    | err _ => cases e
    | panic => cases e
  | senderChainKey =>
    have hk : ∃ y, s.senderChainKeySlice = .ok y ∧ y = x := by
      simp only [SharedField.slice] at e
      generalize s.senderChainKeySlice = r at e
      cases r with
      | ok y =>
        cases e
        exact ⟨_, rfl, rfl⟩
      | err _ => cases e
      | panic => cases e
    obtain ⟨y, hk, rfl⟩ := hk
    unfold StateOf.senderChainKeySlice at hk
    split at hk
    · cases hk
    · rename_i c hc
      split at hk
      · cases hk
      · rename_i ck hck
        rw [key hk]
        exact hs.sender c hc ck hck
  | receiverChainKey k =>
    simp only [SharedField.slice, StateOf.receiverChainKeySlice] at e
    split at e
    · cases e
    · rename_i i c hc
      split at e
      · cases e
      · rename_i ck hck
        generalize hk : keySlice ck.key = r at e
        cases r with
        | ok y =>
          cases e
          rw [key hk]
          exact hs.receivers c (findChainOf_mem hc) ck hck
        | err _ => cases e
        | panic => cases e

end Verif
