import Verif.Spec.GroupBytes
import Verif.Proofs.KeyHeap

/-! Helper lemmas for C131: group calls work on new arrays, apart from the padding of the plaintext. -/

namespace Verif

/-- The old windows in `P` show what they showed. -/
def GrowsOn (P : Slice → Prop) (h h' : Heap) : Prop := h.length ≤ h'.length ∧ ∀ s b, P s → At h s b → At h' s b

theorem GrowsOn.refl (P : Slice → Prop) (h : Heap) : GrowsOn P h h := ⟨Nat.le_refl _, fun _ _ _ h => h⟩

theorem GrowsOn.trans {P : Slice → Prop} {a b c : Heap} (h1 : GrowsOn P a b) (h2 : GrowsOn P b c) : GrowsOn P a c :=
  ⟨Nat.le_trans h1.1 h2.1, fun s d hp h => h2.2 s d hp (h1.2 s d hp h)⟩

theorem Grows.on {h h' : Heap} (g : Grows h h') (P : Slice → Prop) : GrowsOn P h h' := ⟨g.1, fun _ _ _ h => h.grows g⟩

theorem At.growsOn {P : Slice → Prop} {h h' : Heap} (g : GrowsOn P h h') {s : Slice} {b : Bytes} (ha : At h s b) (hp : P s) : At h' s b :=
  g.2 s b hp ha

/-- A slice that the library holds: a window of memory, over an array in `S`. -/
def Held (S : Nat → Prop) (h : Heap) (s : Slice) : Prop := h.Valid s ∧ S s.arr

theorem Held.at {S : Nat → Prop} {h : Heap} {s : Slice} (hs : Held S h s) : At h s (h.read s) := ⟨hs.1, rfl⟩

theorem Held.growsOn {P : Slice → Prop} {S : Nat → Prop} (ps : ∀ s : Slice, S s.arr → P s) {h h' : Heap} (g : GrowsOn P h h') {s : Slice} (hs : Held S h s) :
    Held S h' s ∧ h'.read s = h.read s := by
  have := hs.at.growsOn g (ps _ hs.2)
  exact ⟨⟨this.1, hs.2⟩, this.2⟩

def GStateRef.Ok (S : Nat → Prop) (h : Heap) (s : GStateRef) : Prop :=
  Held S h s.chainKey.seed ∧ ∀ c ∈ s.messageKeys, Held S h c.seed

theorem GStateRef.Ok.growsOn {P : Slice → Prop} {S : Nat → Prop} (ps : ∀ s : Slice, S s.arr → P s) {h h' : Heap} (g : GrowsOn P h h') {s : GStateRef} (hs : s.Ok S h) :
    s.Ok S h' ∧ s.seen h' = s.seen h := by
  refine ⟨⟨(hs.1.growsOn ps g).1, fun c hc => ((hs.2 c hc).growsOn ps g).1⟩, ?_⟩
  unfold GStateRef.seen
  have h1 : s.chainKey.seen h' = s.chainKey.seen h := by simp only [ChainRef.seen, (hs.1.growsOn ps g).2]
  have h2 : s.messageKeys.map (ChainRef.seen h') = s.messageKeys.map (ChainRef.seen h) :=
    List.map_congr_left fun c hc => by simp only [ChainRef.seen, ((hs.2 c hc).growsOn ps g).2]
  rw [h1, h2]

def GMem.Ok (S : Nat → Prop) (m : GMem) : Prop := ∀ k r, m.records k = some r → ∀ s ∈ r, s.Ok S m.heap

theorem map_seen_growsOn {P : Slice → Prop} {S : Nat → Prop} (ps : ∀ s : Slice, S s.arr → P s) {h h' : Heap} (g : GrowsOn P h h') {r : List GStateRef}
    (hr : ∀ s ∈ r, s.Ok S h) : r.map (GStateRef.seen h') = r.map (GStateRef.seen h) :=
  List.map_congr_left fun s hs => ((hr s hs).growsOn ps g).2

theorem GMem.Ok.growsOn {P : Slice → Prop} {S : Nat → Prop} (ps : ∀ s : Slice, S s.arr → P s) {m : GMem} {h' : Heap} (g : GrowsOn P m.heap h') (hm : m.Ok S) :
    GMem.Ok S { m with heap := h' } ∧ GMem.seen { m with heap := h' } = m.seen := by
  refine ⟨fun k r hr s hs => ((hm k r hr s hs).growsOn ps g).1, ?_⟩
  unfold GMem.seen
  congr 1
  funext k
  cases hr : m.records k with
  | none => rfl
  | some r => simp only [Option.map_some]; rw [map_seen_growsOn ps g (hm k r hr)]

/-- Arrays in `S` may be behind the library's slices, windows in `P` stay as they are, new arrays are in both. -/
structure Ctx (P : Slice → Prop) (S : Nat → Prop) (n : Nat) : Prop where
  ps : ∀ s : Slice, S s.arr → P s
  fresh : ∀ i, n ≤ i → S i

theorem Ctx.mono {P : Slice → Prop} {S : Nat → Prop} {n n' : Nat} (c : Ctx P S n) (h : n ≤ n') : Ctx P S n' := ⟨c.ps, fun i hi => c.fresh i (Nat.le_trans h hi)⟩

/-- A call over memory does what a call over values does. -/
def Sim {α β} (P : Slice → Prop) (S : Nat → Prop) (m : GMem) (x : M GMem α) (y : M GWorld β) (R : GMem → α → β → Prop) : Prop :=
  GrowsOn P m.heap (x m).2.heap ∧ (x m).2.Ok S ∧ (y m.seen).2 = (x m).2.seen ∧ match (x m).1, (y m.seen).1 with
    | .ok a, .ok b => R (x m).2 a b
    | .err e, .err e' => e = e'
    | .panic, .panic => True
    | _, _ => False

section
variable {α β γ δ : Type} {P : Slice → Prop} {S : Nat → Prop} {m : GMem}

theorem Sim.pure {a : α} {b : β} {R : GMem → α → β → Prop} (ok : m.Ok S) (hr : R m a b) :
    Sim P S m (pure a) (pure b) R := ⟨.refl _ _, ok, rfl, hr⟩

theorem Sim.throw {e : Err} {R : GMem → α → β → Prop} (ok : m.Ok S) : Sim P S m (M.throw e) (M.throw e) R := ⟨.refl _ _, ok, rfl, rfl⟩

theorem Sim.bind {x : M GMem α} {y : M GWorld β} {R : GMem → α → β → Prop} {f : α → M GMem γ} {g : β → M GWorld δ}
    {R' : GMem → γ → δ → Prop} (h1 : Sim P S m x y R)
    (h2 : ∀ m' a b, GrowsOn P m.heap m'.heap → m'.Ok S → R m' a b → Sim P S m' (f a) (g b) R') :
    Sim P S m (x >>= f) (y >>= g) R' := by
  obtain ⟨g1, o1, e1, r1⟩ := h1
  unfold Sim
  rw [M.bind_run, M.bind_run]
  generalize x m = xm at g1 o1 e1 r1
  obtain ⟨o, m'⟩ := xm
  generalize y m.seen = ym at e1 r1
  obtain ⟨p, w'⟩ := ym
  simp only at e1
  subst e1
  cases o <;> cases p <;> simp only at r1
  · obtain ⟨g2, o2, e2, r2⟩ := h2 _ _ _ g1 o1 r1
    exact ⟨g1.trans g2, o2, e2, r2⟩
  · exact ⟨g1, o1, rfl, r1⟩
  · exact ⟨g1, o1, rfl, r1⟩

theorem Sim.shrink {S' : Nat → Prop} {x : M GMem α} {y : M GWorld β} {R : GMem → α → β → Prop} (hs : ∀ i, S' i → S i)
    (h : Sim P S' m x y R) : Sim P S m x y fun m' a b => R m' a b ∧ m'.Ok S' := by
  obtain ⟨g1, o1, e1, r1⟩ := h
  have o2 : (x m).2.Ok S := fun k r hr s hs' => ⟨⟨(o1 k r hr s hs').1.1, hs _ (o1 k r hr s hs').1.2⟩,
    fun c hc => ⟨((o1 k r hr s hs').2 c hc).1, hs _ ((o1 k r hr s hs').2 c hc).2⟩⟩
  refine ⟨g1, o2, e1, ?_⟩
  generalize x m = xm at g1 o1 e1 r1 o2
  obtain ⟨o, m'⟩ := xm
  generalize y m.seen = ym at e1 r1
  obtain ⟨p, w'⟩ := ym
  cases o <;> cases p <;> simp only at r1 ⊢
  · exact ⟨r1, o1⟩
  · exact r1

theorem Sim.mono {x : M GMem α} {y : M GWorld β} {R R' : GMem → α → β → Prop} (h : Sim P S m x y R)
    (hr : ∀ m' a b, GrowsOn P m.heap m'.heap → m'.Ok S → R m' a b → R' m' a b) : Sim P S m x y R' := by
  obtain ⟨g1, o1, e1, r1⟩ := h
  refine ⟨g1, o1, e1, ?_⟩
  generalize x m = xm at g1 o1 e1 r1
  obtain ⟨o, m'⟩ := xm
  generalize y m.seen = ym at e1 r1
  obtain ⟨p, w'⟩ := ym
  cases o <;> cases p <;> simp only at r1 ⊢
  · exact hr _ _ _ g1 o1 r1
  · exact r1

theorem Sim.congr {x x' : M GMem α} {y : M GWorld β} {R : GMem → α → β → Prop} (e : x m = x' m) (h : Sim P S m x' y R) : Sim P S m x y R := by
  unfold Sim at h ⊢
  rwa [e]

/-- As `Does`, with some arrays left out. -/
def DoesOn (P : Slice → Prop) (h : Heap) (x : M Heap α) (r : Res β) (R : Heap → α → β → Prop) : Prop :=
  GrowsOn P h (x h).2 ∧ match (x h).1, r with
    | .ok a, .ok b => R (x h).2 a b
    | .err e, .err e' => e = e'
    | .panic, .panic => True
    | _, _ => False

theorem Does.on {h : Heap} {x : M Heap α} {r : Res β} {R : Heap → α → β → Prop} (d : Does h x r R) (P : Slice → Prop) : DoesOn P h x r R :=
  ⟨d.1.on P, d.2⟩

/-- A step on memory, and a value. -/
theorem Sim.heap (c : Ctx P S m.heap.length) (ok : m.Ok S) {x : M Heap α} {r : Res β} {R : Heap → α → β → Prop} (d : DoesOn P m.heap x r R) :
    Sim P S m (onHeap x) (M.lift r) fun m' a b => R m'.heap a b ∧ m' = { m with heap := m'.heap } := by
  obtain ⟨g, d⟩ := d
  have := ok.growsOn c.ps g
  refine ⟨g, this.1, this.2.symm, ?_⟩
  unfold onHeap
  rw [M.lift_run]
  generalize x m.heap = xh at g d
  obtain ⟨o, h'⟩ := xh
  cases o <;> cases r <;> simp only at d ⊢
  · exact ⟨d, trivial⟩
  · exact d

/-- A step on memory that the values do not have. -/
theorem Sim.alloc (c : Ctx P S m.heap.length) (ok : m.Ok S) {x : M Heap α} {b : β} {R : Heap → α → β → Prop} (d : DoesOn P m.heap x (.ok b) R)
    {f : α → M GMem γ} {y : M GWorld δ} {R' : GMem → γ → δ → Prop}
    (h2 : ∀ h' a, GrowsOn P m.heap h' → GMem.Ok S { m with heap := h' } → R h' a b → Sim P S { m with heap := h' } (f a) y R') :
    Sim P S m (onHeap x >>= f) y R' := by
  obtain ⟨g, d⟩ := d
  have o1 := ok.growsOn c.ps g
  unfold Sim
  have e : onHeap x m = ((x m.heap).1, { m with heap := (x m.heap).2 }) := rfl
  rw [M.bind_run, e]
  generalize x m.heap = xh at g d o1
  obtain ⟨o, h'⟩ := xh
  cases o <;> simp only at d
  obtain ⟨g2, o2, e2, r2⟩ := h2 h' _ g o1.1 d
  rw [o1.2] at e2 r2
  exact ⟨g.trans g2, o2, e2, r2⟩

theorem Sim.lift (ok : m.Ok S) {r : Res α} {r' : Res β} {f : α → β} (e : r' = f <$> r) :
    Sim P S m (M.lift r) (M.lift r') fun m' a b => b = f a ∧ r = .ok a ∧ m' = m := by
  subst e
  refine ⟨.refl _ _, ok, rfl, ?_⟩
  cases r <;> simp [M.lift, Res.map_eq, Res.bind]

theorem Sim.same (ok : m.Ok S) (r : Res α) : Sim P S m (M.lift r) (M.lift r) fun m' a b => a = b ∧ r = .ok a ∧ m' = m := by
  refine ⟨.refl _ _, ok, rfl, ?_⟩
  cases r <;> simp [M.lift]

theorem Sim.rand (ok : m.Ok S) (x : M Bytes α) :
    Sim P S m (memRand x) (gWithRand x) fun m' a b => a = b ∧ m' = { m with rand := m'.rand } ∧ (x m.rand).1 = .ok a := by
  refine ⟨.refl _ _, ok, rfl, ?_⟩
  unfold memRand gWithRand
  have e : m.seen.rand = m.rand := rfl
  rw [e]
  generalize x m.rand = p
  obtain ⟨o, r⟩ := p
  cases o <;> simp

theorem Sim.sysRand (ok : m.Ok S) (x : M Bytes α) :
    Sim P S m (memSysRand x) (gWithSysRand x) fun m' a b => a = b ∧ m' = { m with sysRand := m'.sysRand } := by
  refine ⟨.refl _ _, ok, rfl, ?_⟩
  unfold memSysRand gWithSysRand
  have e : m.seen.sysRand = m.sysRand := rfl
  rw [e]
  generalize x m.sysRand = p
  obtain ⟨o, r⟩ := p
  cases o <;> simp

theorem Sim.load (ok : m.Ok S) (k : Address × DistId) :
    Sim P S m (memLoad k) (gLoad k) fun m' a b => a = m.records k ∧ b = a.map (List.map (GStateRef.seen m.heap)) ∧ m' = m :=
  ⟨.refl _ _, ok, rfl, rfl, rfl, rfl⟩

theorem GMem.Ok.store (ok : m.Ok S) (k : Address × DistId) {r : List GStateRef} (hr : ∀ s ∈ r, s.Ok S m.heap) :
    GMem.Ok S { m with records := upd m.records k (some r) } := by
  intro k' r' h s hs
  by_cases hk : k' = k
  · subst hk
    simp only [upd, if_true] at h
    simp at h
    subst h
    exact hr s hs
  · simp only [upd, hk, if_false] at h
    exact ok k' r' h s hs

theorem GMem.seen_store (k : Address × DistId) (r : List GStateRef) :
    GMem.seen { m with records := upd m.records k (some r) } =
      { m.seen with records := upd m.seen.records k (some (r.map (GStateRef.seen m.heap))) } := by
  unfold GMem.seen
  congr 1
  funext k'
  by_cases hk : k' = k <;> simp [upd, hk]

theorem Sim.store (ok : m.Ok S) (k : Address × DistId) {r : List GStateRef} (hr : ∀ s ∈ r, s.Ok S m.heap) {v : GRecord}
    (hv : v = r.map (GStateRef.seen m.heap)) :
    Sim P S m (memStore k r) (gStore k v) fun m' _ _ => m' = { m with records := upd m.records k (some r) } := by
  subst hv
  exact ⟨.refl _ _, ok.store k hr, (GMem.seen_store k r).symm, rfl⟩

theorem Sim.touch (ok : m.Ok S) (k : Address × DistId) {r : List GStateRef} (hr : ∀ s ∈ r, s.Ok S m.heap) {v : GRecord}
    (hv : v = r.map (GStateRef.seen m.heap)) :
    Sim P S m (memStore k r) (gTouch true k true v) fun m' _ _ => m' = { m with records := upd m.records k (some r) } := by
  subst hv
  exact ⟨.refl _ _, ok.store k hr, (GMem.seen_store k r).symm, rfl⟩

end

/-! ## Keys -/

theorem does_hash (C : Crypto) (h : Heap) (s : Slice) (x : Bytes) :
    Does h (hashRef C s x) (.ok (chainHash C (h.read s) x)) (New h.length) := does_alloc h _

theorem does_next (C : Crypto) (h : Heap) (c : ChainRef) :
    Does h (c.next C) (.ok ((c.seen h).next C)) fun h' c' v => c'.iteration = v.iteration ∧ New h.length h' c'.seed v.seed := by
  unfold ChainRef.next
  have : Res.ok ((c.seen h).next C) = (Res.ok (chainHash C (h.read c.seed) [2]) >>= fun s => .ok ⟨s, c.iteration + 1⟩) := rfl
  rw [this]
  exact (does_hash C h c.seed [2]).bind fun h' a b g ha => Does.pure ⟨rfl, ha⟩

/-- The message key object and the value have the same keys. -/
def SameKey (n : Nat) (h : Heap) (k : MessageKeyRef) (v : SKMessageKey) : Prop :=
  k.cipherKey = v.cipherKey ∧ k.iv = v.iv ∧ k.iteration = v.iteration ∧ New n h k.seed v.seed

theorem does_messageKey (C : Crypto) (h : Heap) (c : ChainRef) :
    Does h (c.messageKey C) (.ok ((c.seen h).messageKey C)) (SameKey h.length) := by
  unfold ChainRef.messageKey
  have : Res.ok ((c.seen h).messageKey C) = (Res.ok (chainHash C (h.read c.seed) [1]) >>= fun s => .ok (deriveSKMessageKey C s c.iteration)) := rfl
  rw [this]
  refine (does_hash C h c.seed [1]).bind fun h' a b g ha => ⟨.refl _, ?_⟩
  simp only [deriveMessageKeyRef, deriveSKMessageKey, SameKey, ha.2.2, true_and]
  exact ha

theorem New.held {S : Nat → Prop} {n : Nat} (f : ∀ i, n ≤ i → S i) {h : Heap} {s : Slice} {b : Bytes} (hs : New n h s b) : Held S h s :=
  ⟨hs.2.1, f _ hs.1⟩

theorem addMessageKey_seen {S : Nat → Prop} {h : Heap} {s : GStateRef} (hs : s.Ok S h) {k : MessageKeyRef} {v : SKMessageKey}
    (hk : Held S h k.seed) (h1 : h.read k.seed = v.seed) (h2 : k.iteration = v.iteration) :
    (s.addMessageKey k).Ok S h ∧ (s.addMessageKey k).seen h = (s.seen h).addMessageKey v := by
  constructor
  · refine ⟨hs.1, fun c hc => ?_⟩
    simp only [GStateRef.addMessageKey] at hc
    have : c ∈ s.messageKeys ++ [⟨k.seed, k.iteration⟩] := by
      split at hc
      · exact List.mem_of_mem_drop hc
      · exact hc
    rcases List.mem_append.1 this with h' | h'
    · exact hs.2 c h'
    · rw [List.mem_singleton.1 h']; exact hk
  · simp only [GStateRef.addMessageKey, GStateRef.seen, GState.addMessageKey, List.length_append, List.length_map]
    congr 1
    simp only [List.length_cons, List.length_nil]
    split
    · simp only [List.map_drop, List.map_append, List.map_cons, List.map_nil, ChainRef.seen, h1, h2]
    · simp only [List.map_append, List.map_cons, List.map_nil, ChainRef.seen, h1, h2]

theorem does_skip (C : Crypto) (S : Nat → Prop) (iteration : UInt32) (fuel : Nat) (h : Heap) (f : ∀ i, h.length ≤ i → S i) (ck : ChainRef)
    (s : GStateRef) (hck : Held S h ck.seed) (hs : s.Ok S h) :
    Does h (groupSkipRef C iteration fuel ck s) (.ok (groupSkipLoop C iteration fuel (ck.seen h) (s.seen h))) fun h' o v =>
      o.1.seen h' = v.1 ∧ o.2.seen h' = v.2 ∧ Held S h' o.1.seed ∧ o.2.Ok S h' := by
  induction fuel generalizing h ck s with
  | zero => exact Does.pure ⟨rfl, rfl, hck, hs⟩
  | succ fuel ih =>
    unfold groupSkipRef groupSkipLoop
    have hi : (ck.seen h).iteration = ck.iteration := rfl
    rw [hi]
    split
    · have e : ∀ r : SKChainKey × GState, Res.ok r = (Res.ok ((ck.seen h).messageKey C) >>= fun _ => Res.ok ((ck.seen h).next C) >>= fun _ => Res.ok r) :=
        fun _ => rfl
      rw [e]
      have dk : Does h (ck.messageKey C) (.ok ((ck.seen h).messageKey C)) fun h' k v => SameKey h.length h' k v ∧ v = (ck.seen h).messageKey C :=
        ⟨(does_messageKey C h ck).1, (does_messageKey C h ck).2, rfl⟩
      refine dk.bind fun h1 k v g ⟨hk, hv⟩ => ?_
      subst hv
      have hck1 := hck.growsOn (P := fun _ => True) (fun _ _ => trivial) (g.on _)
      have es : ck.seen h1 = ck.seen h := by simp only [ChainRef.seen, hck1.2]
      have dn := does_next C h1 ck
      rw [es] at dn
      have dn' : Does h1 (ck.next C) (.ok ((ck.seen h).next C)) fun h' c' v => (c'.iteration = v.iteration ∧ New h1.length h' c'.seed v.seed) ∧
        v = (ck.seen h).next C := ⟨dn.1, dn.2, rfl⟩
      refine dn'.bind fun h2 c' v g2 ⟨⟨hc1, hc2⟩, hv⟩ => ?_
      subst hv
      have g02 := g.trans g2
      have hs2 := hs.growsOn (P := fun _ => True) (fun _ _ => trivial) (g02.on _)
      have hk2 : New h.length h2 k.seed _ := hk.2.2.2.mono (Nat.le_refl _) g2
      have ha := addMessageKey_seen hs2.1 (hk2.held f) hk2.2.2 hk.2.2.1
      rw [hs2.2] at ha
      have ec : c'.seen h2 = (ck.seen h).next C := by
        have : c'.seen h2 = ⟨h2.read c'.seed, c'.iteration⟩ := rfl
        rw [this, hc1, hc2.2.2]
      have := ih h2 (fun i hi => f i (Nat.le_trans g02.1 hi)) c' (s.addMessageKey k)
        (hc2.held fun i hi => f i (Nat.le_trans g.1 hi)) ha.1
      rw [ha.2, ec] at this
      exact this
    · exact Does.pure ⟨rfl, rfl, hck, hs⟩

theorem find_seen (h : Heap) (l : List ChainRef) (it : UInt32) :
    (l.map (ChainRef.seen h)).find? (fun k => k.iteration = it) = (l.find? fun k => k.iteration = it).map (ChainRef.seen h) := by
  rw [List.find?_map]; rfl

theorem erase_seen (h : Heap) (l : List ChainRef) (it : UInt32) :
    (l.map (ChainRef.seen h)).eraseP (fun k => k.iteration = it) = (l.eraseP fun k => k.iteration = it).map (ChainRef.seen h) := by
  rw [List.eraseP_map]; rfl

/-- As `SameKey`, without the seed. -/
def SameKeys (k : MessageKeyRef) (v : SKMessageKey) : Prop := k.cipherKey = v.cipherKey ∧ k.iv = v.iv

theorem does_groupMessageKey (C : Crypto) (S : Nat → Prop) (iteration : UInt32) (h : Heap) (f : ∀ i, h.length ≤ i → S i)
    (s : GStateRef) (hs : s.Ok S h) :
    Does h (groupMessageKeyRef C s iteration) (groupMessageKey C (s.seen h) iteration) fun h' o v =>
      SameKeys o.1 v.1 ∧ o.2.seen h' = v.2 ∧ o.2.Ok S h' := by
  unfold groupMessageKeyRef groupMessageKey
  have hi : (s.seen h).chainKey.iteration = s.chainKey.iteration := rfl
  simp only [hi]
  split
  · unfold GStateRef.removeMessageKeys GState.removeMessageKeys
    have : (s.seen h).messageKeys = s.messageKeys.map (ChainRef.seen h) := rfl
    rw [this, find_seen, erase_seen]
    cases hf : s.messageKeys.find? fun k => k.iteration = iteration with
    | none => exact Does.throw
    | some k =>
      have hk : k ∈ s.messageKeys := List.mem_of_find?_eq_some hf
      simp only [Option.map_some]
      refine ⟨.refl _, ⟨rfl, rfl⟩, rfl, ⟨hs.1, fun c hc => hs.2 c (List.mem_of_mem_eraseP hc)⟩⟩
  · split
    · exact Does.throw
    · have e : ∀ (a : SKChainKey × GState) , Res.ok ((a.1.messageKey C), a.2.setSenderChainKey (a.1.next C)) =
          (Res.ok a >>= fun a => Res.ok (a.1.next C) >>= fun n => Res.ok (a.1.messageKey C) >>= fun k => Res.ok (k, a.2.setSenderChainKey n)) :=
        fun _ => rfl
      rw [e]
      refine (does_skip C S iteration _ h f s.chainKey s hs.1 hs).bind fun h1 o v g ⟨e1, e2, hck, ho⟩ => ?_
      rw [← e1]
      refine (does_next C h1 o.1).bind fun h2 n w g2 ⟨n1, n2⟩ => ?_
      have hck2 := hck.growsOn (P := fun _ => True) (fun _ _ => trivial) (g2.on _)
      have es : o.1.seen h2 = o.1.seen h1 := by simp only [ChainRef.seen, hck2.2]
      rw [← es]
      refine (does_messageKey C h2 o.1).bind fun h3 k u g3 hk => ?_
      have ho3 := ho.growsOn (P := fun _ => True) (fun _ _ => trivial) ((g2.trans g3).on _)
      have hn3 := n2.mono (Nat.le_refl _) g3
      refine Does.pure ⟨⟨hk.1, hk.2.1⟩, ?_, ⟨hn3.held fun i hi => f i (Nat.le_trans g.1 hi), ho3.1.2⟩⟩
      have := ho3.2.trans e2
      rw [← this]
      simp only [GStateRef.seen, GState.setSenderChainKey, ChainRef.seen, hn3.2.2, n1]

/-! ## Encryption and decryption of bytes -/

theorem overwrite_after (a : Bytes) (off len : Nat) (bs : Bytes) (h : off + len + bs.length ≤ a.length) :
    ((overwrite a (off + len) bs).drop off).take len = (a.drop off).take len := by
  apply List.ext_getElem?
  intro j
  simp only [List.getElem?_take, List.getElem?_drop]
  split
  · exact overwrite_getElem? a (off + len) bs (by omega) (off + j) (.inl (by omega))
  · rfl

theorem At.append {h : Heap} {s : Slice} {b : Bytes} (hs : At h s b) (bs : Bytes) : At (goAppend h s bs).2 s b := by
  obtain ⟨⟨h1, h2, h3⟩, h4⟩ := hs
  have hl := goAppend_heap_length h s bs
  have ha := goAppend_array h s bs s.arr h1
  by_cases hc : s.len + bs.length ≤ s.cap
  · rw [if_pos ⟨rfl, hc⟩] at ha
    refine ⟨⟨Nat.lt_of_lt_of_le h1 hl, h2, ?_⟩, ?_⟩
    · rw [ha, overwrite_length _ _ _ (by omega)]; exact h3
    · rw [← h4]
      simp only [Heap.read, ha]
      exact overwrite_after _ _ _ _ (by omega)
  · rw [if_neg fun h => hc h.2] at ha
    exact ⟨⟨Nat.lt_of_lt_of_le h1 hl, h2, by rw [ha]; exact h3⟩, by rw [← h4]; simp only [Heap.read, ha]⟩

theorem does_encrypt (C : Crypto) (key iv : Bytes) {h : Heap} {s : Slice} {b : Bytes} (hs : At h s b) :
    DoesOn (fun t => t.arr ≠ s.arr ∨ t = s) h (cbcEncryptSlice C key iv s) (cbcEncrypt C key iv b) fun h' x c => New h.length h' x c ∧ At h' s b := by
  by_cases h1 : aesKeyOk key = false
  · have e : cbcEncryptSlice C key iv s h = (.err .badAESKey, h) := by unfold cbcEncryptSlice; rw [if_pos h1]
    unfold DoesOn cbcEncrypt
    rw [e, if_pos h1]
    exact ⟨.refl _ _, rfl⟩
  · by_cases h2 : iv.length ≠ 16
    · have e : cbcEncryptSlice C key iv s h = (.err .badIV, h) := by unfold cbcEncryptSlice; rw [if_neg h1, if_pos h2]
      unfold DoesOn cbcEncrypt
      rw [e, if_neg h1, if_pos h2]
      exact ⟨.refl _ _, rfl⟩
    · have hl := hs.len
      obtain ⟨n, hn⟩ : ∃ n, n = 16 - s.len % 16 := ⟨_, rfl⟩
      obtain ⟨bs, hbs⟩ : ∃ bs, bs = List.replicate n (UInt8.ofNat n) := ⟨_, rfl⟩
      have hp : pkcs7padSlice h s = goAppend h s bs := by simp only [pkcs7padSlice, hbs, hn]
      have hv : pkcs7pad b = b ++ bs := by simp only [pkcs7pad, hbs, hn, hl]
      have hr := goAppend_read h s bs hs.1
      have hlen := goAppend_len h s bs
      have hhl := goAppend_heap_length h s bs
      have ha := hs.append bs
      have hg : GrowsOn (fun t => t.arr ≠ s.arr ∨ t = s) h (goAppend h s bs).2 :=
        ⟨hhl, fun t d hp ht => by
          rcases hp with hne | rfl
          · have := goAppend_array h s bs t.arr ht.1.1
            rw [if_neg fun h => hne h.1] at this
            exact ⟨⟨Nat.lt_of_lt_of_le ht.1.1 hhl, ht.1.2.1, by rw [this]; exact ht.1.2.2⟩, by rw [← ht.2]; simp only [Heap.read, this]⟩
          · exact ht.append bs⟩
      rw [hs.2, ← hv] at hr
      have hlen' : (goAppend h s bs).1.len = (pkcs7pad b).length := by rw [hlen, hv, hl]; simp
      have e : cbcEncryptSlice C key iv s h = (.ok ⟨(goAppend h s bs).2.length, 0, (cbcEncBlocks C key ((pkcs7pad b).length / 16) iv (pkcs7pad b)).length,
          (cbcEncBlocks C key ((pkcs7pad b).length / 16) iv (pkcs7pad b)).length⟩,
          (goAppend h s bs).2 ++ [cbcEncBlocks C key ((pkcs7pad b).length / 16) iv (pkcs7pad b)]) := by
        unfold cbcEncryptSlice
        rw [if_neg h1, if_neg h2, hp]
        simp only [hr, hlen']
      unfold DoesOn cbcEncrypt
      rw [e, if_neg h1, if_neg h2]
      have ha2 := Grows.append (goAppend h s bs).2 [cbcEncBlocks C key ((pkcs7pad b).length / 16) iv (pkcs7pad b)]
      refine ⟨hg.trans (ha2.on _), ⟨hhl, .last _ _⟩, ha.grows ha2⟩

theorem pkcs7unpad_prefix {b p : Bytes} (h : pkcs7unpad b = .ok p) : p = b.take p.length ∧ p.length ≤ b.length := by
  unfold pkcs7unpad at h
  split at h
  · simp at h
  · dsimp only at h
    split at h
    · simp at h
    · split at h
      · simp at h
      · simp only [Res.ok.injEq] at h
        subst h
        simp

theorem does_decrypt (C : Crypto) (key iv : Bytes) {h : Heap} {s : Slice} {b : Bytes} (hs : At h s b) :
    Does h (cbcDecryptSlice C key iv s) (cbcDecrypt C key iv b) (New h.length) := by
  unfold Does cbcDecryptSlice cbcDecrypt
  rw [← hs.len, hs.2]
  by_cases h1 : aesKeyOk key = false
  · rw [if_pos h1, if_pos h1]
    exact ⟨.refl _, rfl⟩
  · rw [if_neg h1, if_neg h1]
    by_cases h2 : s.len = 0 ∨ s.len % 16 ≠ 0
    · rw [if_pos h2, if_pos h2]
      exact ⟨.refl _, rfl⟩
    · rw [if_neg h2, if_neg h2]
      by_cases h3 : iv.length ≠ 16
      · rw [if_pos h3, if_pos h3]
        exact ⟨.refl _, rfl⟩
      · rw [if_neg h3, if_neg h3]
        dsimp only
        cases hp : pkcs7unpad (cbcDecBlocks C key (s.len / 16) iv b) with
        | ok p =>
          obtain ⟨e1, e2⟩ := pkcs7unpad_prefix hp
          refine ⟨.append _ _, Nat.le_refl _, ⟨by simp, e2, by simp [Heap.array]⟩, ?_⟩
          simp only [Heap.read, Heap.array]
          simp
          exact e1.symm
        | err e => exact ⟨.append _ _, rfl⟩
        | panic => exact ⟨.append _ _, trivial⟩

/-! ## Records -/

section
variable (h : Heap)

theorem state_seen (r : List GStateRef) : GRecord.state (r.map (GStateRef.seen h)) = GStateRef.seen h <$> stateRef r := by
  cases r <;> rfl

theorem find_state_seen (r : List GStateRef) (id : UInt32) :
    GRecord.stateForChainID (r.map (GStateRef.seen h)) id = (r.find? fun s => id = s.chainId).map (GStateRef.seen h) := by
  unfold GRecord.stateForChainID
  rw [List.find?_map]; rfl

theorem set_state_seen (r : List GStateRef) (id : UInt32) (s : GStateRef) :
    GRecord.setStateForChainID (r.map (GStateRef.seen h)) id (s.seen h) = (setStateRef r id s).map (GStateRef.seen h) := by
  induction r with
  | nil => rfl
  | cons t r ih =>
    simp only [List.map_cons, GRecord.setStateForChainID, setStateRef]
    have : (t.seen h).chainId = t.chainId := rfl
    rw [this]
    split
    · rfl
    · rw [ih, List.map_cons]

theorem mem_set_state {r : List GStateRef} {id : UInt32} {s t : GStateRef} (ht : t ∈ setStateRef r id s) : t ∈ r ∨ t = s := by
  induction r with
  | nil => simp [setStateRef] at ht
  | cons u r ih =>
    simp only [setStateRef] at ht
    split at ht
    · rcases List.mem_cons.1 ht with h' | h'
      · exact .inr h'
      · exact .inl (List.mem_cons_of_mem _ h')
    · rcases List.mem_cons.1 ht with h' | h'
      · exact .inl (h' ▸ List.mem_cons_self ..)
      · rcases ih h' with h' | h'
        · exact .inl (List.mem_cons_of_mem _ h')
        · exact .inr h'

theorem add_state_seen (g : List GStateRef) (s : GStateRef) :
    GRecord.addState (g.map (GStateRef.seen h)) (s.seen h) = List.map (GStateRef.seen h) <$> addStateRef g s := by
  unfold GRecord.addState addStateRef GState.publicSigningKey
  have e1 : (s.seen h).signingPublic = s.signingPublic := rfl
  have e2 : (s.seen h).chainId = s.chainId := rfl
  rw [e1, e2]
  cases newPublicKey s.signingPublic with
  | err e => rfl
  | panic => rfl
  | ok k =>
    have hp : GRecord.isState s.chainId k ∘ GStateRef.seen h = isStateRef s.chainId k := rfl
    have hf : (fun t : GState => decide (t.chainId ≠ s.chainId)) ∘ GStateRef.seen h = fun t => decide (t.chainId ≠ s.chainId) := rfl
    show Res.ok _ = Res.ok _
    simp only [GRecord.removeState, GRecord.removeStates, List.find?_map, List.eraseP_map, hp, List.filter_map, hf, List.length_map]
    congr 1
    split
    · rw [List.map_append, List.map_drop]
      congr 1
      cases g.find? (isStateRef s.chainId k) <;> rfl
    · rw [List.map_append]
      congr 1
      cases g.find? (isStateRef s.chainId k) <;> rfl

theorem mem_add_state {g r : List GStateRef} {s t : GStateRef} (hr : addStateRef g s = .ok r) (ht : t ∈ r) : t ∈ g ∨ t = s := by
  unfold addStateRef at hr
  cases hk : newPublicKey s.signingPublic with
  | err e => simp [hk] at hr
  | panic => simp [hk] at hr
  | ok k =>
    simp only [hk, Res.ok.injEq] at hr
    subst hr
    rcases List.mem_append.1 ht with h' | h'
    · have : t ∈ (g.eraseP (isStateRef s.chainId k)).filter fun t => decide (t.chainId ≠ s.chainId) := by
        split at h'
        · exact List.mem_of_mem_drop h'
        · exact h'
      exact .inl (List.mem_of_mem_eraseP (List.mem_filter.1 this).1)
    · rw [List.mem_singleton] at h'
      cases hf : g.find? (isStateRef s.chainId k) with
      | none => simp [hf] at h'; exact .inr h'
      | some u => simp [hf] at h'; exact .inl (h' ▸ List.mem_of_find?_eq_some hf)

end

/-! ## Calls -/

theorem Held.imp {S S' : Nat → Prop} {h : Heap} {s : Slice} (hs : Held S h s) (hi : S s.arr → S' s.arr) : Held S' h s := ⟨hs.1, hi hs.2⟩

/-- A new slice that is not given to the store: the store stays away from its array. -/
theorem GMem.Ok.apart {P : Slice → Prop} {S : Nat → Prop} {m : GMem} (c : Ctx P S m.heap.length) (ok : m.Ok S) {h' : Heap} (g : GrowsOn P m.heap h') {x : Slice}
    {b : Bytes} (hx : New m.heap.length h' x b) :
    GMem.Ok (fun i => S i ∧ i ≠ x.arr) { m with heap := h' } ∧ Ctx P (fun i => S i ∧ i ≠ x.arr) h'.length := by
  have hlt : ∀ {s : Slice}, Held S m.heap s → Held (fun i => S i ∧ i ≠ x.arr) h' s := fun {s} hs => by
    have h1 := hs.1.1
    have h2 := hx.1
    exact (hs.growsOn c.ps g).1.imp fun h => ⟨h, by omega⟩
  refine ⟨fun k r hr s hs => ⟨hlt (ok k r hr s hs).1, fun c hc => hlt ((ok k r hr s hs).2 c hc)⟩, fun i hi => c.ps i hi.1, fun i hi => ⟨?_, ?_⟩⟩
  · exact c.fresh i (Nat.le_trans g.1 hi)
  · have := hx.2.1.1
    omega

theorem GMem.Ok.weaken {S S' : Nat → Prop} {m : GMem} (ok : m.Ok S) (h : ∀ i, S i → S' i) : m.Ok S' := fun k r hr s hs =>
  ⟨(ok k r hr s hs).1.imp (h _), fun c hc => ((ok k r hr s hs).2 c hc).imp (h _)⟩

theorem chain_seen {S : Nat → Prop} {h : Heap} {s : GStateRef} (_ : s.Ok S h) : (s.seen h).chainKey = s.chainKey.seen h := rfl

theorem newSenderKey_ciphertext {C : Crypto} {version : UInt8} {dist : DistId} {id it : UInt32} {ct : Bytes} {key : PrivKey} {r : Bytes}
    {m : SenderKeyMsg} (h : (newSenderKey C version dist id it ct key r).1 = .ok m) : m.ciphertext = ct := by
  unfold newSenderKey at h
  rw [M.bind_run] at h
  split at h
  · simp only [M.pure_run, Res.ok.injEq] at h
    rw [← h]
  · simp at h
  · simp at h

theorem sim_newSenderKey (C : Crypto) {P : Slice → Prop} {S : Nat → Prop} {m : GMem} (version : UInt8) (dist : DistId) (id it : UInt32) {ct : Slice} {cb : Bytes}
    (hct : At m.heap ct cb) (key : PrivKey) (c : Ctx P S m.heap.length) (ok : m.Ok S) :
    Sim P S m (newSenderKeyRef C version dist id it ct key) (gWithRand (newSenderKey C version dist id it cb key)) fun m' o w =>
      New m.heap.length m'.heap o.serialized w.serialized ∧ o.ciphertext = ct ∧ w.ciphertext = cb ∧
        m'.records = m.records ∧ Grows m.heap m'.heap ∧ m'.Ok fun i => S i ∧ i ≠ o.serialized.arr := by
  have e : gWithRand (newSenderKey C version dist id it cb key) = (gWithRand (newSenderKey C version dist id it cb key) >>= pure) := by
    funext w
    rw [M.bind_run]
    split <;> simp_all [M.pure_run]
  rw [e]
  have : newSenderKeyRef C version dist id it ct key m = (do
      let msg ← memRand (newSenderKey C version dist id it (m.heap.read ct) key)
      let serialized ← onHeap (allocBytes msg.serialized)
      return { version := msg.version, distID := msg.distID, chainID := msg.chainID, iteration := msg.iteration,
               ciphertext := ct, serialized := serialized : SenderKeyRef } : M GMem SenderKeyRef) m := rfl
  refine Sim.congr this ?_
  rw [hct.2]
  refine (Sim.rand ok _).bind fun m1 a b g o ⟨hab, hm, hr⟩ => ?_
  subst hab
  have hh : m1.heap = m.heap := by rw [hm]
  have hrec : m1.records = m.records := by rw [hm]
  have c1 : Ctx P S m1.heap.length := by rw [hh]; exact c
  have da := (does_alloc m1.heap a.serialized).mono (R' := fun h' s b => New m1.heap.length h' s b ∧ Grows m1.heap h') fun h' _ _ g hk => ⟨hk, g⟩
  refine Sim.alloc c1 o (da.on _) fun h' x g1 o1 ⟨hx, gx⟩ => ?_
  refine Sim.pure o1 ⟨by rw [← hh]; exact hx, rfl, newSenderKey_ciphertext hr, hrec, by rw [← hh]; exact gx, (o.apart c1 g1 hx).1⟩

/-- EncryptMessage: the two slices of the message are new, apart from each other and from the store. -/
theorem sim_encrypt (C : Crypto) {S : Nat → Prop} {m : GMem} (sender : Address) (dist : DistId) {x : Slice} {b : Bytes} (hx : At m.heap x b)
    (c : Ctx (fun t => t.arr ≠ x.arr ∨ t = x) S m.heap.length) (ok : m.Ok S) :
    Sim (fun t => t.arr ≠ x.arr ∨ t = x) S m (encryptBytes C sender dist x) (groupEncrypt C true sender dist b) fun m' o v =>
      New m.heap.length m'.heap o.serialized v.serialized ∧ New m.heap.length m'.heap o.ciphertext v.ciphertext ∧
        o.serialized.arr ≠ o.ciphertext.arr ∧ At m'.heap x b ∧
      m'.Ok fun i => (S i ∧ i ≠ o.ciphertext.arr) ∧ i ≠ o.serialized.arr := by
  unfold encryptBytes groupEncrypt
  refine (Sim.load ok _).bind fun m1 a v g0 o1 ⟨ha, hv, hm⟩ => ?_
  subst hm hv
  cases hr : a with
  | none => exact Sim.throw ok
  | some record =>
    rw [hr] at ha
    simp only [Option.map_some]
    refine (Sim.lift ok (state_seen m1.heap record)).bind fun m2 st v g1 o2 ⟨hv, hst, hm⟩ => ?_
    subst hm hv
    have hmem : st ∈ record := by
      cases record with
      | nil => simp [stateRef] at hst
      | cons s r => simp [stateRef] at hst; simp [hst]
    have hst1 : st.Ok S m2.heap := ok _ _ ha.symm st hmem
    have dk := (does_messageKey C m2.heap st.chainKey).mono (R' := fun h' k v => SameKey m2.heap.length h' k v ∧ Grows m2.heap h')
      fun h' _ _ g hk => ⟨hk, g⟩
    refine Sim.alloc c ok (dk.on _) fun h3 k g3 o3 ⟨hk, gk⟩ => ?_
    have hx3 : At h3 x b := hx.grows gk
    have c3 : Ctx (fun t => t.arr ≠ x.arr ∨ t = x) S h3.length := c.mono gk.1
    have es : (st.seen m2.heap).chainKey = st.chainKey.seen m2.heap := rfl
    simp only [es, ← hk.1, ← hk.2.1, ← hk.2.2.1]
    refine (Sim.heap c3 o3 (does_encrypt C k.cipherKey k.iv hx3)).bind fun m4 ct cb g4 o4 ⟨⟨hct, hx4⟩, hm4⟩ => ?_
    have ap := o3.apart c3 g4 hct
    have hm4r : m4.records = m2.records := by rw [hm4]
    have ok4 : m4.Ok fun i => S i ∧ i ≠ ct.arr := by rw [hm4]; exact ap.1
    have g24 : GrowsOn (fun t => t.arr ≠ x.arr ∨ t = x) m2.heap m4.heap := g3.trans g4
    have fin := Sim.shrink (P := fun t => t.arr ≠ x.arr ∨ t = x) (m := m4) (S := S) (S' := fun i => S i ∧ i ≠ ct.arr) (fun i h => h.1)
      (x := do
        let signingKey ← M.lift (newPrivateKey st.signingPrivate)
        let msg ← newSenderKeyRef C st.version.toUInt8 dist st.chainId k.iteration ct signingKey
        let next ← onHeap (st.chainKey.next C)
        memStore (sender, dist) ({ st with chainKey := next } :: record.drop 1)
        memStore (sender, dist) ({ st with chainKey := next } :: record.drop 1)
        return msg)
      (y := do
        let signingKey ← M.lift (st.seen m2.heap).privateSigningKey
        let msg ← gWithRand (newSenderKey C (st.seen m2.heap).version.toUInt8 dist (st.seen m2.heap).chainId k.iteration cb signingKey)
        gTouch true (sender, dist) true
          ((st.seen m2.heap).setSenderChainKey ((st.chainKey.seen m2.heap).next C) :: List.drop 1 (List.map (GStateRef.seen m2.heap) record))
        gStore (sender, dist)
          ((st.seen m2.heap).setSenderChainKey ((st.chainKey.seen m2.heap).next C) :: List.drop 1 (List.map (GStateRef.seen m2.heap) record))
        return msg)
      (R := fun m' o v => New m2.heap.length m'.heap o.serialized v.serialized ∧ New m2.heap.length m'.heap o.ciphertext v.ciphertext ∧
        o.serialized.arr ≠ o.ciphertext.arr ∧ At m'.heap x b ∧
        m'.Ok fun i => (S i ∧ i ≠ o.ciphertext.arr) ∧ i ≠ o.serialized.arr) ?_
    · exact fin.mono fun _ _ _ _ _ h => h.1
    have c4 : Ctx (fun t => t.arr ≠ x.arr ∨ t = x) (fun i => S i ∧ i ≠ ct.arr) m4.heap.length := ap.2
    refine (Sim.same ok4 (newPrivateKey st.signingPrivate)).bind fun m5 key key' g5 o5 ⟨hkey, _, hm5⟩ => ?_
    subst hm5 hkey
    refine (sim_newSenderKey C _ dist _ _ hct.2 key c4 ok4).bind fun m6 o w g6 o6 ⟨hser, hoc, hwc, hrec, gs, ok6⟩ => ?_
    have g26 : GrowsOn (fun t => t.arr ≠ x.arr ∨ t = x) m2.heap m6.heap := g24.trans g6
    have hne : ct.arr ≠ x.arr := by
      have h1 : h3.length ≤ ct.arr := hct.1
      have h2 := hx3.1.1
      omega
    have fin2 := Sim.shrink (P := fun t => t.arr ≠ x.arr ∨ t = x) (m := m6) (S := fun i => S i ∧ i ≠ ct.arr)
      (S' := fun i => (S i ∧ i ≠ ct.arr) ∧ i ≠ o.serialized.arr) (fun i h => h.1)
      (x := do
        let next ← onHeap (st.chainKey.next C)
        memStore (sender, dist) ({ st with chainKey := next } :: record.drop 1)
        memStore (sender, dist) ({ st with chainKey := next } :: record.drop 1)
        return o)
      (y := do
        gTouch true (sender, dist) true
          ((st.seen m2.heap).setSenderChainKey ((st.chainKey.seen m2.heap).next C) :: List.drop 1 (List.map (GStateRef.seen m2.heap) record))
        gStore (sender, dist)
          ((st.seen m2.heap).setSenderChainKey ((st.chainKey.seen m2.heap).next C) :: List.drop 1 (List.map (GStateRef.seen m2.heap) record))
        return w)
      (R := fun m' o v => New m2.heap.length m'.heap o.serialized v.serialized ∧ New m2.heap.length m'.heap o.ciphertext v.ciphertext ∧
        o.serialized.arr ≠ o.ciphertext.arr ∧ At m'.heap x b ∧
        m'.Ok fun i => (S i ∧ i ≠ o.ciphertext.arr) ∧ i ≠ o.serialized.arr) ?_
    · exact fin2.mono fun _ _ _ _ _ h => h.1
    have c6 : Ctx (fun t => t.arr ≠ x.arr ∨ t = x) (fun i => (S i ∧ i ≠ ct.arr) ∧ i ≠ o.serialized.arr) m6.heap.length :=
      ⟨fun i hi => c.ps i hi.1.1, fun i hi => by
        have h1 := hser.2.1.1
        have h2 := g6.1
        exact ⟨c4.fresh i (by omega), by omega⟩⟩
    have hrec6 : m6.records (sender, dist) = some record := by rw [hrec, hm4r, ← ha]
    have hall : ∀ s ∈ record, s.Ok (fun i => (S i ∧ i ≠ ct.arr) ∧ i ≠ o.serialized.arr) m6.heap := ok6 _ _ hrec6
    have hseen : ∀ s ∈ record, s.seen m6.heap = s.seen m2.heap := fun s hs => ((ok _ _ ha.symm s hs).growsOn c.ps g26).2
    have dn := (does_next C m6.heap st.chainKey).mono (R' := fun h' c' v => (c'.iteration = v.iteration ∧ New m6.heap.length h' c'.seed v.seed) ∧ Grows m6.heap h')
      fun h' _ _ g hk => ⟨hk, g⟩
    have ech : st.chainKey.seen m6.heap = st.chainKey.seen m2.heap := congrArg GState.chainKey (hseen st hmem)
    rw [ech] at dn
    refine Sim.alloc c6 ok6 (dn.on _) fun h7 nx g7 o7 ⟨⟨n1, n2⟩, gn⟩ => ?_
    have hall7 : ∀ s ∈ ({ st with chainKey := nx } :: record.drop 1 : List GStateRef), s.Ok (fun i => (S i ∧ i ≠ ct.arr) ∧ i ≠ o.serialized.arr) h7 := by
      intro s hs
      rcases List.mem_cons.1 hs with rfl | hs
      · exact ⟨n2.held c6.fresh, (((hall st hmem).growsOn c6.ps g7).1).2⟩
      · exact ((hall s (List.mem_of_mem_drop hs)).growsOn c6.ps g7).1
    have hv7 : ((st.seen m2.heap).setSenderChainKey ((st.chainKey.seen m2.heap).next C) :: List.drop 1 (List.map (GStateRef.seen m2.heap) record)) =
        ({ st with chainKey := nx } :: record.drop 1 : List GStateRef).map (GStateRef.seen h7) := by
      rw [List.map_cons, List.map_drop]
      have hs7 : ∀ s ∈ record, s.seen h7 = s.seen m2.heap := fun s hs => (((hall s hs).growsOn c6.ps g7).2).trans (hseen s hs)
      congr 1
      · have := hs7 st hmem
        rw [← this]
        simp only [GStateRef.seen, GState.setSenderChainKey, ChainRef.seen, n2.2.2, n1]
      · congr 1
        exact List.map_congr_left fun s hs => (hs7 s hs).symm
    refine (Sim.touch o7 (sender, dist) hall7 hv7).bind fun m8 _ _ g8 o8 hm8 => ?_
    subst hm8
    refine (Sim.store o8 (sender, dist) hall7 hv7).bind fun m9 _ _ g9 o9 hm9 => ?_
    subst hm9
    refine Sim.pure o9 ⟨?_, ?_, ?_, ?_, ?_⟩
    · exact (hser.mono g24.1 (.refl _)).mono (Nat.le_refl _) gn
    · rw [hoc, hwc]
      refine ⟨Nat.le_trans gk.1 hct.1, ?_⟩
      exact (hct.2.growsOn g6 (.inl hne)).grows gn
    · have := hser.1
      have := hct.2.1.1
      rw [hoc]
      omega
    · exact (hx4.grows gs).grows gn
    · rw [hoc]
      exact o9

theorem Sim.touchStore {P : Slice → Prop} {S : Nat → Prop} {m : GMem} (ok : m.Ok S) (k : Address × DistId) (l : Bool) {r : List GStateRef} (hr : ∀ s ∈ r, s.Ok S m.heap)
    {v : GRecord} (hv : v = r.map (GStateRef.seen m.heap)) :
    Sim P S m (memStore k r) (do gTouch true k l v; gStore k v) fun m' _ _ => m' = { m with records := upd m.records k (some r) } := by
  subst hv
  have e : ∀ w : GWorld, w.faults = [] → (do gTouch true k l (r.map (GStateRef.seen m.heap)); gStore k (r.map (GStateRef.seen m.heap)) : M GWorld Unit) w =
      (.ok (), { w with records := upd w.records k (some (r.map (GStateRef.seen m.heap))) }) := by
    intro w hw
    cases l
    · rw [M.bind_ok_run (a := ()) (s' := w) (by simp [gTouch])]
      simp [gStore, gStoreCall, hw]
    · rw [M.bind_ok_run (a := ()) (s' := { w with records := upd w.records k (some (r.map (GStateRef.seen m.heap))) }) (by simp [gTouch])]
      simp [gStore, gStoreCall, hw]
      funext k'
      unfold upd
      split <;> rfl
  have h1 := e m.seen rfl
  refine ⟨.refl _ _, ok.store k hr, ?_, ?_⟩
  · rw [h1]; exact (GMem.seen_store k r).symm
  · rw [h1]; rfl

theorem does_newState {h : Heap} (S : Nat → Prop) (f : ∀ i, h.length ≤ i → S i) (version : UInt8) (id it : UInt32) {x : Slice} {b : Bytes}
    (hx : At h x b) (pub : PubKey) (priv : Option PrivKey) :
    Does h (newGroupStateRef version id it x pub priv) (.ok (newGroupState version id it b pub priv)) fun h' s v =>
      s.Ok S h' ∧ s.seen h' = v := by
  unfold newGroupStateRef
  have hc := does_makeCopy (n := x.len) hx (Nat.le_of_eq hx.len)
  rw [List.take_of_length_le (Nat.le_of_eq hx.len.symm)] at hc
  have e : Res.ok (newGroupState version id it b pub priv) = (Res.ok b >>= fun b => Res.ok (newGroupState version id it b pub priv)) := rfl
  rw [e]
  refine hc.bind fun h' s v g hs => Does.pure ⟨⟨hs.held f, by simp⟩, ?_⟩
  simp only [GStateRef.seen, newGroupState, ChainRef.seen, hs.2.2, List.map_nil]
  cases priv <;> rfl

/-- ProcessSenderKeyDistribution. -/
theorem sim_process {P : Slice → Prop} {S : Nat → Prop} {m : GMem} (sender : Address) {d : DistributionRef} {v : DistributionMsg} (hd : At m.heap d.chainKey v.chainKey)
    (h1 : d.version = v.version) (h2 : d.distID = v.distID) (h3 : d.chainID = v.chainID) (h4 : d.iteration = v.iteration)
    (h5 : d.signingKey = v.signingKey) (c : Ctx P S m.heap.length) (ok : m.Ok S) :
    Sim P S m (processBytes sender d) (processDistribution true sender v) fun m' _ _ => Grows m.heap m'.heap := by
  unfold processBytes processDistribution
  rw [h1, h2, h3, h4, h5]
  refine (Sim.load ok _).bind fun m1 a w g0 o1 ⟨ha, hw, hm⟩ => ?_
  subst hm hw
  have ds := (does_newState S c.fresh v.version v.chainID v.iteration hd v.signingKey none).mono
    (R' := fun h' s w => (s.Ok S h' ∧ s.seen h' = w) ∧ Grows m1.heap h') fun h' _ _ g hk => ⟨hk, g⟩
  refine Sim.alloc c ok (ds.on _) fun h' s g1 o1 ⟨⟨hs, he⟩, gs⟩ => ?_
  have hall : ∀ t ∈ a.getD [], t.Ok S m1.heap := by
    cases hr : a with
    | none => simp
    | some r => exact ok (sender, v.distID) r (by rw [← ha, hr])
  have hall' : ∀ t ∈ a.getD [], t.Ok S h' := fun t ht => ((hall t ht).growsOn c.ps g1).1
  have em : (Option.map (List.map (GStateRef.seen m1.heap)) a).getD [] = (a.getD []).map (GStateRef.seen h') := by
    rw [map_seen_growsOn c.ps g1 hall]
    cases a <;> rfl
  rw [em, ← he]
  refine (Sim.lift o1 (add_state_seen h' (a.getD []) s)).bind fun m2 r w g2 o2 ⟨hw, hr, hm⟩ => ?_
  subst hm hw
  have hall2 : ∀ t ∈ r, t.Ok S h' := fun t ht => by
    rcases mem_add_state hr ht with h | h
    · exact hall' t h
    · rw [h]; exact hs
  exact (Sim.touchStore o1 _ _ hall2 rfl).mono fun m' _ _ _ _ hm' => by rw [hm']; exact gs

/-- DecryptMessage: the plaintext is new and apart from the store. -/
theorem sim_decrypt (C : Crypto) {S : Nat → Prop} {m : GMem} (sender : Address) {d : SenderKeyRef} {v : SenderKeyMsg}
    (hd : d.seen m.heap = v) (hct : At m.heap d.ciphertext v.ciphertext) (c : Ctx (fun _ => True) S m.heap.length) (ok : m.Ok S) :
    Sim (fun _ => True) S m (decryptBytes C sender d) (groupDecrypt C true sender v) fun m' p b =>
      New m.heap.length m'.heap p b ∧ m'.Ok fun i => S i ∧ i ≠ p.arr := by
  unfold decryptBytes groupDecrypt
  have e1 : d.distID = v.distID := by rw [← hd]; rfl
  have e2 : d.chainID = v.chainID := by rw [← hd]; rfl
  have e3 : d.version = v.version := by rw [← hd]; rfl
  have e4 : d.iteration = v.iteration := by rw [← hd]; rfl
  simp only [e1, e2, e3, e4]
  refine (Sim.load ok _).bind fun m1 a w g0 o1 ⟨ha, hw, hm⟩ => ?_
  subst hm hw
  cases hr : a with
  | none => exact Sim.throw ok
  | some record =>
    rw [hr] at ha
    simp only [Option.map_some, find_state_seen]
    cases hf : record.find? fun s => v.chainID = s.chainId with
    | none => exact Sim.throw ok
    | some st =>
      have hmem : st ∈ record := List.mem_of_find?_eq_some hf
      have hst : st.Ok S m1.heap := ok _ _ ha.symm st hmem
      have ev : (st.seen m1.heap).version = st.version := rfl
      simp only [Option.map_some, ev]
      by_cases hver : v.version.toUInt32 ≠ st.version
      · rw [if_pos hver, if_pos hver]; exact Sim.throw ok
      · rw [if_neg hver, if_neg hver]
        refine (Sim.same ok (newPublicKey st.signingPublic)).bind fun m2 k k' g2 o2 ⟨hk, _, hm2⟩ => ?_
        subst hm2 hk
        refine Sim.congr (M.bind_ok_run (M.get_run m2)) ?_
        rw [hd]
        refine (Sim.same ok (v.verifySignature C k)).bind fun m3 b b' g3 o3 ⟨hb, _, hm3⟩ => ?_
        subst hm3 hb
        cases b with
        | false => exact Sim.throw ok
        | true =>
          simp only [if_true]
          refine (Sim.heap c ok ((does_groupMessageKey C S v.iteration m3.heap c.fresh st hst).on _)).bind fun m4 o w g4 o4 ⟨⟨hkeys, hseen, hok⟩, hm4⟩ => ?_
          obtain ⟨w1, w2⟩ := w
          obtain ⟨k1, k2⟩ := hkeys
          simp only at k1 k2 hseen ⊢
          rw [← k1, ← k2, ← hseen]
          have hall : ∀ s ∈ setStateRef record v.chainID o.2, s.Ok S m4.heap := fun s hs => by
            rcases mem_set_state hs with h | h
            · exact ((ok _ _ ha.symm s h).growsOn c.ps g4).1
            · rw [h]; exact hok
          have hv : ∀ h', GrowsOn (fun _ => True) m4.heap h' →
              GRecord.setStateForChainID (record.map (GStateRef.seen m3.heap)) v.chainID (o.2.seen m4.heap) =
                (setStateRef record v.chainID o.2).map (GStateRef.seen h') := fun h' g => by
            rw [map_seen_growsOn (P := fun _ => True) (S := S) (fun _ _ => trivial) g hall, ← set_state_seen,
              map_seen_growsOn (P := fun _ => True) (S := S) (fun _ _ => trivial) g4 fun s hs => ok _ _ ha.symm s hs]
          refine (Sim.touch o4 _ hall (hv _ (.refl _ _))).bind fun m5 _ _ g5 o5 hm5 => ?_
          have hh5 : m5.heap = m4.heap := by rw [hm5]
          have c5 : Ctx (fun _ => True) S m5.heap.length := c.mono (by rw [hh5]; exact g4.1)
          have hct5 : At m5.heap d.ciphertext v.ciphertext := by rw [hh5]; exact hct.growsOn g4 trivial
          refine (Sim.heap c5 o5 ((does_decrypt C o.1.cipherKey o.1.iv hct5).on _)).bind fun m6 p b g6 o6 ⟨hp, hm6⟩ => ?_
          have ap := o5.apart c5 g6 hp
          have ok6 : m6.Ok fun i => S i ∧ i ≠ p.arr := by rw [hm6]; exact ap.1
          have hr6 : m6.records (sender, v.distID) = some (setStateRef record v.chainID o.2) := by
            rw [hm6, hm5]; simp [upd]
          have fin := Sim.shrink (P := fun _ => True) (m := m6) (S := S) (S' := fun i => S i ∧ i ≠ p.arr) (fun i h => h.1)
            (x := do
              memStore (sender, v.distID) (setStateRef record v.chainID o.2)
              return p)
            (y := do
              gStore (sender, v.distID) (GRecord.setStateForChainID (record.map (GStateRef.seen m3.heap)) v.chainID (o.2.seen m4.heap))
              return b)
            (R := fun m' p b => New m3.heap.length m'.heap p b ∧ m'.Ok fun i => S i ∧ i ≠ p.arr) ?_
          · exact fin.mono fun _ _ _ _ _ h => h.1
          refine (Sim.store ok6 _ (ok6 _ _ hr6) (hv _ (by rw [← hh5]; exact g6))).bind fun m7 _ _ g7 o7 hm7 => ?_
          subst hm7
          refine Sim.pure o7 ⟨⟨Nat.le_trans ?_ hp.1, hp.2⟩, o7⟩
          rw [hh5]; exact g4.1

/-- Creation of a sender key. -/
theorem sim_create (C : Crypto) {S : Nat → Prop} {m : GMem} (sender : Address) (dist : DistId) (c : Ctx (fun _ => True) S m.heap.length) (ok : m.Ok S) :
    Sim (fun _ => True) S m (createSenderKeyRef C sender dist) (createSenderKey C sender dist) fun m' r v =>
      v = r.map (GStateRef.seen m'.heap) ∧ (∀ s ∈ r, s.Ok S m'.heap) ∧ m'.records (sender, dist) = some r := by
  unfold createSenderKeyRef createSenderKey
  refine (Sim.sysRand ok _).bind fun m1 a b g1 o1 ⟨hab, hm1⟩ => ?_
  subst hab
  have h1 : m1.heap = m.heap := by rw [hm1]
  refine (Sim.rand o1 _).bind fun m2 key key' g2 o2 ⟨hab, hm2, _⟩ => ?_
  subst hab
  have h2 : m2.heap = m.heap := by rw [hm2, h1]
  have c2 : Ctx (fun _ => True) S m2.heap.length := by rw [h2]; exact c
  refine Sim.alloc c2 o2 ((does_alloc m2.heap key).on _) fun h3 x g3 o3 hx => ?_
  have c3 : Ctx (fun _ => True) S h3.length := c2.mono g3.1
  refine (Sim.rand o3 _).bind fun m4 pair pair' g4 o4 ⟨hab, hm4, _⟩ => ?_
  subst hab
  have h4 : m4.heap = h3 := by rw [hm4]
  have c4 : Ctx (fun _ => True) S m4.heap.length := by rw [h4]; exact c3
  have hx4 : At m4.heap x key := by rw [h4]; exact hx.2
  refine Sim.alloc c4 o4 ((does_newState S c4.fresh 3 (a >>> 1) 0 hx4 pair.pub (some pair.priv)).on _) fun h5 s g5 o5 ⟨hs, he⟩ => ?_
  rw [← he]
  refine (Sim.lift o5 (add_state_seen h5 [] s)).bind fun m6 r w g6 o6 ⟨hw, hr, hm⟩ => ?_
  subst hm hw
  have hall : ∀ t ∈ r, t.Ok S h5 := fun t ht => by
    rcases mem_add_state hr ht with h | h
    · simp at h
    · rw [h]; exact hs
  refine (Sim.store o5 _ hall rfl).bind fun m7 _ _ g7 o7 hm7 => ?_
  subst hm7
  exact Sim.pure o7 ⟨rfl, hall, by simp [upd]⟩

/-- NewSenderKeyDistribution: the serialisation is new and apart from the store; the chain key is a slice of the store. -/
theorem sim_newDistribution (C : Crypto) {S : Nat → Prop} {m : GMem} (sender : Address) (dist : DistId) (c : Ctx (fun _ => True) S m.heap.length)
    (ok : m.Ok S) :
    Sim (fun _ => True) S m (newDistributionBytes C sender dist) (newSenderKeyDistribution C sender dist) fun m' d v =>
      New m.heap.length m'.heap d.serialized v.serialized ∧ At m'.heap d.chainKey v.chainKey ∧ S d.chainKey.arr ∧
        d.chainKey.arr ≠ d.serialized.arr ∧ m'.Ok (fun i => S i ∧ i ≠ d.serialized.arr) ∧
        ∃ s r, m'.records (sender, dist) = some (s :: r) ∧ s.chainKey.seed = d.chainKey := by
  unfold newDistributionBytes newSenderKeyDistribution
  refine (Sim.load ok _).bind fun m1 a w g0 o1 ⟨ha, hw, hm⟩ => ?_
  subst hm hw
  have tail : ∀ (m2 : GMem) (r : List GStateRef) (w : GRecord), GrowsOn (fun _ => True) m1.heap m2.heap → m2.Ok S →
      (w = r.map (GStateRef.seen m2.heap) ∧ (∀ s ∈ r, s.Ok S m2.heap) ∧ m2.records (sender, dist) = some r) →
      Sim (fun _ => True) S m2 (do
          let state ← M.lift (stateRef r)
          let signingKey ← M.lift (newPublicKey state.signingPublic)
          onHeap (newDistributionRef state.version.toUInt8 dist state.chainId state.chainKey.iteration state.chainKey.seed signingKey))
        (do
          let state ← M.lift (GRecord.state w)
          let signingKey ← M.lift state.publicSigningKey
          return newDistribution state.version.toUInt8 dist state.chainId state.chainKey.iteration state.chainKey.seed signingKey)
        fun m' d v => New m1.heap.length m'.heap d.serialized v.serialized ∧ At m'.heap d.chainKey v.chainKey ∧ S d.chainKey.arr ∧
          d.chainKey.arr ≠ d.serialized.arr ∧ m'.Ok (fun i => S i ∧ i ≠ d.serialized.arr) ∧
          ∃ s r, m'.records (sender, dist) = some (s :: r) ∧ s.chainKey.seed = d.chainKey := by
    intro m2 r w g2 o2 ⟨hw, hall, hr⟩
    subst hw
    refine (Sim.lift o2 (state_seen m2.heap r)).bind fun m3 st w g3 o3 ⟨hw, hst, hm⟩ => ?_
    subst hm hw
    have hmem : st ∈ r ∧ ∃ t, r = st :: t := by
      cases r with
      | nil => simp [stateRef] at hst
      | cons s r => simp [stateRef] at hst; simp [hst]
    refine (Sim.same o2 (newPublicKey st.signingPublic)).bind fun m4 k k' g4 o4 ⟨hk, _, hm⟩ => ?_
    subst hm hk
    have c2 : Ctx (fun _ => True) S m4.heap.length := c.mono g2.1
    have hs := hall st hmem.1
    have e : ∀ d : DistributionMsg, (pure d : M GWorld DistributionMsg) = M.lift (.ok d) := fun _ => rfl
    rw [e]
    have dd : Does m4.heap (newDistributionRef st.version.toUInt8 dist st.chainId st.chainKey.iteration st.chainKey.seed k)
        (.ok (newDistribution (st.seen m4.heap).version.toUInt8 dist (st.seen m4.heap).chainId (st.seen m4.heap).chainKey.iteration (st.seen m4.heap).chainKey.seed k))
        fun h' d v => New m4.heap.length h' d.serialized v.serialized ∧ d.chainKey = st.chainKey.seed ∧ v.chainKey = m4.heap.read st.chainKey.seed := by
      refine ⟨.append _ _, ⟨Nat.le_refl _, .last _ _⟩, rfl, rfl⟩
    refine (Sim.heap c2 o2 (dd.on _)).mono fun m5 d v g5 o5 ⟨⟨h1, h2, h3⟩, hm5⟩ => ?_
    have ap := o2.apart c2 g5 h1
    refine ⟨⟨Nat.le_trans g2.1 h1.1, h1.2⟩, ?_, ?_, ?_, by rw [hm5]; exact ap.1, ?_⟩
    · rw [h2, h3]
      exact hs.1.at.growsOn g5 trivial
    · rw [h2]; exact hs.1.2
    · rw [h2]
      have := hs.1.1.1
      have := h1.1
      omega
    · obtain ⟨t, ht⟩ := hmem.2
      exact ⟨st, t, by rw [hm5, ← ht]; exact hr, h2.symm⟩
  cases hr : a with
  | none => exact (sim_create C sender dist c ok).bind tail
  | some r =>
    rw [hr] at ha
    exact tail m1 r _ g0 ok ⟨rfl, ok _ _ ha.symm, ha.symm⟩

end Verif
