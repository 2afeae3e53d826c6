import Mathlib.Data.List.Nodup
import Verif.Spec.KeyHeap
import Verif.Proofs.Slice

/-! Helper lemmas for C130: every key call works on new arrays only. -/

namespace Verif

/-- The slice is a window of the memory and shows these bytes. -/
def At (h : Heap) (s : Slice) (b : Bytes) : Prop := h.Valid s ∧ h.read s = b

/-- The old arrays are as they were. -/
def Grows (h h' : Heap) : Prop := h.length ≤ h'.length ∧ ∀ i, i < h.length → h'.array i = h.array i

theorem Grows.refl (h : Heap) : Grows h h := ⟨Nat.le_refl _, fun _ _ => rfl⟩

theorem Grows.trans {a b c : Heap} (h1 : Grows a b) (h2 : Grows b c) : Grows a c :=
  ⟨Nat.le_trans h1.1 h2.1, fun i hi => (h2.2 i (Nat.lt_of_lt_of_le hi h1.1)).trans (h1.2 i hi)⟩

theorem Grows.append (h l : Heap) : Grows h (h ++ l) := ⟨by simp, fun i hi => array_append h l i hi⟩

theorem At.len {h : Heap} {s : Slice} {b : Bytes} (ha : At h s b) : s.len = b.length := by
  obtain ⟨⟨h1, h2, h3⟩, rfl⟩ := ha
  simp [Heap.read]; omega

theorem At.grows {h h' : Heap} (g : Grows h h') {s : Slice} {b : Bytes} (ha : At h s b) : At h' s b := by
  obtain ⟨⟨h1, h2, h3⟩, e⟩ := ha
  have := g.2 s.arr h1
  exact ⟨⟨Nat.lt_of_lt_of_le h1 g.1, h2, by rw [this]; exact h3⟩, by rw [← e]; simp only [Heap.read, this]⟩

theorem At.last (h : Heap) (b : Bytes) : At (h ++ [b]) ⟨h.length, 0, b.length, b.length⟩ b := by
  refine ⟨⟨by simp, Nat.le_refl _, by simp [Heap.array]⟩, by simp [Heap.read, Heap.array]⟩

/-- A call over memory does what a function of values does: the old arrays stay, the errors are the same, the results are related. -/
def Does {α β} (h : Heap) (x : M Heap α) (r : Res β) (R : Heap → α → β → Prop) : Prop :=
  Grows h (x h).2 ∧ match (x h).1, r with
    | .ok a, .ok b => R (x h).2 a b
    | .err e, .err e' => e = e'
    | .panic, .panic => True
    | _, _ => False

theorem Does.pure {α β} {h : Heap} {a : α} {b : β} {R : Heap → α → β → Prop} (hr : R h a b) : Does h (pure a) (.ok b) R := ⟨.refl h, hr⟩

theorem Does.throw {α β} {h : Heap} {e : Err} {R : Heap → α → β → Prop} : Does h (M.throw e) (.err e) R := ⟨.refl h, rfl⟩

theorem Does.bind {α β γ δ} {h : Heap} {x : M Heap α} {r : Res β} {R : Heap → α → β → Prop} {f : α → M Heap γ} {g : β → Res δ}
    {R' : Heap → γ → δ → Prop} (h1 : Does h x r R) (h2 : ∀ h' a b, Grows h h' → R h' a b → Does h' (f a) (g b) R') :
    Does h (x >>= f) (r >>= g) R' := by
  obtain ⟨g1, m⟩ := h1
  unfold Does
  rw [M.bind_run]
  generalize x h = xh at g1 m
  obtain ⟨o, h'⟩ := xh
  cases o <;> cases r <;> simp only at m
  · obtain ⟨g2, m2⟩ := h2 _ _ _ g1 m
    exact ⟨g1.trans g2, m2⟩
  · exact ⟨g1, m⟩
  · exact ⟨g1, m⟩

/-- Reading the memory changes nothing. -/
theorem Does.get {γ δ} {h : Heap} {f : Heap → M Heap γ} {r : Res δ} {R : Heap → γ → δ → Prop} (h2 : Does h (f h) r R) :
    Does h (M.get >>= f) r R := h2

theorem Does.mono {α β} {h : Heap} {x : M Heap α} {r : Res β} {R R' : Heap → α → β → Prop} (h1 : Does h x r R)
    (hm : ∀ h' a b, Grows h h' → R h' a b → R' h' a b) : Does h x r R' := by
  obtain ⟨g1, m⟩ := h1
  refine ⟨g1, ?_⟩
  generalize x h = xh at g1 m
  obtain ⟨o, h'⟩ := xh
  cases o <;> cases r <;> simp only at m ⊢
  · exact hm _ _ _ g1 m
  · exact m

/-- A slice over an array with number `n` or later, showing these bytes. -/
def New (n : Nat) (h : Heap) (s : Slice) (b : Bytes) : Prop := n ≤ s.arr ∧ At h s b

theorem does_alloc (h : Heap) (b : Bytes) : Does h (allocBytes b) (.ok b) (New h.length) :=
  ⟨.append h [b], Nat.le_refl _, .last h b⟩

theorem does_makeCopy {h : Heap} {n : Nat} {s : Slice} {b : Bytes} (hs : At h s b) (hn : n ≤ b.length) :
    Does h (makeCopy n s) (.ok (b.take n)) (New h.length) := by
  have e : makeCopy n s h = allocBytes (b.take n) h := by
    unfold makeCopy
    rw [hs.2, Nat.sub_eq_zero_of_le hn]
    simp
  have := does_alloc h (b.take n)
  unfold Does at this ⊢
  rwa [e]

theorem At.from {h : Heap} {s : Slice} {b : Bytes} {n : Nat} (hs : At h s b) (hn : n ≤ b.length) : At h (s.from n) (b.drop n) := by
  have hl := hs.len
  obtain ⟨⟨h1, h2, h3⟩, rfl⟩ := hs
  refine ⟨⟨h1, by simp only [Slice.from]; omega, by simp only [Slice.from]; omega⟩, ?_⟩
  simp only [Heap.read, Slice.from, List.drop_take, List.drop_drop]

/-- Every slice of the key objects lies in an array with number `n` or later. -/
def NewPub (n : Nat) (h : Heap) (p : PubRef) (v : PubKey) : Prop := New n h p.key v.key

def NewPriv (C : Crypto) (n : Nat) (h : Heap) (p : PrivRef) (v : PrivKey) : Prop :=
  New n h p.privateKey v.key ∧ New n h p.publicKey (v.pub C).key ∧ p.scalarKey = v.key ∧ ∃ raw, New n h p.ecdhKey raw ∧ clamp raw = v.key

def NewPair (C : Crypto) (n : Nat) (h : Heap) (p : PrivRef × PubRef) (v : KeyPair) : Prop := NewPriv C n h p.1 v.priv ∧ NewPub n h p.2 v.pub

def NewPreKey (n : Nat) (h : Heap) (p : PreKeyRecRef) (v : PreKeyRec) : Prop := New n h p.publicKey v.publicKey ∧ New n h p.privateKey v.privateKey

theorem New.mono {n m : Nat} {h h' : Heap} {s : Slice} {b : Bytes} (hs : New n h s b) (hm : m ≤ n) (g : Grows h h') : New m h' s b :=
  ⟨Nat.le_trans hm hs.1, hs.2.grows g⟩

theorem NewPriv.mono {C : Crypto} {n m : Nat} {h h' : Heap} {p : PrivRef} {v : PrivKey} (hs : NewPriv C n h p v) (hm : m ≤ n) (g : Grows h h') :
    NewPriv C m h' p v := by
  obtain ⟨a, b, c, raw, d, e⟩ := hs
  exact ⟨a.mono hm g, b.mono hm g, c, raw, d.mono hm g, e⟩

theorem NewPub.mono {n m : Nat} {h h' : Heap} {p : PubRef} {v : PubKey} (hs : NewPub n h p v) (hm : m ≤ n) (g : Grows h h') :
    NewPub m h' p v := New.mono hs hm g

theorem does_djb {n : Nat} {h : Heap} {s : Slice} {b : Bytes} (hs : New n h s b) : Does h (djbFromSlice s) (newDJBPublicKey b) (NewPub n) := by
  unfold djbFromSlice newDJBPublicKey
  rw [hs.2.len]
  by_cases hb : b.length = 32
  · simp only [hb, ne_eq, not_true, if_false, dif_pos]
    exact Does.pure hs
  · simp only [hb, ne_eq, not_false_iff, if_true, dif_neg]
    exact Does.throw

theorem does_pub {h : Heap} {s : Slice} {b : Bytes} (hs : At h s b) : Does h (pubFromSlice s) (newPublicKey b) (NewPub h.length) := by
  unfold pubFromSlice newPublicKey
  rw [hs.len]
  by_cases hb : b.length < 1 + 32
  · simp only [hb, if_true]
    exact Does.throw
  · simp only [hb, if_false]
    refine Does.get ?_
    rw [hs.2]
    have h1 := does_makeCopy (n := 32) (hs.from (n := 1) (by omega)) (by simp; omega)
    have : (if b.head? = some 5 then newDJBPublicKey ((b.drop 1).take 32) else .err .unsupportedKeyType) =
      (Res.ok ((b.drop 1).take 32) >>= fun k => if b.head? = some 5 then newDJBPublicKey k else .err .unsupportedKeyType) := rfl
    rw [this]
    refine h1.bind fun h' a k g hk => ?_
    split
    · exact does_djb hk
    · exact Does.throw

theorem modify_last {α} (l : List α) (a : α) (f : α → α) : (l ++ [a]).modify l.length f = l ++ [f a] := by
  induction l with
  | nil => simp
  | cons b l ih => simp [ih]

theorem does_priv (C : Crypto) {h : Heap} {s : Slice} {b : Bytes} (hs : At h s b) :
    Does h (privFromSlice C s) (newPrivateKey b) (NewPriv C h.length) := by
  by_cases hb : b.length = 32
  · have hv : newPrivateKey b = .ok ⟨clamp b, by simpa using hb, clamp_idem b⟩ := by simp [newPrivateKey, hb]
    have e : privFromSlice C s h = (.ok ⟨⟨h.length + 1, 0, 32, 32⟩, ⟨h.length + 2, 0, 32, 32⟩, clamp b, ⟨h.length, 0, 32, 32⟩⟩,
        h ++ [b] ++ [clamp b] ++ [C.pub (clamp b)]) := by
      have a1 : allocBytes b h = (.ok ⟨h.length, 0, 32, 32⟩, h ++ [b]) := by simp [allocBytes, hb]
      have a2 : makeCopy 32 s (h ++ [b]) = (.ok ⟨h.length + 1, 0, 32, 32⟩, h ++ [b] ++ [b]) := by
        unfold makeCopy
        rw [(hs.grows (.append h [b])).2]
        simp [allocBytes, hb, List.take_of_length_le]
      have a3 : Heap.read (h ++ [b] ++ [b]) ⟨h.length + 1, 0, 32, 32⟩ = b := by
        have := (At.last (h ++ [b]) b).2
        simpa [hb] using this
      have a4 : writeBytes ⟨h.length + 1, 0, 32, 32⟩ (clamp b) (h ++ [b] ++ [b]) = (.ok (), h ++ [b] ++ [clamp b]) := by
        unfold writeBytes
        refine Prod.ext rfl ?_
        show List.modify _ _ _ = _
        have : h.length + 1 = (h ++ [b]).length := by simp
        rw [this, modify_last]
        simp [overwrite, hb]
      have a5 : allocBytes (C.pub (clamp b)) (h ++ [b] ++ [clamp b]) =
          (.ok ⟨h.length + 2, 0, 32, 32⟩, h ++ [b] ++ [clamp b] ++ [C.pub (clamp b)]) := by
        simp [allocBytes, C.pub_len]
      unfold privFromSlice
      rw [hs.len, hb]
      simp only [ne_eq, not_true, if_false]
      rw [M.bind_ok_run (M.get_run h), hs.2, M.bind_ok_run a1, M.bind_ok_run a2, M.bind_ok_run (M.get_run _), a3, M.bind_ok_run a4,
        M.bind_ok_run a5]
      rfl
    unfold Does
    rw [e, hv]
    have g1 := Grows.append (h ++ [b]) [clamp b]
    have g2 := Grows.append (h ++ [b] ++ [clamp b]) [C.pub (clamp b)]
    refine ⟨((Grows.append h [b]).trans g1).trans g2, ⟨by simp, ?_⟩, ⟨by simp, ?_⟩, rfl, b, ⟨by simp, ?_⟩, rfl⟩
    · have := (At.last (h ++ [b]) (clamp b)).grows g2
      simpa [hb] using this
    · have := At.last (h ++ [b] ++ [clamp b]) (C.pub (clamp b))
      simpa [C.pub_len, PrivKey.pub] using this
    · have := (At.last h b).grows (g1.trans g2)
      simpa [hb] using this
  · unfold privFromSlice newPrivateKey
    rw [hs.len]
    simp only [hb, ne_eq, not_false_iff, if_true, dif_neg]
    exact Does.throw

theorem does_pair (C : Crypto) {h : Heap} {s t : Slice} {b c : Bytes} (hs : At h s b) (ht : At h t c) :
    Does h (pairFromSlices C s t) (newKeyPair b c) (NewPair C h.length) := by
  unfold pairFromSlices newKeyPair
  refine (does_priv C hs).bind fun h1 p v g hp => ?_
  refine (does_pub (ht.grows g)).bind fun h2 q w g2 hq => ?_
  exact Does.pure ⟨hp.mono (Nat.le_refl _) g2, hq.mono g.1 (.refl _)⟩

theorem does_generate (C : Crypto) (h : Heap) (random : Bytes) :
    Does h (generateRef C random) (generatePrivateKey random).1 (NewPriv C h.length) := by
  unfold generateRef generatePrivateKey
  by_cases hr : 32 ≤ random.length
  · rw [M.bind_ok_run (readFull_ok 32 random hr)]
    simp only [readFull_ok 32 random hr, M.lift_run]
    have : newPrivateKey (random.take 32) = (Res.ok (random.take 32) >>= newPrivateKey) := rfl
    rw [this]
    exact (does_alloc h _).bind fun h' a b g ha => (does_priv C ha.2).mono fun _ _ _ _ hp => hp.mono g.1 (.refl _)
  · rw [M.bind_err_run (readFull_short 32 random hr)]
    simp only [readFull_short 32 random hr]
    exact Does.throw

theorem does_pubBytes {h : Heap} {p : PubRef} {v : PubKey} (hp : At h p.key v.key) :
    Does h p.bytes (.ok v.bytes) (New h.length) := by
  have := does_alloc h v.bytes
  unfold Does at this ⊢
  unfold PubRef.bytes
  rw [hp.2]
  exact this

theorem does_keyBytes {h : Heap} {p : PubRef} {v : PubKey} (hp : At h p.key v.key) :
    Does h p.keyBytes (.ok v.keyBytes) (New h.length) := by
  have := does_makeCopy (n := 32) hp (Nat.le_of_eq v.len.symm)
  rwa [List.take_of_length_le (Nat.le_of_eq v.len)] at this

theorem does_privBytes {h : Heap} {p : PrivRef} {v : PrivKey} (hp : At h p.privateKey v.key) :
    Does h p.bytes (.ok v.bytes) (New h.length) := by
  have := does_makeCopy (n := 32) hp (Nat.le_of_eq v.len.symm)
  rwa [List.take_of_length_le (Nat.le_of_eq v.len)] at this

theorem does_privPub (C : Crypto) {h : Heap} {p : PrivRef} {v : PrivKey} (hp : At h p.publicKey (v.pub C).key) :
    Does h p.pub (.ok (v.pub C)) (NewPub h.length) := by
  unfold PrivRef.pub
  have h1 := does_makeCopy (n := 32) hp (Nat.le_of_eq (v.pub C).len.symm)
  rw [List.take_of_length_le (Nat.le_of_eq (v.pub C).len)] at h1
  have : Res.ok (v.pub C) = (Res.ok (v.pub C).key >>= newDJBPublicKey) := by
    show _ = newDJBPublicKey _
    simp [newDJBPublicKey, (v.pub C).len]
  rw [this]
  exact h1.bind fun h' a b g ha => does_djb ha

theorem does_agreement (C : Crypto) {h : Heap} {p : PrivRef} {v : PrivKey} {q : PubRef} {w : PubKey} {raw : Bytes}
    (hp : At h p.ecdhKey raw) (hraw : clamp raw = v.key) (hq : At h q.key w.key) :
    Does h (p.agreement C q) (v.agreement C w) (New h.length) := by
  unfold PrivRef.agreement
  have : v.agreement C w = (Res.ok w.keyBytes >>= fun k => Res.ok (k.take 32) >>= fun k => Res.ofOption .lowOrderPoint (C.dh v.key k)) := by
    show _ = Res.ofOption .lowOrderPoint (C.dh v.key (w.keyBytes.take 32))
    rw [List.take_of_length_le (by simp)]
    rfl
  rw [this]
  have h1 : Does h q.keyBytes (.ok w.keyBytes) fun h' a b => New h.length h' a b ∧ b = w.keyBytes := by
    have := does_keyBytes hq
    exact ⟨this.1, this.2, rfl⟩
  refine h1.bind fun h' a b g ⟨ha, hb⟩ => ?_
  refine (does_makeCopy (n := 32) ha.2 (by rw [hb]; simp)).bind fun h2 c d g2 hc => ?_
  refine Does.get ?_
  rw [((hp.grows g).grows g2).2, hraw, hc.2.2]
  cases C.dh v.key d with
  | none => exact Does.throw
  | some s => exact (does_alloc h2 s).mono fun _ _ _ _ hn => hn.mono (Nat.le_trans g.1 g2.1) (.refl _)

theorem reads_of_at {h : Heap} {l : List Slice} {m : List Bytes} (hl : List.Forall₂ (At h) l m) : l.map h.read = m := by
  induction hl with
  | nil => rfl
  | cons ha _ ih => rw [List.map_cons, ih, ha.2]

theorem at_grows {h h' : Heap} (g : Grows h h') {l : List Slice} {m : List Bytes} (hl : List.Forall₂ (At h) l m) :
    List.Forall₂ (At h') l m := by
  induction hl with
  | nil => exact .nil
  | cons ha _ ih => exact .cons (ha.grows g) ih

theorem does_sign (C : Crypto) {h : Heap} {p : PrivRef} {v : PrivKey} (hp : p.scalarKey = v.key) (random : Bytes) {l : List Slice}
    {m : List Bytes} (hl : List.Forall₂ (At h) l m) : Does h (p.sign C random l) (v.sign C m random).1 (New h.length) := by
  unfold PrivRef.sign PrivKey.sign
  by_cases hr : 64 ≤ random.length
  · rw [M.bind_ok_run (readFull_ok 64 random hr)]
    simp only [readFull_ok 64 random hr, M.pure_run]
    have : Res.ok (C.sign v.key (random.take 64) m.flatten) = (Res.ok (random.take 64) >>= fun z => Res.ok (C.sign v.key z m.flatten)) := rfl
    rw [this]
    refine (does_alloc h _).bind fun h' a b g ha => Does.get ?_
    rw [ha.2.2, hp, reads_of_at (at_grows g hl)]
    exact (does_alloc h' _).mono fun _ _ _ _ hn => hn.mono g.1 (.refl _)
  · rw [M.bind_err_run (readFull_short 64 random hr)]
    simp only [readFull_short 64 random hr]
    exact Does.throw

theorem does_verify (C : Crypto) {h : Heap} {p : PubRef} {v : PubKey} (hp : At h p.key v.key) {s : Slice} {sig : Bytes} (hs : At h s sig)
    {l : List Slice} {m : List Bytes} (hl : List.Forall₂ (At h) l m) :
    Does h (p.verifySignature C s l) (v.verifySignature C sig m) fun _ a b => a = b := by
  unfold PubRef.verifySignature PubKey.verifySignature
  rw [hs.len]
  by_cases hb : sig.length = 64
  · simp only [hb, ne_eq, not_true, if_false]
    have : Res.ofOption .invalidUPoint (C.verify v.key m.flatten sig) =
        (Res.ok (sig.take 64) >>= fun x => Res.ok m.flatten >>= fun y => Res.ofOption .invalidUPoint (C.verify v.key y x)) := by
      rw [List.take_of_length_le (by omega)]; rfl
    rw [this]
    refine (does_makeCopy (n := 64) hs (by omega)).bind fun h1 a b g ha => Does.get ?_
    rw [reads_of_at (at_grows g hl)]
    refine (does_alloc h1 _).bind fun h2 c d g2 hc => Does.get ?_
    rw [((hp.grows g).grows g2).2, hc.2.2, (ha.2.grows g2).2]
    refine ⟨.refl _, ?_⟩
    cases hv : C.verify v.key d b <;> simp [Res.ofOption]
  · simp only [hb, ne_eq, not_false_iff, if_true]
    exact Does.pure rfl

theorem does_preKey {h : Heap} {p : PrivRef} {v : PrivKey} {q : PubRef} {w : PubKey} (hp : At h p.privateKey v.key) (hq : At h q.key w.key) :
    Does h (PreKeyRecRef.make p q) (.ok (PreKeyRec.new ⟨v, w⟩)) (NewPreKey h.length) := by
  unfold PreKeyRecRef.make
  have : Res.ok (PreKeyRec.new ⟨v, w⟩) = (Res.ok w.bytes >>= fun a => Res.ok v.bytes >>= fun b => Res.ok ⟨a, b⟩) := rfl
  rw [this]
  refine (does_pubBytes hq).bind fun h1 a b g ha => (does_privBytes (hp.grows g)).bind fun h2 c d g2 hc => ?_
  exact Does.pure ⟨ha.mono (Nat.le_refl _) g2, hc.mono g.1 (.refl _)⟩

/-! ## Programs -/

theorem overwrite_inside (a : Bytes) (off len offset : Nat) (bs : Bytes) (h : offset + bs.length ≤ len) (hl : off + len ≤ a.length) :
    ((overwrite a (off + offset) bs).drop off).take len = overwrite ((a.drop off).take len) offset bs := by
  apply List.ext_getElem?
  intro j
  unfold overwrite
  simp only [List.getElem?_take, List.getElem?_drop, List.getElem?_append, List.length_append, List.length_take, List.length_drop]
  rcases Nat.lt_or_ge j offset with h1 | h1
  · simp only [show j < len by omega, show off + j < min (off + offset) a.length + bs.length by omega, show off + j < min (off + offset) a.length by omega,
      show off + j < off + offset by omega, show j < min offset (min len (a.length - off)) + bs.length by omega,
      show j < min offset (min len (a.length - off)) by omega, h1, if_true]
  · rcases Nat.lt_or_ge j (offset + bs.length) with h2 | h2
    · simp only [show j < len by omega, show off + j < min (off + offset) a.length + bs.length by omega, show ¬ off + j < min (off + offset) a.length by omega,
        show j < min offset (min len (a.length - off)) + bs.length by omega,
        show ¬ j < min offset (min len (a.length - off)) by omega, if_true, if_false]
      congr 1; omega
    · by_cases h3 : j < len
      · simp only [h3, show ¬ off + j < min (off + offset) a.length + bs.length by omega,
          show ¬ j < min offset (min len (a.length - off)) + bs.length by omega, if_true, if_false]
        rw [if_pos (by omega)]
        congr 1; omega
      · simp only [h3, if_false, show ¬ j < min offset (min len (a.length - off)) + bs.length by omega]
        rw [if_neg (by omega)]

theorem forall₂_mem_imp {α β} {R R' : α → β → Prop} {l : List α} {m : List β} (h : List.Forall₂ R l m)
    (hi : ∀ a b, a ∈ l → R a b → R' a b) : List.Forall₂ R' l m := by
  induction h with
  | nil => exact .nil
  | cons ha _ ih => exact .cons (hi _ _ (by simp) ha) (ih fun a b hm => hi a b (by simp [hm]))


theorem forall₂_left {α β} {R : α → β → Prop} {l : List α} {m : List β} (h : List.Forall₂ R l m) : ∀ x ∈ l, ∃ y, R x y := by
  induction h with
  | nil => simp
  | cons ha _ ih =>
    intro x hx
    rcases List.mem_cons.1 hx with rfl | hx
    · exact ⟨_, ha⟩
    · exact ih x hx

theorem forall₂_at {α β} {R : α → β → Prop} {l : List α} {m : List β} (h : List.Forall₂ R l m) (i : Nat) :
    (∃ a b, l[i]? = some a ∧ m[i]? = some b ∧ R a b ∧ a ∈ l) ∨ (l[i]? = none ∧ m[i]? = none) := by
  induction h generalizing i with
  | nil => exact .inr ⟨by simp, by simp⟩
  | cons ha _ ih =>
    cases i with
    | zero => exact .inl ⟨_, _, by simp, by simp, ha, by simp⟩
    | succ i =>
      rcases ih i with ⟨a, b, h1, h2, h3, h4⟩ | ⟨h1, h2⟩
      · exact .inl ⟨a, b, by simpa using h1, by simpa using h2, h3, by simp [h4]⟩
      · exact .inr ⟨by simpa using h1, by simpa using h2⟩

theorem forall₂_snoc {α β} {R : α → β → Prop} {l : List α} {m : List β} (h : List.Forall₂ R l m) {a : α} {b : β} (ha : R a b) :
    List.Forall₂ R (l ++ [a]) (m ++ [b]) := by
  induction h with
  | nil => exact .cons ha .nil
  | cons hx _ ih => exact .cons hx ih

theorem forall₂_pick {α β} {R : α → β → Prop} {l : List α} {m : List β} (h : List.Forall₂ R l m) (is : List Nat) :
    List.Forall₂ R (is.filterMap (l[·]?)) (is.filterMap (m[·]?)) := by
  induction is with
  | nil => exact .nil
  | cons i is ih =>
    rcases forall₂_at h i with ⟨a, b, h1, h2, h3, -⟩ | ⟨h1, h2⟩
    · rw [List.filterMap_cons_some h1, List.filterMap_cons_some h2]
      exact .cons h3 ih
    · rw [List.filterMap_cons_none h1, List.filterMap_cons_none h2]
      exact ih

/-- The arrays that belong to a private key. -/
def PrivRef.arrays (p : PrivRef) : List Nat := [p.privateKey.arr, p.publicKey.arr, p.ecdhKey.arr]

/-- The arrays that belong to a pre-key. -/
def PreKeyRecRef.arrays (p : PreKeyRecRef) : List Nat := [p.publicKey.arr, p.privateKey.arr]

/-- Everything shows the values, and the arrays behind the held slices are apart from each other and from those behind keys. -/
structure KeyInv (C : Crypto) (s : KeyMem) (v : KeyVals) : Prop where
  slices : List.Forall₂ (At s.heap) s.slices v.slices
  pubs : List.Forall₂ (NewPub 0 s.heap) s.pubs v.pubs
  privs : List.Forall₂ (NewPriv C 0 s.heap) s.privs v.privs
  preKeys : List.Forall₂ (NewPreKey 0 s.heap) s.preKeys v.preKeys
  nodup : (s.slices.map (·.arr)).Nodup
  apartPubs : ∀ x ∈ s.slices, ∀ p ∈ s.pubs, x.arr ≠ p.key.arr
  apartPrivs : ∀ x ∈ s.slices, ∀ p ∈ s.privs, x.arr ∉ p.arrays
  apartPreKeys : ∀ x ∈ s.slices, ∀ p ∈ s.preKeys, x.arr ∉ p.arrays

section
variable {C : Crypto} {s : KeyMem} {v : KeyVals}

theorem NewPreKey.mono {n m : Nat} {h h' : Heap} {p : PreKeyRecRef} {v : PreKeyRec} (hs : NewPreKey n h p v) (hm : m ≤ n) (g : Grows h h') :
    NewPreKey m h' p v := ⟨hs.1.mono hm g, hs.2.mono hm g⟩

theorem KeyInv.slice_lt (i : KeyInv C s v) : ∀ x ∈ s.slices, x.arr < s.heap.length := fun x hx => by
  obtain ⟨b, hb⟩ := forall₂_left i.slices x hx
  exact hb.1.1

theorem KeyInv.pub_lt (i : KeyInv C s v) : ∀ p ∈ s.pubs, p.key.arr < s.heap.length := fun p hp => by
  obtain ⟨b, hb⟩ := forall₂_left i.pubs p hp
  exact hb.2.1.1

theorem KeyInv.priv_lt (i : KeyInv C s v) : ∀ p ∈ s.privs, ∀ n ∈ p.arrays, n < s.heap.length := fun p hp n hn => by
  obtain ⟨b, h1, h2, -, raw, h3, -⟩ := forall₂_left i.privs p hp
  simp only [PrivRef.arrays, List.mem_cons, List.not_mem_nil, or_false] at hn
  rcases hn with rfl | rfl | rfl
  · exact h1.2.1.1
  · exact h2.2.1.1
  · exact h3.2.1.1

theorem KeyInv.preKey_lt (i : KeyInv C s v) : ∀ p ∈ s.preKeys, ∀ n ∈ p.arrays, n < s.heap.length := fun p hp n hn => by
  obtain ⟨b, h1, h2⟩ := forall₂_left i.preKeys p hp
  simp only [PreKeyRecRef.arrays, List.mem_cons, List.not_mem_nil, or_false] at hn
  rcases hn with rfl | rfl
  · exact h1.2.1.1
  · exact h2.2.1.1

theorem KeyInv.grows (i : KeyInv C s v) {h' : Heap} (g : Grows s.heap h') : KeyInv C { s with heap := h' } v where
  slices := at_grows g i.slices
  pubs := i.pubs.imp fun _ _ h => h.mono (Nat.le_refl _) g
  privs := i.privs.imp fun _ _ h => h.mono (Nat.le_refl _) g
  preKeys := i.preKeys.imp fun _ _ h => h.mono (Nat.le_refl _) g
  nodup := i.nodup
  apartPubs := i.apartPubs
  apartPrivs := i.apartPrivs
  apartPreKeys := i.apartPreKeys

theorem KeyInv.keepSlice (i : KeyInv C s v) {h' : Heap} (g : Grows s.heap h') {x : Slice} {b : Bytes} (hx : New s.heap.length h' x b) :
    KeyInv C (KeyMem.keepSlice x { s with heap := h' }) (v.keepSlice b) where
  slices := forall₂_snoc (i.grows g).slices hx.2
  pubs := (i.grows g).pubs
  privs := (i.grows g).privs
  preKeys := (i.grows g).preKeys
  nodup := by
    simp only [KeyMem.keepSlice, List.map_append, List.map_cons, List.map_nil]
    refine List.nodup_append.2 ⟨i.nodup, by simp, ?_⟩
    simp only [List.mem_map, List.mem_singleton]
    rintro _ ⟨y, hy, rfl⟩ _ rfl
    have := i.slice_lt y hy
    have := hx.1
    omega
  apartPubs := by
    simp only [KeyMem.keepSlice, List.mem_append, List.mem_singleton]
    rintro y (hy | rfl) p hp
    · exact i.apartPubs y hy p hp
    · have := i.pub_lt p hp
      have := hx.1
      omega
  apartPrivs := by
    simp only [KeyMem.keepSlice, List.mem_append, List.mem_singleton]
    rintro y (hy | rfl) p hp
    · exact i.apartPrivs y hy p hp
    · intro hm
      have := i.priv_lt p hp _ hm
      have := hx.1
      omega
  apartPreKeys := by
    simp only [KeyMem.keepSlice, List.mem_append, List.mem_singleton]
    rintro y (hy | rfl) p hp
    · exact i.apartPreKeys y hy p hp
    · intro hm
      have := i.preKey_lt p hp _ hm
      have := hx.1
      omega

theorem KeyInv.keepPub (i : KeyInv C s v) {h' : Heap} (g : Grows s.heap h') {x : PubRef} {b : PubKey} (hx : NewPub s.heap.length h' x b) :
    KeyInv C (KeyMem.keepPub x { s with heap := h' }) (v.keepPub b) :=
  { i.grows g with
    pubs := forall₂_snoc (i.grows g).pubs (hx.mono (Nat.zero_le _) (.refl _))
    apartPubs := by
      simp only [KeyMem.keepPub, List.mem_append, List.mem_singleton]
      rintro y hy p (hp | rfl)
      · exact i.apartPubs y hy p hp
      · have := i.slice_lt y hy
        have := hx.1
        omega }

theorem NewPriv.arrays {n : Nat} {h : Heap} {x : PrivRef} {b : PrivKey} (hx : NewPriv C n h x b) : ∀ m ∈ x.arrays, n ≤ m := by
  obtain ⟨h1, h2, -, raw, h3, -⟩ := hx
  intro m hm
  simp only [PrivRef.arrays, List.mem_cons, List.not_mem_nil, or_false] at hm
  rcases hm with rfl | rfl | rfl
  · exact h1.1
  · exact h2.1
  · exact h3.1

theorem KeyInv.keepPriv (i : KeyInv C s v) {h' : Heap} (g : Grows s.heap h') {x : PrivRef} {b : PrivKey} (hx : NewPriv C s.heap.length h' x b) :
    KeyInv C (KeyMem.keepPriv x { s with heap := h' }) (v.keepPriv b) :=
  { i.grows g with
    privs := forall₂_snoc (i.grows g).privs (hx.mono (Nat.zero_le _) (.refl _))
    apartPrivs := by
      simp only [KeyMem.keepPriv, List.mem_append, List.mem_singleton]
      rintro y hy p (hp | rfl)
      · exact i.apartPrivs y hy p hp
      · intro hm
        have := i.slice_lt y hy
        have := hx.arrays _ hm
        omega }

theorem KeyInv.keepPair (i : KeyInv C s v) {h' : Heap} (g : Grows s.heap h') {x : PrivRef × PubRef} {b : KeyPair}
    (hx : NewPair C s.heap.length h' x b) : KeyInv C (KeyMem.keepPair x { s with heap := h' }) (v.keepPair b) := by
  have j := i.keepPriv g hx.1
  have k := i.keepPub g hx.2
  exact { j with pubs := k.pubs, apartPubs := k.apartPubs }

theorem KeyInv.keepPreKey (i : KeyInv C s v) {h' : Heap} (g : Grows s.heap h') {x : PreKeyRecRef} {b : PreKeyRec}
    (hx : NewPreKey s.heap.length h' x b) : KeyInv C (KeyMem.keepPreKey x { s with heap := h' }) (v.keepPreKey b) :=
  { i.grows g with
    preKeys := forall₂_snoc (i.grows g).preKeys (hx.mono (Nat.zero_le _) (.refl _))
    apartPreKeys := by
      simp only [KeyMem.keepPreKey, List.mem_append, List.mem_singleton]
      rintro y hy p (hp | rfl)
      · exact i.apartPreKeys y hy p hp
      · intro hm
        have := i.slice_lt y hy
        simp only [PreKeyRecRef.arrays, List.mem_cons, List.not_mem_nil, or_false] at hm
        have h1 := hx.1.1
        have h2 := hx.2.1
        rcases hm with hm | hm <;> omega }

/-- One step does the same over memory and over values. -/
def Agrees (C : Crypto) (x : KeyOut × KeyMem) (y : KeyOut × KeyVals) : Prop := x.1 = y.1 ∧ KeyInv C x.2 y.2

theorem KeyInv.call (i : KeyInv C s v) {α β} {x : M Heap α} {r : Res β} {R : Heap → α → β → Prop} (d : Does s.heap x r R)
    {keep : α → KeyMem → KeyMem} {keep' : β → KeyVals → KeyVals}
    (hk : ∀ h' a b, Grows s.heap h' → R h' a b → KeyInv C (keep a { s with heap := h' }) (keep' b v)) :
    Agrees C (s.call x keep) (v.call r keep') := by
  obtain ⟨g, m⟩ := d
  unfold KeyMem.call KeyVals.call
  generalize x s.heap = xh at g m
  obtain ⟨o, h'⟩ := xh
  cases o <;> cases r <;> simp only at m ⊢
  · exact ⟨rfl, hk _ _ _ g m⟩
  · exact ⟨by rw [m], i.grows g⟩
  · exact ⟨rfl, i.grows g⟩

theorem KeyInv.write (i : KeyInv C s v) {k : Nat} {x : Slice} {b : Bytes} (hx : s.slices[k]? = some x) (hb : v.slices[k]? = some b)
    (hat : At s.heap x b) {offset : Nat} {bytes : Bytes} (hl : offset + bytes.length ≤ b.length) :
    KeyInv C { s with heap := s.heap.modify x.arr fun a => overwrite a (x.off + offset) bytes }
      { v with slices := v.slices.set k (overwrite b offset bytes) } := by
  have other : ∀ {y : Slice} {c : Bytes}, y.arr ≠ x.arr → At s.heap y c →
      At (s.heap.modify x.arr fun a => overwrite a (x.off + offset) bytes) y c := by
    intro y c hne ⟨⟨h1, h2, h3⟩, h4⟩
    have e := array_modify_ne s.heap x.arr y.arr (fun a => overwrite a (x.off + offset) bytes) (Ne.symm hne)
    exact ⟨⟨by simpa using h1, h2, by rw [e]; exact h3⟩, by rw [← h4]; simp only [Heap.read, e]⟩
  have hmem : x ∈ s.slices := List.mem_of_getElem? hx
  refine ⟨?_, ?_, ?_, ?_, i.nodup, i.apartPubs, i.apartPrivs, i.apartPreKeys⟩
  · have hi := List.forall₂_iff_get.1 i.slices
    refine List.forall₂_iff_get.2 ⟨by simpa using hi.1, fun j h1 h2 => ?_⟩
    simp only [List.get_eq_getElem] at hi ⊢
    have hj : j < v.slices.length := by simpa using h2
    rw [List.getElem_set]
    have hkl : k < s.slices.length := (List.getElem?_eq_some_iff.1 hx).1
    have hkx : s.slices[k] = x := (List.getElem?_eq_some_iff.1 hx).2
    split
    · rename_i hkj
      subst hkj
      simp only [hkx]
      have hlen := hat.len
      obtain ⟨⟨h1, h2, h3⟩, h4⟩ := hat
      have e := array_modify_self s.heap x.arr (fun a => overwrite a (x.off + offset) bytes) h1
      have hol : (overwrite (s.heap.array x.arr) (x.off + offset) bytes).length = (s.heap.array x.arr).length :=
        overwrite_length _ _ _ (by omega)
      refine ⟨⟨by simpa using h1, h2, by rw [e, hol]; exact h3⟩, ?_⟩
      rw [← h4]
      simp only [Heap.read, e]
      exact overwrite_inside _ _ _ _ _ (by omega) (by omega)
    · rename_i hkj
      refine other ?_ (hi.2 j h1 hj)
      intro he
      have hn := (List.nodup_iff_injective_get.1 i.nodup)
      apply hkj
      have := @hn ⟨k, by simpa using hkl⟩ ⟨j, by simpa using h1⟩ (by simp [hkx, he])
      simpa using this
  · refine forall₂_mem_imp i.pubs fun p w hp h => ?_
    exact ⟨h.1, other (fun e => i.apartPubs x hmem p hp e.symm) h.2⟩
  · refine forall₂_mem_imp i.privs fun p w hp h => ?_
    obtain ⟨h1, h2, h3, raw, h4, h5⟩ := h
    have ha := i.apartPrivs x hmem p hp
    simp only [PrivRef.arrays, List.mem_cons, List.not_mem_nil, or_false, not_or] at ha
    exact ⟨⟨h1.1, other (Ne.symm ha.1) h1.2⟩, ⟨h2.1, other (Ne.symm ha.2.1) h2.2⟩, h3, raw, ⟨h4.1, other (Ne.symm ha.2.2) h4.2⟩, h5⟩
  · refine forall₂_mem_imp i.preKeys fun p w hp h => ?_
    have ha := i.apartPreKeys x hmem p hp
    simp only [PreKeyRecRef.arrays, List.mem_cons, List.not_mem_nil, or_false, not_or] at ha
    exact ⟨⟨h.1.1, other (Ne.symm ha.1) h.1.2⟩, ⟨h.2.1, other (Ne.symm ha.2) h.2.2⟩⟩

theorem KeyInv.step (i : KeyInv C s v) (op : KeyOp) : Agrees C (s.step C op) (v.step C op) := by
  have stay : Agrees C (.ok none, s) (.ok none, v) := ⟨rfl, i⟩
  cases op with
  | make before shown after =>
    refine ⟨rfl, ?_⟩
    refine i.keepSlice (.append _ _) ⟨Nat.le_refl _, ⟨by simp, by simp, ?_⟩, ?_⟩
    · simp [Heap.array]
    · simp [Heap.read, Heap.array]
  | write k offset bytes =>
    simp only [KeyMem.step, KeyVals.step]
    rcases forall₂_at i.slices k with ⟨x, b, h1, h2, h3, -⟩ | ⟨h1, h2⟩
    · rw [h1, h2]
      simp only
      rw [h3.len]
      split
      · rename_i hl
        exact ⟨rfl, i.write h1 h2 h3 hl⟩
      · exact stay
    · rw [h1, h2]; exact stay
  | newPublicKey k =>
    simp only [KeyMem.step, KeyVals.step]
    rcases forall₂_at i.slices k with ⟨x, b, h1, h2, h3, -⟩ | ⟨h1, h2⟩ <;> rw [h1, h2]
    · exact i.call (does_pub h3) fun _ _ _ g hr => i.keepPub g hr
    · exact stay
  | newPrivateKey k =>
    simp only [KeyMem.step, KeyVals.step]
    rcases forall₂_at i.slices k with ⟨x, b, h1, h2, h3, -⟩ | ⟨h1, h2⟩ <;> rw [h1, h2]
    · exact i.call (does_priv C h3) fun _ _ _ g hr => i.keepPriv g hr
    · exact stay
  | newKeyPair k l =>
    simp only [KeyMem.step, KeyVals.step]
    rcases forall₂_at i.slices k with ⟨x, b, h1, h2, h3, -⟩ | ⟨h1, h2⟩ <;> rw [h1, h2]
    · rcases forall₂_at i.slices l with ⟨y, c, k1, k2, k3, -⟩ | ⟨k1, k2⟩ <;> rw [k1, k2]
      · exact i.call (does_pair C h3 k3) fun _ _ _ g hr => i.keepPair g hr
      · exact stay
    · exact stay
  | generate random => exact i.call (does_generate C s.heap random) fun _ _ _ g hr => i.keepPriv g hr
  | publicBytes k =>
    simp only [KeyMem.step, KeyVals.step]
    rcases forall₂_at i.pubs k with ⟨x, b, h1, h2, h3, -⟩ | ⟨h1, h2⟩ <;> rw [h1, h2]
    · exact i.call (does_pubBytes h3.2) fun _ _ _ g hr => i.keepSlice g hr
    · exact stay
  | publicKeyBytes k =>
    simp only [KeyMem.step, KeyVals.step]
    rcases forall₂_at i.pubs k with ⟨x, b, h1, h2, h3, -⟩ | ⟨h1, h2⟩ <;> rw [h1, h2]
    · exact i.call (does_keyBytes h3.2) fun _ _ _ g hr => i.keepSlice g hr
    · exact stay
  | privateBytes k =>
    simp only [KeyMem.step, KeyVals.step]
    rcases forall₂_at i.privs k with ⟨x, b, h1, h2, h3, -⟩ | ⟨h1, h2⟩ <;> rw [h1, h2]
    · exact i.call (does_privBytes h3.1.2) fun _ _ _ g hr => i.keepSlice g hr
    · exact stay
  | publicKey k =>
    simp only [KeyMem.step, KeyVals.step]
    rcases forall₂_at i.privs k with ⟨x, b, h1, h2, h3, -⟩ | ⟨h1, h2⟩ <;> rw [h1, h2]
    · exact i.call (does_privPub C h3.2.1.2) fun _ _ _ g hr => i.keepPub g hr
    · exact stay
  | agreement k l =>
    simp only [KeyMem.step, KeyVals.step]
    rcases forall₂_at i.privs k with ⟨x, b, h1, h2, h3, -⟩ | ⟨h1, h2⟩ <;> rw [h1, h2]
    · rcases forall₂_at i.pubs l with ⟨y, c, k1, k2, k3, -⟩ | ⟨k1, k2⟩ <;> rw [k1, k2]
      · obtain ⟨-, -, -, raw, hr, he⟩ := h3
        exact i.call (does_agreement C hr.2 he k3.2) fun _ _ _ g hr => i.keepSlice g hr
      · exact stay
    · exact stay
  | sign k random l =>
    simp only [KeyMem.step, KeyVals.step]
    rcases forall₂_at i.privs k with ⟨x, b, h1, h2, h3, -⟩ | ⟨h1, h2⟩ <;> rw [h1, h2]
    · exact i.call (does_sign C h3.2.2.1 random (forall₂_pick i.slices l)) fun _ _ _ g hr => i.keepSlice g hr
    · exact stay
  | verify k j l =>
    simp only [KeyMem.step, KeyVals.step]
    rcases forall₂_at i.pubs k with ⟨x, b, h1, h2, h3, -⟩ | ⟨h1, h2⟩ <;> rw [h1, h2]
    · rcases forall₂_at i.slices j with ⟨y, c, k1, k2, k3, -⟩ | ⟨k1, k2⟩ <;> rw [k1, k2]
      · obtain ⟨g, m⟩ := does_verify C h3.2 k3 (forall₂_pick i.slices l)
        simp only
        generalize x.verifySignature C y (l.filterMap (s.slices[·]?)) s.heap = xh at g m
        obtain ⟨o, h'⟩ := xh
        generalize b.verifySignature C c (l.filterMap (v.slices[·]?)) = r at m
        cases o <;> cases r <;> simp only at m ⊢
        · exact ⟨by rw [m], i.grows g⟩
        · exact ⟨by rw [m], i.grows g⟩
        · exact ⟨rfl, i.grows g⟩
      · exact stay
    · exact stay
  | newPreKey k l =>
    simp only [KeyMem.step, KeyVals.step]
    rcases forall₂_at i.privs k with ⟨x, b, h1, h2, h3, -⟩ | ⟨h1, h2⟩ <;> rw [h1, h2]
    · rcases forall₂_at i.pubs l with ⟨y, c, k1, k2, k3, -⟩ | ⟨k1, k2⟩ <;> rw [k1, k2]
      · exact i.call (does_preKey h3.1.2 k3.2) fun _ _ _ g hr => i.keepPreKey g hr
      · exact stay
    · exact stay
  | keyPair k =>
    simp only [KeyMem.step, KeyVals.step]
    rcases forall₂_at i.preKeys k with ⟨x, b, h1, h2, h3, -⟩ | ⟨h1, h2⟩ <;> rw [h1, h2]
    · exact i.call (does_pair C h3.2.2 h3.1.2) fun _ _ _ g hr => i.keepPair g hr
    · exact stay

theorem KeyInv.run (i : KeyInv C s v) (ops : List KeyOp) : (s.run C ops).1 = (v.run C ops).1 ∧ KeyInv C (s.run C ops).2 (v.run C ops).2 := by
  induction ops generalizing s v with
  | nil => exact ⟨rfl, i⟩
  | cons op ops ih =>
    have h1 := i.step op
    have h2 := ih h1.2
    simp only [KeyMem.run, KeyVals.run]
    exact ⟨by rw [h1.1, h2.1], h2.2⟩

theorem KeyInv.shows (i : KeyInv C s v) : s.Shows C v where
  slices := i.slices.imp fun _ _ h => h.2
  pubs := i.pubs.imp fun _ _ h => h.2.2
  privs := i.privs.imp fun _ _ h => by
    obtain ⟨h1, h2, h3, raw, h4, h5⟩ := h
    exact ⟨h1.2.2, h2.2.2, h3, by rw [h4.2.2]; exact h5⟩
  preKeys := i.preKeys.imp fun _ _ h => ⟨h.1.2.2, h.2.2.2⟩

theorem KeyInv.start : KeyInv C {} {} where
  slices := .nil
  pubs := .nil
  privs := .nil
  preKeys := .nil
  nodup := by simp
  apartPubs := by simp
  apartPrivs := by simp
  apartPreKeys := by simp

end

/-! ## What stays where it was -/

theorem getElem?_of_prefix {α} {l m : List α} (h : l <+: m) {i : Nat} {a : α} (ha : l[i]? = some a) : m[i]? = some a := by
  obtain ⟨t, rfl⟩ := h
  have hi : i < l.length := (List.getElem?_eq_some_iff.1 ha).1
  rw [List.getElem?_append_left hi, ha]

theorem forall₂_some {α β} {R : α → β → Prop} {l : List α} {m : List β} (h : List.Forall₂ R l m) {i : Nat} {a : α} (ha : l[i]? = some a) :
    ∃ b, m[i]? = some b ∧ R a b := by
  rcases forall₂_at h i with ⟨a', b, h1, h2, h3, -⟩ | ⟨h1, -⟩
  · rw [ha] at h1
    cases h1
    exact ⟨b, h2, h3⟩
  · rw [ha] at h1; cases h1

theorem KeyMem.call_keeps {α} (s : KeyMem) (x : M Heap α) (keep : α → KeyMem → KeyMem) (P : KeyMem → Prop) (h0 : ∀ h, P { s with heap := h })
    (hk : ∀ a h, P (keep a { s with heap := h })) : P (s.call x keep).2 := by
  unfold KeyMem.call
  split
  · exact hk _ _
  · exact h0 _
  · exact h0 _

theorem KeyVals.call_keeps {α} (s : KeyVals) (x : Res α) (keep : α → KeyVals → KeyVals) (P : KeyVals → Prop) (h0 : P s)
    (hk : ∀ a, P (keep a s)) : P (s.call x keep).2 := by
  unfold KeyVals.call
  split
  · exact hk _
  · exact h0
  · exact h0

/-- Keys and pre-keys keep their place. -/
def KeyMem.Later (s t : KeyMem) : Prop := s.pubs <+: t.pubs ∧ s.privs <+: t.privs ∧ s.preKeys <+: t.preKeys

def KeyVals.Later (s t : KeyVals) : Prop := s.pubs <+: t.pubs ∧ s.privs <+: t.privs ∧ s.preKeys <+: t.preKeys

theorem KeyMem.step_prefix (C : Crypto) (s : KeyMem) (op : KeyOp) : s.Later (s.step C op).2 := by
  have r : ∀ h, s.Later { s with heap := h } := fun _ => ⟨List.prefix_refl _, List.prefix_refl _, List.prefix_refl _⟩
  have r0 : s.Later s := r _
  cases op <;> simp only [KeyMem.step] <;> (repeat' split) <;>
    first
    | exact r _
    | exact r0
    | exact ⟨List.prefix_refl _, List.prefix_refl _, List.prefix_refl _⟩
    | exact KeyMem.call_keeps s _ _ s.Later r fun a h => ⟨List.prefix_refl _, List.prefix_refl _, List.prefix_refl _⟩
    | exact KeyMem.call_keeps s _ _ s.Later r fun a h => ⟨List.prefix_append _ _, List.prefix_refl _, List.prefix_refl _⟩
    | exact KeyMem.call_keeps s _ _ s.Later r fun a h => ⟨List.prefix_refl _, List.prefix_append _ _, List.prefix_refl _⟩
    | exact KeyMem.call_keeps s _ _ s.Later r fun a h => ⟨List.prefix_append _ _, List.prefix_append _ _, List.prefix_refl _⟩
    | exact KeyMem.call_keeps s _ _ s.Later r fun a h => ⟨List.prefix_refl _, List.prefix_refl _, List.prefix_append _ _⟩

theorem KeyVals.step_prefix (C : Crypto) (s : KeyVals) (op : KeyOp) : s.Later (s.step C op).2 := by
  have r0 : s.Later s := ⟨List.prefix_refl _, List.prefix_refl _, List.prefix_refl _⟩
  cases op <;> simp only [KeyVals.step] <;> (repeat' split) <;>
    first
    | exact r0
    | exact ⟨List.prefix_refl _, List.prefix_refl _, List.prefix_refl _⟩
    | exact KeyVals.call_keeps s _ _ s.Later r0 fun a => ⟨List.prefix_refl _, List.prefix_refl _, List.prefix_refl _⟩
    | exact KeyVals.call_keeps s _ _ s.Later r0 fun a => ⟨List.prefix_append _ _, List.prefix_refl _, List.prefix_refl _⟩
    | exact KeyVals.call_keeps s _ _ s.Later r0 fun a => ⟨List.prefix_refl _, List.prefix_append _ _, List.prefix_refl _⟩
    | exact KeyVals.call_keeps s _ _ s.Later r0 fun a => ⟨List.prefix_append _ _, List.prefix_append _ _, List.prefix_refl _⟩
    | exact KeyVals.call_keeps s _ _ s.Later r0 fun a => ⟨List.prefix_refl _, List.prefix_refl _, List.prefix_append _ _⟩

theorem KeyMem.run_prefix (C : Crypto) (s : KeyMem) (ops : List KeyOp) : s.Later (s.run C ops).2 := by
  induction ops generalizing s with
  | nil => exact ⟨List.prefix_refl _, List.prefix_refl _, List.prefix_refl _⟩
  | cons op ops ih =>
    have h1 := s.step_prefix C op
    have h2 := ih (s.step C op).2
    exact ⟨h1.1.trans h2.1, h1.2.1.trans h2.2.1, h1.2.2.trans h2.2.2⟩

theorem KeyVals.run_prefix (C : Crypto) (s : KeyVals) (ops : List KeyOp) : s.Later (s.run C ops).2 := by
  induction ops generalizing s with
  | nil => exact ⟨List.prefix_refl _, List.prefix_refl _, List.prefix_refl _⟩
  | cons op ops ih =>
    have h1 := s.step_prefix C op
    have h2 := ih (s.step C op).2
    exact ⟨h1.1.trans h2.1, h1.2.1.trans h2.2.1, h1.2.2.trans h2.2.2⟩

theorem KeyMem.step_slices (C : Crypto) (s : KeyMem) (op : KeyOp) : s.slices <+: (s.step C op).2.slices := by
  cases op <;> simp only [KeyMem.step] <;> (repeat' split) <;>
    first
    | exact List.prefix_refl _
    | exact List.prefix_append _ _
    | exact KeyMem.call_keeps s _ _ (fun t => s.slices <+: t.slices) (fun _ => List.prefix_refl _) fun a h => List.prefix_refl _
    | exact KeyMem.call_keeps s _ _ (fun t => s.slices <+: t.slices) (fun _ => List.prefix_refl _) fun a h => List.prefix_append _ _

theorem KeyVals.step_slice (C : Crypto) (s : KeyVals) (op : KeyOp) (i : Nat) (hop : ∀ offset bytes, op ≠ .write i offset bytes) {b : Bytes}
    (hb : s.slices[i]? = some b) : (s.step C op).2.slices[i]? = some b := by
  by_cases hw : ∃ j offset bytes, op = .write j offset bytes
  · obtain ⟨j, offset, bytes, rfl⟩ := hw
    have hj : j ≠ i := fun e => hop offset bytes (by rw [e])
    simp only [KeyVals.step]
    (repeat' split) <;> first | exact hb | (rw [List.getElem?_set_ne hj]; exact hb)
  · refine getElem?_of_prefix ?_ hb
    cases op <;> simp only [KeyVals.step] <;> (repeat' split) <;>
      first
      | exact List.prefix_refl _
      | exact List.prefix_append _ _
      | exact absurd ⟨_, _, _, rfl⟩ hw
      | exact KeyVals.call_keeps s _ _ (fun t => s.slices <+: t.slices) (List.prefix_refl _) fun a => List.prefix_refl _
      | exact KeyVals.call_keeps s _ _ (fun t => s.slices <+: t.slices) (List.prefix_refl _) fun a => List.prefix_append _ _

end Verif
