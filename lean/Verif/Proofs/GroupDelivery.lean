import Verif.Proofs.GroupHistory
import Verif.Proofs.Encoding

/-!
Delivery of group messages: the sender and the receiver walk along the same chain.
-/

namespace Verif

attribute [local irreducible] maxMessageKeys

/-! ## Keys the user owns -/

/-- A state with a private key was created by the user. -/
def GState.Own (C : Crypto) (s : GState) : Prop :=
  s.signingPrivate ≠ [] → ∃ k : KeyPair, k.Matched C ∧ s.signingPrivate = k.priv.bytes ∧ s.signingPublic = k.pub.bytes ∧
    s.messageVersion = 3 ∧ s.chainKey.seed.length = 32

def GOwn (C : Crypto) (w : GWorld) : Prop := ∀ k g, w.records k = some g → g.WF ∧ ∀ s ∈ g, s.Own C

theorem next_seed_len (C : Crypto) (c : SKChainKey) : (c.next C).seed.length = 32 := by
  simp [SKChainKey.next, chainHash, C.hmac_len]

theorem GTaken.seed_len {C : Crypto} {s s' : GState} {n : UInt32} {mk : SKMessageKey} (h : GTaken C s n mk s')
    (hl : s.chainKey.seed.length = 32) : s'.chainKey.seed.length = 32 := by
  cases h with
  | stored => exact hl
  | ahead d hd hj => exact next_seed_len C _

theorem GOwn.call {E : GEnv} {w : GWorld} (h : GOwn E.C w) (c : GCall) : GOwn E.C (c.run E w).2 := by
  intro k g hg
  rcases gcall_changed E c w k with he | ⟨g', hk, he, hst⟩
  · rw [he] at hg; exact h k g hg
  · simp only at hst
    rw [he] at hg
    simp only [Option.some.injEq] at hg
    subst hg
    have hwf : ∀ g, w.records k = some g → g.WF := fun g hg => (h k g hg).1
    refine ⟨hst.WF hwf, fun t ht hp => ?_⟩
    cases hst.origin hwf t ht with
    | kept g ho h1 => exact (h k g ho).2 t h1 hp
    | sent a d pt s rest hop ho h1 =>
      subst h1
      obtain ⟨kp, h1, h2, h3, h4, h5⟩ := (h k _ ho).2 s (by simp) hp
      exact ⟨kp, h1, h2, h3, h4, next_seed_len _ _⟩
    | moved a m g s mk hop ho hs hcid htk =>
      have hc := htk.chainId
      obtain ⟨kp, h1, h2, h3, h4, h5⟩ := (h k _ ho).2 s hs (by rw [← hc.2.2.1]; exact hp)
      exact ⟨kp, h1, hc.2.2.1.trans h2, hc.2.1.trans h3, hc.2.2.2.trans h4, htk.seed_len h5⟩
    | fresh a d hop h1 hn => subst h1; exact absurd rfl hp
    | created a d hop ho cid seed kp h1 hl hk => subst h1; exact ⟨kp, hk, rfl, rfl, rfl, hl⟩

theorem GReachable.own {E : GEnv} {w : GWorld} (h : GReachable E w) : GOwn E.C w := by
  obtain ⟨w0, cs, rd, srd, fs, h0, rfl⟩ := h
  have : GOwn E.C w0 := fun k g hg => by rw [h0 k] at hg; simp at hg
  have h1 : ∀ cs w0, GOwn E.C w0 → GOwn E.C (gAfter E cs w0) := by
    intro cs
    induction cs with
    | nil => intro w0 h; exact h
    | cons c cs ih => intro w0 h; exact ih _ (h.call c)
  exact h1 cs w0 this

/-! ## Counting -/

theorem nextIteration_le {s n : Nat} {l : List Nat} (hs : s ≤ n) (h : ∀ x ∈ l, x < n) : nextIteration s l ≤ n := by
  induction l with
  | nil => exact hs
  | cons x l ih =>
    have := ih (fun y hy => h y (by simp [hy]))
    have := h x (by simp)
    simp only [nextIteration, List.foldr_cons] at *
    omega

theorem le_nextIteration {s x : Nat} {l : List Nat} (h : x ∈ l) : x < nextIteration s l := by
  induction l with
  | nil => simp at h
  | cons y l ih =>
    simp only [nextIteration, List.foldr_cons] at *
    rcases List.mem_cons.mp h with rfl | h
    · omega
    · have := ih h; omega

theorem start_le_nextIteration (s : Nat) (l : List Nat) : s ≤ nextIteration s l := by
  induction l with
  | nil => exact Nat.le_refl _
  | cons y l ih => simp only [nextIteration, List.foldr_cons] at *; omega

/-- A sorted list of unaccepted iterations above `n` is no longer than the number of outstanding ones. -/
theorem length_le_outstanding {acc : List Nat} {n : Nat} {l : List Nat} (hs : l.Pairwise (· < ·)) (h : ∀ x ∈ l, n < x ∧ x ∉ acc ∧ ∃ y ∈ acc, x < y) :
    l.length ≤ outstanding acc n := by
  unfold outstanding
  refine List.Nodup.length_le_of_subset (hs.imp (fun h => Nat.ne_of_lt h)) ?_
  intro x hx
  obtain ⟨h1, h2, y, hy, hxy⟩ := h x hx
  rw [List.mem_filter, List.mem_range]
  have := le_nextIteration (s := 0) hy
  exact ⟨by omega, by simp [h1, h2]⟩

/-- An element of a sorted list is among the last `N` if fewer than `N` are greater. -/
theorem mem_lastN_of {l : List SKChainKey} {x : SKChainKey} {N : Nat} (hx : x ∈ l)
    (hl : ∀ l1 l2, l = l1 ++ x :: l2 → l2.length < N) : x ∈ lastN N l := by
  obtain ⟨l1, l2, rfl⟩ := List.append_of_mem hx
  have := hl l1 l2 rfl
  unfold lastN
  rw [show (l1 ++ x :: l2).length - N = l1.length - (N - (l2.length + 1)) by simp; omega]
  rw [List.drop_append_of_le_length (by omega)]
  exact List.mem_append_right _ (by simp)

/-! ## The sender -/

/-- The sender's first state is on the chain that starts at `ck`. -/
structure GSender (C : Crypto) (w : GWorld) (k : Address × DistId) (cid : UInt32) (pk : PubKey) (ck : SKChainKey) (N : Nat) : Prop where
  state : ∃ st rest j, w.records k = some (st :: rest) ∧ j ≤ N ∧ st.chainId = cid ∧ st.chainKey = skIter C ck j ∧
    st.signingPublic = pk.bytes ∧ st.Own C

/-- What is known about a message sent. -/
structure GSent (C : Crypto) (dist : DistId) (cid : UInt32) (pk : PubKey) (ck : SKChainKey) (N : Nat) (m : SenderKeyMsg) (pt : Bytes) (n : Nat) : Prop where
  lt : n < N
  iteration : m.iteration = (skIter C ck n).iteration
  parses : newSenderKeyFromBytes m.serialized = .ok m
  distID : m.distID = dist
  chainID : m.chainID = cid
  version : m.version = 3
  signed : m.verifySignature C pk = .ok true
  opens : cbcDecrypt C ((skIter C ck n).messageKey C).cipherKey ((skIter C ck n).messageKey C).iv m.ciphertext = .ok pt

theorem GSent.mono {C : Crypto} {dist : DistId} {cid : UInt32} {pk : PubKey} {ck : SKChainKey} {N M : Nat} {m : SenderKeyMsg} {pt : Bytes} {n : Nat}
    (h : GSent C dist cid pk ck N m pt n) (hN : N ≤ M) : GSent C dist cid pk ck M m pt n :=
  { h with lt := Nat.lt_of_lt_of_le h.lt hN }

theorem skmk_len (C : Crypto) (c : SKChainKey) : (c.messageKey C).cipherKey.length = 32 ∧ (c.messageKey C).iv.length = 16 := by
  simp [SKChainKey.messageKey, deriveSKMessageKey, C.hkdf_len]

theorem newSenderKey_rand {C : Crypto} {v : UInt8} {d : DistId} {c i : UInt32} {ct : Bytes} {k : PrivKey} {r rd : Bytes} {m : SenderKeyMsg}
    (h : newSenderKey C v d c i ct k r = (.ok m, rd)) : 64 ≤ r.length := by
  by_cases hl : 64 ≤ r.length
  · exact hl
  · exfalso
    unfold newSenderKey PrivKey.sign at h
    simp only [M.bind_run] at h
    have : ∃ e r', readFull 64 r = (.err e, r') := ⟨_, _, by unfold readFull; rw [if_neg hl]⟩
    obtain ⟨e, r', h'⟩ := this
    simp [h'] at h

theorem cbcEncrypt_length {C : Crypto} {k iv p c : Bytes} (hk : k.length = 32) (hiv : iv.length = 16) (h : cbcEncrypt C k iv p = .ok c) :
    c.length = 16 * (p.length / 16 + 1) := by
  obtain ⟨c', h1, h2⟩ := cbcEncrypt_ok C k iv p (by simp [aesKeyOk, hk]) hiv
  rw [h] at h1
  simp only [Res.ok.injEq] at h1
  rw [h1]; exact h2

/-- Sending keeps the sender on the chain, and a message sent is the one for its place in the chain. -/
theorem GSender.send {C : Crypto} {al : Bool} {w : GWorld} {a : Address} {dist : DistId} {cid : UInt32} {pk : PubKey} {ck : SKChainKey} {N : Nat}
    (h : GSender C w (a, dist) cid pk ck N) (pt : Bytes) (hpt : pt.length < 2 ^ 63) :
    GSender C (groupEncrypt C al a dist pt w).2 (a, dist) cid pk ck (N + 1) ∧
    ∀ m, (groupEncrypt C al a dist pt w).1 = .ok m → ∃ n, GSent C dist cid pk ck (N + 1) m pt n := by
  obtain ⟨st, rest, j, hrec, hj, hcid, hck, hpk, hown⟩ := h.state
  have hkeep : GSender C w (a, dist) cid pk ck (N + 1) := ⟨st, rest, j, hrec, by omega, hcid, hck, hpk, hown⟩
  have hmove : ∀ records, records (a, dist) = some (st.setSenderChainKey (st.chainKey.next C) :: rest) → ∀ rd fs,
      GSender C { w with records := records, rand := rd, faults := fs } (a, dist) cid pk ck (N + 1) := by
    intro records hr rd fs
    refine ⟨_, rest, j + 1, hr, by omega, hcid, ?_, hpk, ?_⟩
    · simp only [GState.setSenderChainKey, hck]; rfl
    · intro hp
      obtain ⟨kp, h1, h2, h3, h4, h5⟩ := hown hp
      exact ⟨kp, h1, h2, h3, h4, next_seed_len _ _⟩
  have ho := groupEncrypt_outcome C al a dist pt w
  generalize groupEncrypt C al a dist pt w = x at ho ⊢
  obtain ⟨r, w'⟩ := x
  simp only at ho ⊢
  have hsame : ∀ {s rest' sk m rd}, GBuilt C w a dist pt s rest' sk m rd → s = st ∧ rest' = rest := by
    intro s rest' sk m rd hb
    have := hb.record
    rw [hrec] at this
    simp only [Option.some.injEq, List.cons.injEq] at this
    exact ⟨this.1.symm, this.2.symm⟩
  cases ho with
  | early r fs rd hr => exact ⟨⟨st, rest, j, hrec, by omega, hcid, hck, hpk, hown⟩, fun m hm => by subst hm; simp at hr⟩
  | stopped r fs hr s rest' sk m rd hb records hs =>
    obtain ⟨rfl, rfl⟩ := hsame hb
    refine ⟨?_, fun m hm => by subst hm; simp at hr⟩
    rcases hs with ⟨hs, _⟩ | ⟨hs, _⟩
    · rw [hs, gmid]
      split
      · exact hmove _ (upd_same ..) _ _
      · exact ⟨s, rest', j, hrec, by omega, hcid, hck, hpk, hown⟩
    · rw [hs]; exact hmove _ (upd_same ..) _ _
  | done fs s rest' sk m rd hb =>
    obtain ⟨rfl, rfl⟩ := hsame hb
    refine ⟨hmove _ (upd_same ..) _ _, fun m' hm' => ⟨j, ?_⟩⟩
    simp only [Res.ok.injEq] at hm'
    subst hm'
    obtain ⟨kp, h1, h2, h3, h4, h5⟩ := hown (privateSigningKey_ne hb.key)
    have hsk : sk = kp.priv := by
      have := hb.key
      rw [GState.privateSigningKey, h2, newPrivateKey_bytes] at this
      simp only [Res.ok.injEq] at this
      exact this.symm
    subst hsk
    obtain ⟨ct, hct, hm⟩ := hb.built
    have hv : s.version.toUInt8 = 3 := by simp only [GState.version, h4]; decide
    rw [hv] at hm
    have hl := cbcEncrypt_length (skmk_len C _).1 (skmk_len C _).2 hct
    obtain ⟨m', hm', hp, e1, e2, e3, e4, e5, e6⟩ := senderKey_round_trip C dist s.chainId s.chainKey.iteration ct (by omega) kp.priv w.rand (newSenderKey_rand hm)
    rw [hm] at hm'
    simp only [Prod.mk.injEq, Res.ok.injEq] at hm'
    obtain ⟨rfl, _⟩ := hm'
    have hpk' : kp.priv.pub C = pk := by
      rw [← show kp.pub = kp.priv.pub C from h1]
      exact PubKey.bytes_inj (h3.symm.trans hpk)
    rw [hpk'] at e6
    exact ⟨by omega, by rw [e4, hck], hp, e2, e3.trans hcid, e1, e6, by rw [e5, ← hck]; exact cbcDecrypt_cbcEncrypt C _ _ _ _ hct⟩

/-! ## The receiver -/

/-- The stored form of the `i`-th message key. -/
def skStored (C : Crypto) (ck : SKChainKey) (i : Nat) : SKChainKey := ((skIter C ck i).messageKey C).stored

theorem skStored_iteration (C : Crypto) (ck : SKChainKey) (i : Nat) (h : ck.iteration.toNat + i < 2 ^ 32) :
    (skStored C ck i).iteration.toNat = ck.iteration.toNat + i := skIter_toNat C ck i h

/-- The receiver's state is on the chain that starts at `ck`, `p` steps on; the key of message `t` has not been lost. -/
structure GReceiverSt (C : Crypto) (ck : SKChainKey) (acc : List Nat) (t N : Nat) (st : GState) (p : Nat) : Prop where
  chain : st.chainKey = skIter C ck p
  le : p ≤ N
  sorted : st.messageKeys.Pairwise fun k l => k.iteration.toNat < l.iteration.toNat
  keys : ∀ k ∈ st.messageKeys, ∃ i, i < p ∧ k = skStored C ck i ∧ ck.iteration.toNat + i ∉ acc
  accepted : ∀ x ∈ acc, ∃ i, i < p ∧ x = ck.iteration.toNat + i
  newest : p = 0 ∨ ck.iteration.toNat + (p - 1) ∈ acc
  kept : t < p → ck.iteration.toNat + t ∉ acc → skStored C ck t ∈ st.messageKeys

theorem skSkipped_eq (C : Crypto) (ck : SKChainKey) (p d : Nat) :
    skSkipped C (skIter C ck p) d = (List.range d).map fun i => skStored C ck (p + i) := by
  unfold skSkipped skStored
  simp only [skIter_add]

theorem GReceiverSt.take {C : Crypto} {ck : SKChainKey} {acc : List Nat} {t N : Nat} {st s' : GState} {p : Nat} (hN : ck.iteration.toNat + N < 2 ^ 32)
    (h : GReceiverSt C ck acc t N st p) {n : Nat} (hn : n < N) {m : UInt32} (hm : m = (skIter C ck n).iteration) {mk : SKMessageKey} (ht : GTaken C st m mk s')
    (hout : t < N → outstanding ((ck.iteration.toNat + n) :: acc) (ck.iteration.toNat + t) < 2000) :
    mk = (skIter C ck n).messageKey C ∧ ∃ p', GReceiverSt C ck ((ck.iteration.toNat + n) :: acc) t N s' p' := by
  have hmn : m.toNat = ck.iteration.toNat + n := by rw [hm]; exact skIter_toNat C ck n (by omega)
  cases ht with
  | stored hlt k hk =>
    have hkm := List.mem_of_find?_eq_some hk
    obtain ⟨i, hi, rfl, hna⟩ := h.keys k hkm
    have hki := List.find?_some hk
    simp only [decide_eq_true_eq] at hki
    have hle := h.le
    have e1 := skStored_iteration C ck i (by omega)
    rw [hki, hmn] at e1
    have hin : i = n := by omega
    subst hin
    refine ⟨rfl, p, ?_⟩
    have hne := eraseP_iteration (h.sorted.imp (fun {a b} hab he => by rw [he] at hab; omega)) m
    refine ⟨h.chain, h.le, h.sorted.sublist List.eraseP_sublist, fun k hke => ?_, fun x hx => ?_, ?_, fun htp hta => ?_⟩
    · obtain ⟨j, hj, rfl, hja⟩ := h.keys k (List.mem_of_mem_eraseP hke)
      refine ⟨j, hj, rfl, ?_⟩
      intro hmem
      rcases List.mem_cons.mp hmem with he | hmem
      · have : j = i := by omega
        subst this
        exact hne _ hke hm.symm
      · exact hja hmem
    · rcases List.mem_cons.mp hx with rfl | hx
      · exact ⟨i, hi, rfl⟩
      · exact h.accepted x hx
    · rcases h.newest with h0 | h0
      · exact .inl h0
      · exact .inr (List.mem_cons_of_mem _ h0)
    · have h1 : skStored C ck t ∈ st.messageKeys := h.kept htp (fun hx => hta (List.mem_cons_of_mem _ hx))
      refine (List.mem_eraseP_of_neg ?_).mpr h1
      simp only [decide_eq_true_eq]
      intro he
      have e2 := skStored_iteration C ck t (by omega)
      rw [he, hmn] at e2
      exact hta (by rw [← e2]; simp)
  | ahead d hd hj =>
    have hle := h.le
    have hp : st.chainKey.iteration.toNat = ck.iteration.toNat + p := by rw [h.chain]; exact skIter_toNat C ck p (by omega)
    have hnp : p + d = n := by omega
    subst hnp
    simp only [h.chain, skIter_add, skSkipped_eq]
    refine ⟨trivial, p + d + 1, ?_⟩
    -- the keys before the oldest are dropped
    have hall : ∀ k ∈ st.messageKeys ++ (List.range d).map (fun i => skStored C ck (p + i)), ∃ i, i < p + d ∧ k = skStored C ck i ∧
        ck.iteration.toNat + i ∉ acc := by
      intro k hk
      rcases List.mem_append.mp hk with hk | hk
      · obtain ⟨i, h1, h2, h3⟩ := h.keys k hk
        exact ⟨i, by omega, h2, h3⟩
      · simp only [List.mem_map, List.mem_range] at hk
        obtain ⟨i, hi, rfl⟩ := hk
        refine ⟨p + i, by omega, rfl, fun hx => ?_⟩
        obtain ⟨i', h1, h2⟩ := h.accepted _ hx
        omega
    have hsorted : (st.messageKeys ++ (List.range d).map (fun i => skStored C ck (p + i))).Pairwise fun k l => k.iteration.toNat < l.iteration.toNat := by
      rw [List.pairwise_append]
      refine ⟨h.sorted, ?_, fun k hk l hl => ?_⟩
      · rw [List.pairwise_map]
        refine List.Pairwise.imp_of_mem ?_ (List.pairwise_lt_range (n := d))
        intro i j hi hj hij
        rw [List.mem_range] at hi hj
        rw [skStored_iteration _ _ _ (by omega), skStored_iteration _ _ _ (by omega)]
        omega
      · obtain ⟨i, h1, rfl, _⟩ := h.keys k hk
        simp only [List.mem_map, List.mem_range] at hl
        obtain ⟨j, hj, rfl⟩ := hl
        rw [skStored_iteration _ _ _ (by omega), skStored_iteration _ _ _ (by omega)]
        omega
    refine ⟨rfl, by omega, hsorted.sublist (lastN_sublist _ _), fun k hk => ?_, fun x hx => ?_, .inr ?_, fun htp hta => ?_⟩
    · obtain ⟨i, h1, h2, h3⟩ := hall k ((lastN_sublist _ _).subset hk)
      refine ⟨i, by omega, h2, fun hx => ?_⟩
      rcases List.mem_cons.mp hx with he | hx
      · omega
      · exact h3 hx
    · rcases List.mem_cons.mp hx with rfl | hx
      · exact ⟨p + d, by omega, rfl⟩
      · obtain ⟨i, h1, h2⟩ := h.accepted x hx
        exact ⟨i, by omega, h2⟩
    · simp
    · have htn : t ≠ p + d := by
        rintro rfl
        exact hta (by simp)
      have hmem : skStored C ck t ∈ st.messageKeys ++ (List.range d).map (fun i => skStored C ck (p + i)) := by
        by_cases htp' : t < p
        · exact List.mem_append_left _ (h.kept htp' (fun hx => hta (List.mem_cons_of_mem _ hx)))
        · refine List.mem_append_right _ (List.mem_map.mpr ⟨t - p, List.mem_range.mpr (by omega), ?_⟩)
          rw [show p + (t - p) = t by omega]
      refine mem_lastN_of hmem (fun l1 l2 hl => ?_)
      unfold maxMessageKeys
      have hs2 : (skStored C ck t :: l2).Pairwise fun k l => k.iteration.toNat < l.iteration.toNat := by
        have := hsorted
        rw [hl] at this
        exact (List.pairwise_append.mp this).2.1
      rw [List.pairwise_cons] at hs2
      have : (l2.map fun k => k.iteration.toNat).length ≤ outstanding ((ck.iteration.toNat + (p + d)) :: acc) (ck.iteration.toNat + t) := by
        refine length_le_outstanding (List.pairwise_map.mpr hs2.2) ?_
        intro x hx
        simp only [List.mem_map] at hx
        obtain ⟨k, hk, rfl⟩ := hx
        obtain ⟨i, h1, rfl, h3⟩ := hall k (by rw [hl]; exact List.mem_append_right _ (List.mem_cons_of_mem _ hk))
        have hlt := hs2.1 _ hk
        rw [skStored_iteration _ _ _ (by omega), skStored_iteration _ _ _ (by omega)] at hlt
        rw [skStored_iteration _ _ _ (by omega)]
        refine ⟨by omega, fun hx => ?_, ck.iteration.toNat + (p + d), by simp, by omega⟩
        rcases List.mem_cons.mp hx with he | hx
        · omega
        · exact h3 hx
      rw [List.length_map] at this
      have := hout (by omega)
      omega

/-- The receiver's record has such a state. -/
def GReceiver (C : Crypto) (w : GWorld) (k : Address × DistId) (cid : UInt32) (pk : PubKey) (ck : SKChainKey) (acc : List Nat) (t N : Nat) : Prop :=
  ∃ g st p, w.records k = some g ∧ g.WF ∧ g.Holds cid pk st ∧ st.messageVersion = 3 ∧ GReceiverSt C ck acc t N st p

theorem GReceiver.deliver {C : Crypto} {al : Bool} {w : GWorld} {a : Address} {dist : DistId} {cid : UInt32} {pk : PubKey} {ck : SKChainKey} {acc : List Nat}
    {t N : Nat} (hN : ck.iteration.toNat + N < 2 ^ 32) (h : GReceiver C w (a, dist) cid pk ck acc t N) {m : SenderKeyMsg} {pt : Bytes} {n : Nat}
    (hm : GSent C dist cid pk ck N m pt n) (hf : w.faults = []) :
    ((groupDecrypt C al a m w).1 = .ok pt ∧ ((t < N → outstanding ((ck.iteration.toNat + n) :: acc) (ck.iteration.toNat + t) < 2000) →
      GReceiver C (groupDecrypt C al a m w).2 (a, dist) cid pk ck ((ck.iteration.toNat + n) :: acc) t N)) ∨
    (∃ e, groupDecrypt C al a m w = (.err e, w) ∧ (n = t → ck.iteration.toNat + n ∈ acc ∨ nextIteration ck.iteration.toNat acc + 25000 < ck.iteration.toNat + n)) := by
  obtain ⟨g, st, p, hrec, hwf, hst, hver, hr⟩ := h
  have hsw := hwf.states st hst.1
  have hkey : st.publicSigningKey = .ok pk := by
    obtain ⟨k', hk', hpk⟩ := hsw.publicKey
    rw [hpk, PubKey.bytes_inj (hk'.symm.trans hst.2.2)]
  have hfind : g.stateForChainID m.chainID = some st := by rw [hm.chainID, ← hst.2.1]; exact hwf.stateForChainID hst.1
  have hv : m.version.toUInt32 = st.version := by simp only [hm.version, GState.version, hver]; decide
  have hrun := groupDecrypt_run C al a m w hf g st pk (by rw [hm.distID]; exact hrec) hfind hv hkey hm.signed
  have hcase := groupMessageKey_cases C st hsw.keys m.iteration
  have hmn : m.iteration.toNat = ck.iteration.toNat + n := by rw [hm.iteration]; exact skIter_toNat C ck n (by have := hm.lt; omega)
  have hp : st.chainKey.iteration.toNat = ck.iteration.toNat + p := by rw [hr.chain]; exact skIter_toNat C ck p (by have := hr.le; omega)
  generalize groupMessageKey C st m.iteration = x at hcase hrun
  cases hcase with
  | taken mk s' ht =>
    have hmk : mk = (skIter C ck n).messageKey C := by
      cases ht with
      | stored hlt k hk =>
        obtain ⟨i, hi, rfl, hna⟩ := hr.keys k (List.mem_of_find?_eq_some hk)
        have hki := List.find?_some hk
        simp only [decide_eq_true_eq] at hki
        have e1 := skStored_iteration C ck i (by have := hr.le; omega)
        rw [hki, hmn] at e1
        have hin : i = n := by omega
        subst hin
        rfl
      | ahead d hd hj =>
        have hnp : p + d = n := by omega
        subst hnp
        rw [hr.chain, skIter_add]
    have hres := hrun.2 mk s' pt rfl (by rw [hmk]; exact hm.opens)
    refine .inl ⟨by rw [hres], fun hout => ?_⟩
    obtain ⟨_, p', hr'⟩ := hr.take hN hm.lt hm.iteration ht hout
    rw [hres]
    have hc := ht.chainId
    refine ⟨_, s', p', by rw [hm.distID]; exact upd_same .., ?_, ⟨?_, hc.1.trans hst.2.1, hc.2.1.trans hst.2.2⟩, hc.2.2.2.trans hver, hr'⟩
    · rw [hm.chainID, ← hst.2.1]
      exact hwf.setState hst.1 hc.1 (ht.WF hsw)
    · rw [hm.chainID, ← hst.2.1]
      exact (hwf.mem_setState hst.1 hc.1 s').mpr (.inl rfl)
  | duplicate hlt hno =>
    refine .inr ⟨_, hrun.1 _ rfl, ?_⟩
    rintro rfl
    by_cases hx : ck.iteration.toNat + n ∈ acc
    · exact .inl hx
    · exfalso
      have := hr.kept (by omega) hx
      exact hno _ this hm.iteration.symm
  | far hfar =>
    refine .inr ⟨_, hrun.1 _ rfl, fun _ => .inr ?_⟩
    have : nextIteration ck.iteration.toNat acc ≤ ck.iteration.toNat + p := by
      refine nextIteration_le (by omega) (fun x hx => ?_)
      obtain ⟨i, h1, h2⟩ := hr.accepted x hx
      omega
    omega

/-- Messages that are not signed with the sender's key do not matter. -/
theorem GReceiver.foreign {C : Crypto} {al : Bool} {w : GWorld} {a : Address} {dist : DistId} {cid : UInt32} {pk : PubKey} {ck : SKChainKey} {acc : List Nat}
    {t N : Nat} (h : GReceiver C w (a, dist) cid pk ck acc t N) (m : SenderKeyMsg)
    (hm : m.distID = dist → m.chainID = cid → m.verifySignature C pk ≠ .ok true) (fs : List Fault) :
    GReceiver C (groupDecrypt C al a m { w with faults := fs }).2 (a, dist) cid pk ck acc t N := by
  obtain ⟨g, st, p, hrec, hwf, hst, hver, hr⟩ := h
  have hkeep : ∀ {g0 s k mk s'}, GAccepted C { w with faults := fs } a m g0 s k mk s' →
      GReceiver C { w with records := upd w.records (a, m.distID) (some (g0.setStateForChainID m.chainID s')) } (a, dist) cid pk ck acc t N := by
    intro g0 s k mk s' hac
    by_cases hd : m.distID = dist
    · have hr0 := hac.record
      simp only [hd, hrec, Option.some.injEq] at hr0
      subst hr0
      obtain ⟨hs1, hs2⟩ := GRecord.stateForChainID_some hac.state
      have hsw := hwf.states s hs1
      have htk := hac.gtaken hsw
      have hne : st.chainId ≠ s.chainId := by
        intro he
        have := hwf.holds_unique hst.1 hs1 he
        subst this
        obtain ⟨k', hk', hpk⟩ := hsw.publicKey
        have hk2 := hac.key
        rw [hpk, PubKey.bytes_inj (hk'.symm.trans hst.2.2)] at hk2
        simp only [Res.ok.injEq] at hk2
        exact hm hd (hs2.symm.trans hst.2.1) (hk2 ▸ hac.signed)
      refine ⟨_, st, p, by rw [hd]; exact upd_same .., ?_, ⟨?_, hst.2⟩, hver, hr⟩
      · rw [← hs2]; exact hwf.setState hs1 htk.chainId.1 (htk.WF hsw)
      · rw [← hs2]; exact (hwf.mem_setState hs1 htk.chainId.1 st).mpr (.inr ⟨hst.1, hne⟩)
    · refine ⟨g, st, p, ?_, hwf, hst, hver, hr⟩
      rw [← hrec]
      exact upd_ne _ _ (fun he => hd (Prod.mk.inj he).2.symm)
  have ho := groupDecrypt_outcome C al a m { w with faults := fs }
  generalize groupDecrypt C al a m { w with faults := fs } = x at ho ⊢
  obtain ⟨r, w'⟩ := x
  simp only at ho ⊢
  cases ho with
  | early r fs hr0 => exact ⟨g, st, p, hrec, hwf, hst, hver, hr⟩
  | stopped r fs hr0 g0 s k mk s' hac records hs =>
    have := hkeep hac
    rcases hs with hs | ⟨hs, _⟩
    · rw [hs, gmid]
      split
      · exact this
      · exact ⟨g, st, p, hrec, hwf, hst, hver, hr⟩
    · rw [hs]; exact this
  | done fs g0 s k mk s' q hac hq => exact hkeep hac

/-! ## The system -/

/-- The invariant of a sender and a receiver; `M` messages may have been sent. -/
structure GSysInv (P : GPair) (cid : UInt32) (pk : PubKey) (ck : SKChainKey) (t N M : Nat) (s : GSys) : Prop where
  sender : GSender P.C s.sender (P.address, P.dist) cid pk ck M
  sent : ∀ x ∈ s.sent, ∃ n, GSent P.C P.dist cid pk ck N x.1 x.2 n
  receiver : GReceiver P.C s.receiver (P.address, P.dist) cid pk ck s.accepted t N

theorem GPair.receive_eq {P : GPair} {m : SenderKeyMsg} (h : newSenderKeyFromBytes m.serialized = .ok m) (w : GWorld) :
    P.receive m.serialized w = groupDecrypt P.C P.receiverAliased P.address m { w with faults := [] } := by
  unfold GPair.receive; rw [h]

theorem GSysInv.step {P : GPair} {cid : UInt32} {pk : PubKey} {ck : SKChainKey} {t N M : Nat} {s : GSys} (hN : ck.iteration.toNat + N < 2 ^ 32)
    (h : GSysInv P cid pk ck t N M s) (e : GEvent) (he : e.Ok P cid pk) (hM : M + sends [e] ≤ N)
    (hout : t < N → outstanding (P.step s e).accepted (ck.iteration.toNat + t) < 2000) : GSysInv P cid pk ck t N (M + sends [e]) (P.step s e) := by
  cases e with
  | send pt rand faults =>
    have hs1 : sends [GEvent.send pt rand faults] = 1 := rfl
    rw [hs1] at hM ⊢
    have hs0 : GSender P.C { s.sender with rand := rand, faults := faults } (P.address, P.dist) cid pk ck M := ⟨h.sender.state⟩
    have := hs0.send (al := P.senderAliased) pt he
    simp only [GPair.step]
    generalize groupEncrypt P.C P.senderAliased P.address P.dist pt _ = x at this ⊢
    obtain ⟨r, w'⟩ := x
    cases r with
    | ok m =>
      refine ⟨this.1, fun x hx => ?_, h.receiver⟩
      rcases List.mem_append.mp hx with hx | hx
      · exact h.sent x hx
      · rw [List.mem_singleton] at hx
        subst hx
        obtain ⟨n, hn⟩ := this.2 m rfl
        exact ⟨n, hn.mono (by omega)⟩
    | err e => exact ⟨this.1, h.sent, h.receiver⟩
    | panic => exact ⟨this.1, h.sent, h.receiver⟩
  | deliver i =>
    have hs1 : sends [GEvent.deliver i] = 0 := rfl
    rw [hs1] at hM ⊢
    simp only [GPair.step] at hout ⊢
    cases hi : s.sent[i]? with
    | none => exact h
    | some x =>
      obtain ⟨m, pt⟩ := x
      obtain ⟨n, hn⟩ := h.sent _ (List.mem_of_getElem? hi)
      simp only at hn
      rw [hi] at hout
      simp only [GPair.receive_eq hn.parses] at hout ⊢
      have hmn : m.iteration.toNat = ck.iteration.toNat + n := by rw [hn.iteration]; exact skIter_toNat P.C ck n (by have := hn.lt; omega)
      have hr0 : GReceiver P.C { s.receiver with faults := [] } (P.address, P.dist) cid pk ck s.accepted t N := h.receiver
      rcases hr0.deliver (al := P.receiverAliased) hN hn rfl with ⟨hok, hr⟩ | ⟨e, her, _⟩
      · generalize groupDecrypt P.C P.receiverAliased P.address m _ = x at hok hr hout ⊢
        obtain ⟨r, w'⟩ := x
        simp only at hok
        subst hok
        simp only at hout hr ⊢
        rw [hmn] at hout ⊢
        exact ⟨h.sender, h.sent, hr hout⟩
      · rw [her]
        exact ⟨h.sender, h.sent, hr0⟩
  | foreign m faults =>
    have hs1 : sends [GEvent.foreign m faults] = 0 := rfl
    rw [hs1] at hM ⊢
    exact ⟨h.sender, h.sent, h.receiver.foreign m he faults⟩
  | senderCall c =>
    have hs1 : sends [GEvent.senderCall c] = 0 := rfl
    rw [hs1] at hM ⊢
    simp only [GPair.step]
    split
    · exact h
    · rename_i hk
      refine ⟨?_, h.sent, h.receiver⟩
      rcases gcall_changed ⟨P.C, P.senderAliased⟩ c s.sender (P.address, P.dist) with he | ⟨g', hk', _⟩
      · obtain ⟨st, rest, j, h1, h2⟩ := h.sender.state
        exact ⟨st, rest, j, he.trans h1, h2⟩
      · exact absurd hk' hk
  | receiverCall c =>
    have hs1 : sends [GEvent.receiverCall c] = 0 := rfl
    rw [hs1] at hM ⊢
    simp only [GPair.step]
    split
    · exact h
    · rename_i hk
      refine ⟨h.sender, h.sent, ?_⟩
      rcases gcall_changed ⟨P.C, P.receiverAliased⟩ c s.receiver (P.address, P.dist) with he | ⟨g', hk', _⟩
      · obtain ⟨g, st, p, h1, h2⟩ := h.receiver
        exact ⟨g, st, p, he.trans h1, h2⟩
      · exact absurd hk' hk

theorem sends_cons (e : GEvent) (es : List GEvent) : sends (e :: es) = sends [e] + sends es := by
  unfold sends
  rw [List.countP_cons, List.countP_cons]
  simp; omega

theorem GSysInv.run {P : GPair} {cid : UInt32} {pk : PubKey} {ck : SKChainKey} {t N : Nat} (hN : ck.iteration.toNat + N < 2 ^ 32)
    (es : List GEvent) {M : Nat} {s : GSys} (h : GSysInv P cid pk ck t N M s) (he : ∀ e ∈ es, e.Ok P cid pk) (hM : M + sends es ≤ N)
    (hout : t < N → ∀ n, outstanding (P.run s (es.take n)).accepted (ck.iteration.toNat + t) < 2000) :
    GSysInv P cid pk ck t N (M + sends es) (P.run s es) := by
  induction es generalizing s M with
  | nil => exact h
  | cons e es ih =>
    rw [sends_cons] at hM ⊢
    rw [← Nat.add_assoc]
    refine ih (h.step hN e (he e (by simp)) (by omega) (fun ht => hout ht 1)) (fun e' he' => he e' (by simp [he'])) (by omega) (fun ht n => ?_)
    have := hout ht (n + 1)
    rwa [List.take_succ_cons] at this

/-- A user without the private signing key sends nothing. -/
theorem keyless_sends_nothing {P : GPair} (es : List GEvent) (s : GSys) (h : ∃ st rest, s.sender.records (P.address, P.dist) = some (st :: rest) ∧ st.signingPrivate = [])
    (h0 : s.sent = []) : (P.run s es).sent = [] := by
  induction es generalizing s with
  | nil => exact h0
  | cons e es ih =>
    obtain ⟨st, rest, hrec, hp⟩ := h
    cases e with
    | send pt rand faults =>
      refine ih _ ?_ ?_
      all_goals
        simp only [GPair.step]
        have ho := groupEncrypt_outcome P.C P.senderAliased P.address P.dist pt { s.sender with rand := rand, faults := faults }
        generalize groupEncrypt P.C P.senderAliased P.address P.dist pt _ = x at ho ⊢
        obtain ⟨r, w'⟩ := x
        simp only at ho
        have hno : ∀ {s' rest' sk m rd}, ¬ GBuilt P.C { s.sender with rand := rand, faults := faults } P.address P.dist pt s' rest' sk m rd := by
          intro s' rest' sk m rd hb
          have := hb.record
          simp only [hrec, Option.some.injEq, List.cons.injEq] at this
          rw [this.1] at hp
          exact privateSigningKey_ne hb.key hp
        cases ho with
        | early r fs rd hr => cases r <;> first | exact ⟨st, rest, hrec, hp⟩ | exact h0 | simp at hr
        | stopped r fs hr s' rest' sk m rd hb => exact absurd hb hno
        | done fs s' rest' sk m rd hb => exact absurd hb hno
    | deliver i =>
      have : P.step s (.deliver i) = s := by simp [GPair.step, h0]
      show (P.run (P.step s (.deliver i)) es).sent = []
      rw [this]
      exact ih s ⟨st, rest, hrec, hp⟩ h0
    | foreign m faults => exact ih _ ⟨st, rest, hrec, hp⟩ h0
    | senderCall c =>
      refine ih _ ?_ ?_
      · simp only [GPair.step]
        split
        · exact ⟨st, rest, hrec, hp⟩
        · rename_i hk
          rcases gcall_changed ⟨P.C, P.senderAliased⟩ c s.sender (P.address, P.dist) with he | ⟨g', hk', _⟩
          · exact ⟨st, rest, he.trans hrec, hp⟩
          · exact absurd hk' hk
      · simp only [GPair.step]
        split <;> exact h0
    | receiverCall c =>
      refine ih _ ?_ ?_
      · simp only [GPair.step]
        split <;> exact ⟨st, rest, hrec, hp⟩
      · simp only [GPair.step]
        split <;> exact h0

end Verif
