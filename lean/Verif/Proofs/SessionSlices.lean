import Verif.Model.SessionHeap
import Verif.Proofs.GroupHidden

/-!
Session states whose chains and message keys are in slices: each method shows what the method on lists gives.
-/

namespace Verif

namespace PtrSlice
variable {α : Type}

theorem ofList_lays (grow : Nat → Nat) (l : List α) : (ofList grow l).Lays [] l (List.replicate (grow l.length) none) := ⟨by simp [ofList], rfl, rfl⟩

theorem ofList_live (grow : Nat → Nat) (l : List α) : (ofList grow l).live = l := (ofList_lays grow l).shows.live

theorem ofList_clean (grow : Nat → Nat) (l : List α) : (ofList grow l).Clean :=
  ⟨_, _, _, ofList_lays grow l, (fun x hx => by cases hx), fun _ hx => (List.mem_replicate.mp hx).2⟩

theorem make_lays (n : Nat) : (make n : PtrSlice α).Lays [] [] (List.replicate n none) := ⟨by simp [make], rfl, rfl⟩

theorem make_clean (n : Nat) : (make n : PtrSlice α).Clean :=
  ⟨_, _, _, make_lays n, (fun x hx => by cases hx), fun _ hx => (List.mem_replicate.mp hx).2⟩

theorem empty_clean : ({} : PtrSlice α).Clean := ⟨[], [], [], ⟨rfl, rfl, rfl⟩, (fun x hx => by cases hx), fun x hx => by cases hx⟩

theorem Clean.shows {s : PtrSlice α} (h : s.Clean) : s.Shows s.live := by
  obtain ⟨_, _, _, hl, _, _⟩ := h
  rw [hl.shows.live]
  exact hl.shows

theorem Shows.self {s : PtrSlice α} {l : List α} (h : s.Shows l) : s.Shows s.live := by
  rw [h.live]
  exact h

theorem Lays.setAt {s : PtrSlice α} {pre post : List (Option α)} {l : List α} (h : s.Lays pre l post) {i : Nat} (hi : i < l.length) (x : α) :
    ∃ s', s.setAt i x = .ok s' ∧ s'.Lays pre (l.set i x) post := by
  refine ⟨{ s with array := s.array.set (s.off + i) (some x) }, by unfold PtrSlice.setAt; rw [if_pos (by rw [h.len]; exact hi)], ?_, h.off, by simp [h.len]⟩
  simp only
  rw [h.array, h.off, List.set_append_right _ _ (by omega), List.set_append_left _ _ (by simp; omega), List.map_set]
  congr 3
  omega

theorem Shows.setAt {s : PtrSlice α} {l : List α} (h : s.Shows l) {i : Nat} (hi : i < l.length) (x : α) : ∃ s', s.setAt i x = .ok s' ∧ s'.Shows (l.set i x) := by
  obtain ⟨s', e1, e2⟩ := h.lays.setAt hi x
  exact ⟨s', e1, e2.shows⟩

theorem Clean.setAt {s s' : PtrSlice α} (h : s.Clean) {i : Nat} {x : α} (e : s.setAt i x = .ok s') : s'.Clean ∧ s'.live = s.live.set i x := by
  obtain ⟨pre, l, post, hl, h1, h2⟩ := h
  have hi : i < l.length := by
    unfold PtrSlice.setAt at e
    split at e
    · next hi => rw [hl.len] at hi; exact hi
    · cases e
  obtain ⟨s2, e1, e2⟩ := hl.setAt hi x
  rw [e] at e1
  cases e1
  exact ⟨⟨_, _, _, e2, h1, h2⟩, by rw [e2.shows.live, hl.shows.live]⟩

theorem Clean.append_live {s : PtrSlice α} (h : s.Clean) (grow : Nat → Nat) (x : α) : (s.append grow [some x]).live = s.live ++ [x] :=
  (h.shows.append grow x).live

/-- `append`, then `s[0] = nil; s = s[1:]` when there are too many. -/
theorem Clean.push {s : PtrSlice α} (h : s.Clean) (grow : Nat → Nat) (x : α) (n : Nat) :
    ∃ s', (if (s.append grow [some x]).len > n then (s.append grow [some x]).setNil 0 >>= PtrSlice.tail else .ok (s.append grow [some x])) = .ok s' ∧ s'.Clean ∧
      s'.live = if (s.live ++ [x]).length > n then (s.live ++ [x]).drop 1 else s.live ++ [x] := by
  have hc := h.append grow x
  have hs := h.shows.append grow x
  rw [hs.length]
  split
  · next hn =>
    obtain ⟨s', e1, e2⟩ := hs.dropFirst (by rw [hs.length]; simp)
    refine ⟨s', e1, ?_, e2.live⟩
    cases e3 : (s.append grow [some x]).setNil 0 with
    | ok s1 =>
      rw [e3] at e1
      exact hc.dropFirst e3 e1
    | err e => rw [e3] at e1; cases e1
    | panic => rw [e3] at e1; cases e1
  · exact ⟨_, rfl, hc, hs.live⟩

/-- The same without cleanness. -/
theorem Shows.push {s : PtrSlice α} {l : List α} (h : s.Shows l) (grow : Nat → Nat) (x : α) (n : Nat) :
    ∃ s', (if (s.append grow [some x]).len > n then (s.append grow [some x]).setNil 0 >>= PtrSlice.tail else .ok (s.append grow [some x])) = .ok s' ∧
      s'.Shows (if (l ++ [x]).length > n then (l ++ [x]).drop 1 else l ++ [x]) := by
  have hs := h.append grow x
  rw [hs.length]
  split
  · next hn => exact hs.dropFirst (by rw [hs.length]; simp)
  · exact ⟨_, rfl, hs⟩

end PtrSlice

/-! ## The loop of `MessageKeys` -/

theorem filterKeys_lays (grow : Nat → Nat) (n : UInt32) : ∀ (rest f : List PBMessageKey) (pre mid post : List (Option PBMessageKey)) (s : PtrSlice PBMessageKey) (found : Option PBMessageKey),
    s.array = pre ++ (f.map some ++ (mid ++ (rest.map some ++ post))) → s.off = pre.length → s.len = f.length →
    ∃ s' mid', SCell.filterKeys grow n rest.length (f.length + mid.length) s found =
        (s', match (rest.filter fun k => k.index = n).getLast? with | none => found | some k => some k) ∧
      s'.Lays pre (f ++ rest.filter fun k => k.index ≠ n) (mid' ++ post) ∧ mid'.length = mid.length + (rest.filter fun k => k.index = n).length := by
  intro rest
  induction rest with
  | nil =>
    intro f pre mid post s found h1 h2 h3
    refine ⟨s, mid, rfl, ⟨?_, h2, by simpa using h3⟩, by simp⟩
    rw [h1]
    simp
  | cons k rest ih =>
    intro f pre mid post s found h1 h2 h3
    have hkey : (s.array[s.off + (f.length + mid.length)]?).join = some k := by
      have e1 : s.array = (pre ++ (f.map some ++ mid)) ++ some k :: (rest.map some ++ post) := by rw [h1]; simp
      have e2 : s.off + (f.length + mid.length) = (pre ++ (f.map some ++ mid)).length := by rw [h2]; simp
      rw [e2, e1, List.getElem?_append_right (Nat.le_refl _)]
      simp
    rw [List.length_cons]
    unfold SCell.filterKeys
    simp only [hkey, Option.getD_some]
    by_cases hk : k.index = n
    · rw [if_pos hk]
      obtain ⟨s', mid', e1, e2, e3⟩ := ih f pre (mid ++ [some k]) post s (some k) (by rw [h1]; simp) h2 h3
      rw [List.length_append] at e1
      refine ⟨s', mid', ?_, ?_, ?_⟩
      · show SCell.filterKeys grow n rest.length (f.length + mid.length + 1) s (some k) = _
        rw [Nat.add_assoc]
        refine e1.trans ?_
        congr 1
        rw [List.filter_cons_of_pos (by simpa using hk), List.getLast?_cons]
        cases (rest.filter fun k => k.index = n).getLast? <;> rfl
      · rw [List.filter_cons_of_neg (by simpa using hk)]
        exact e2
      · rw [e3, List.filter_cons_of_pos (by simpa using hk)]
        simp
        omega
    · rw [if_neg hk]
      have hpos : f.length + mid.length + 1 = (f ++ [k]).length + mid.length := by simp; omega
      have key : ∃ mid2, mid2.length = mid.length ∧ (s.append grow [some k]).Lays pre (f ++ [k]) (mid2 ++ (rest.map some ++ post)) := by
        cases mid with
        | nil =>
          have hl : s.Lays pre f (some k :: (rest.map some ++ post)) := ⟨by rw [h1]; simp, h2, h3⟩
          exact ⟨[], rfl, hl.append_in grow k⟩
        | cons y mid =>
          have hl : s.Lays pre f (y :: (mid ++ some k :: (rest.map some ++ post))) := ⟨by rw [h1]; simp, h2, h3⟩
          refine ⟨mid ++ [some k], by simp, ?_⟩
          have := hl.append_in grow k
          simpa using this
      obtain ⟨mid2, hm, hl⟩ := key
      obtain ⟨s', mid', e1, e2, e3⟩ := ih (f ++ [k]) pre mid2 post (s.append grow [some k]) found hl.array hl.off hl.len
      rw [hm, ← hpos] at e1
      refine ⟨s', mid', ?_, ?_, ?_⟩
      · rw [List.filter_cons_of_neg (by simpa using hk)]
        exact e1
      · rw [List.filter_cons_of_pos (by simpa using hk)]
        simpa using e2
      · rw [e3, hm, List.filter_cons_of_neg (by simpa using hk)]

/-! ## States -/

/-- The slices of a state show lists; the slice of chains hides nothing. -/
structure SCell.Ok (c : SCell) : Prop where
  chains : c.chains.Clean
  keys : ∀ d ∈ c.chains.live, d.keys.Shows d.keys.live

theorem ChainCell.fresh_value (grow : Nat → Nat) (c : PBChain) : (ChainCell.fresh grow c).value = c := by
  cases c
  simp only [ChainCell.value, ChainCell.fresh, PtrSlice.ofList_live]

theorem SCell.fresh_value (grow : Nat → Nat) (s : SState) : (SCell.fresh grow s).value = s := by
  cases s
  simp only [SCell.value, SCell.fresh, PtrSlice.ofList_live, List.map_map]
  congr 1
  rw [show ChainCell.value ∘ ChainCell.fresh grow = id from funext fun c => ChainCell.fresh_value grow c, List.map_id]

theorem SCell.fresh_ok (grow : Nat → Nat) (s : SState) : (SCell.fresh grow s).Ok := by
  refine ⟨PtrSlice.ofList_clean _ _, fun d hd => ?_⟩
  simp only [SCell.fresh, PtrSlice.ofList_live, List.mem_map] at hd
  obtain ⟨c, _, rfl⟩ := hd
  exact (PtrSlice.ofList_clean _ _).shows

theorem findChain_cells (key : Bytes) : ∀ (l : List ChainCell) (i : Nat),
    SState.findChain key (l.map ChainCell.value) i = (SCell.findChain key (l.map some) i).map fun q => (q.1, q.2.value)
  | [], _ => rfl
  | d :: l, i => by
    simp only [List.map_cons, SState.findChain, SCell.findChain]
    rw [show d.value.senderRatchetKey = d.senderRatchetKey from rfl]
    split
    · rfl
    · exact findChain_cells key l (i + 1)

theorem findChain_at (key : Bytes) : ∀ (l : List ChainCell) (i j : Nat) (d : ChainCell), SCell.findChain key (l.map some) i = some (j, d) →
    i ≤ j ∧ l[j - i]? = some d ∧ d.senderRatchetKey = key
  | [], _, _, _, h => by cases h
  | e :: l, i, j, d, h => by
    simp only [List.map_cons, SCell.findChain] at h
    split at h
    · next hk =>
      simp only [Option.some.injEq, Prod.mk.injEq] at h
      obtain ⟨rfl, rfl⟩ := h
      exact ⟨Nat.le_refl _, by simp, hk⟩
    · obtain ⟨h1, h2, h3⟩ := findChain_at key l (i + 1) j d h
      refine ⟨by omega, ?_, h3⟩
      rw [show j - i = (j - (i + 1)) + 1 by omega, List.getElem?_cons_succ]
      exact h2

theorem SCell.Ok.receiverChain {c : SCell} (h : c.Ok) (sender : PubKey) : c.value.receiverChain sender = (c.receiverChain sender).map fun q => (q.1, q.2.value) := by
  unfold SState.receiverChain SCell.receiverChain
  rw [h.chains.shows.items]
  exact findChain_cells _ _ _

theorem SCell.Ok.chainAt {c : SCell} (h : c.Ok) {sender : PubKey} {i : Nat} {d : ChainCell} (e : c.receiverChain sender = some (i, d)) :
    c.chains.live[i]? = some d ∧ d.senderRatchetKey = sender.bytes := by
  unfold SCell.receiverChain at e
  rw [h.chains.shows.items] at e
  obtain ⟨_, h2, h3⟩ := findChain_at _ _ _ _ _ e
  exact ⟨by simpa using h2, h3⟩

/-- Replacing a chain in its slot. -/
theorem SCell.Ok.replace {c : SCell} (h : c.Ok) {sender : PubKey} {i : Nat} {d d' : ChainCell} (e : c.receiverChain sender = some (i, d)) (hd : d'.keys.Shows d'.keys.live) :
    ∃ chains, c.chains.setAt i d' = .ok chains ∧ ({ c with chains := chains } : SCell).Ok ∧ chains.live = c.chains.live.set i d' ∧
      ({ c with chains := chains } : SCell).value = { c.value with receiverChains := c.value.receiverChains.set i d'.value } := by
  have hi : i < c.chains.live.length := (List.getElem?_eq_some_iff.mp (h.chainAt e).1).1
  obtain ⟨s', e1, e2⟩ := h.chains.shows.setAt hi d'
  obtain ⟨e3, e4⟩ := h.chains.setAt e1
  refine ⟨s', e1, ⟨e3, fun x hx => ?_⟩, e4, ?_⟩
  · rw [e4] at hx
    rcases List.mem_or_eq_of_mem_set hx with hx | hx
    · exact h.keys x hx
    · rw [hx]
      exact hd
  · simp only [SCell.value, e4, List.map_set]

theorem SCell.setReceiverChainKey_ok {c : SCell} (h : c.Ok) (sender : PubKey) (ck : ChainKey) :
    match c.setReceiverChainKey sender ck with
    | .ok c' => c'.Ok ∧ c.value.setReceiverChainKey sender ck = .ok c'.value ∧ ∀ d ∈ c'.chains.live, ∃ d0 ∈ c.chains.live, d.keys = d0.keys
    | .err e => c.value.setReceiverChainKey sender ck = .err e
    | .panic => False := by
  unfold SCell.setReceiverChainKey SState.setReceiverChainKey
  rw [h.receiverChain]
  cases e : c.receiverChain sender with
  | none => simp
  | some q =>
    obtain ⟨i, d⟩ := q
    have hd := h.chainAt e
    have hk := h.keys d (List.mem_of_getElem? hd.1)
    obtain ⟨chains, e1, e2, e3, e4⟩ := h.replace (d' := { d with chainKey := some { index := ck.index, key := ck.key } }) e hk
    simp only [e1, Res.bind_ok, Res.pure_eq, Option.map_some]
    refine ⟨e2, ?_, fun x hx => ?_⟩
    · rw [e4]
      rfl
    · rw [e3] at hx
      rcases List.mem_or_eq_of_mem_set hx with hx | hx
      · exact ⟨x, hx, rfl⟩
      · exact ⟨d, List.mem_of_getElem? hd.1, by rw [hx]⟩

theorem SCell.addReceiverChain_ok (grow : Nat → Nat) {c : SCell} (h : c.Ok) (sender : PubKey) (ck : ChainKey) :
    ∃ c', c.addReceiverChain grow sender ck = .ok c' ∧ c'.Ok ∧ c'.value = c.value.addReceiverChain sender ck ∧ ∀ d ∈ c'.chains.live, d ∈ c.chains.live ∨ d.keys = {} := by
  obtain ⟨s', e1, e2, e3⟩ := h.chains.push grow { senderRatchetKey := sender.bytes, chainKey := some { index := ck.index, key := ck.key } } maxReceiverChains
  have hmem : ∀ d ∈ s'.live, d ∈ c.chains.live ∨ d.keys = {} := by
    intro d hd
    rw [e3] at hd
    have hd : d ∈ c.chains.live ++ [{ senderRatchetKey := sender.bytes, chainKey := some { index := ck.index, key := ck.key } }] := by
      split at hd
      · exact List.mem_of_mem_drop hd
      · exact hd
    rcases List.mem_append.mp hd with hd | hd
    · exact .inl hd
    · right
      rw [List.mem_singleton.mp hd]
  refine ⟨{ c with chains := s' }, ?_, ⟨e2, fun d hd => ?_⟩, ?_, hmem⟩
  · unfold SCell.addReceiverChain
    simp only
    split at e1
    · next hc =>
      rw [if_pos hc]
      cases e4 : (c.chains.append grow [some { senderRatchetKey := sender.bytes, chainKey := some { index := ck.index, key := ck.key } }]).setNil 0 with
      | ok s1 =>
        rw [e4] at e1
        have e1 : s1.tail = .ok s' := e1
        simp [Res.bind_ok, e1]
      | err e => rw [e4] at e1; cases e1
      | panic => rw [e4] at e1; cases e1
    · next hc =>
      rw [if_neg hc]
      cases e1
      rfl
  · rcases hmem d hd with hd | hd
    · exact h.keys d hd
    · rw [hd]
      exact PtrSlice.empty_clean.shows
  · have hv : (c.chains.live ++ [({ senderRatchetKey := sender.bytes, chainKey := some { index := ck.index, key := ck.key } } : ChainCell)]).map ChainCell.value =
        c.value.receiverChains ++ [({ senderRatchetKey := sender.bytes, chainKey := some { index := ck.index, key := ck.key } } : PBChain)] := by
      rw [List.map_append]
      rfl
    have hl : (c.chains.live ++ [({ senderRatchetKey := sender.bytes, chainKey := some { index := ck.index, key := ck.key } } : ChainCell)]).length =
        (c.value.receiverChains ++ [({ senderRatchetKey := sender.bytes, chainKey := some { index := ck.index, key := ck.key } } : PBChain)]).length := by
      rw [← hv, List.length_map]
    rw [hl] at e3
    unfold SState.addReceiverChain
    simp only
    split
    · next hc =>
      rw [if_pos hc] at e3
      rw [← hv, ← List.map_drop, ← e3]
      rfl
    · next hc =>
      rw [if_neg hc] at e3
      rw [← hv, ← e3]
      rfl

theorem SCell.addKey_ok (grow : Nat → Nat) {s : PtrSlice PBMessageKey} (h : s.Shows s.live) (k : PBMessageKey) :
    ∃ s', SCell.addKey grow s k = .ok s' ∧ s'.Shows s'.live ∧ (s.Clean → s'.Clean) ∧
      s'.live = if (s.live ++ [k]).length > maxMessageKeys then (s.live ++ [k]).drop 1 else s.live ++ [k] := by
  obtain ⟨s', e1, e2⟩ := h.push grow k maxMessageKeys
  refine ⟨s', ?_, e2.self, fun hc => ?_, e2.live⟩
  · unfold SCell.addKey
    simp only
    split at e1
    · next hc => rw [if_pos hc]; exact e1
    · next hc => rw [if_neg hc]; exact e1
  · obtain ⟨s2, f1, f2, _⟩ := hc.push grow k maxMessageKeys
    rw [e1] at f1
    cases f1
    exact f2

theorem SCell.setMessageKeys_ok (grow : Nat → Nat) {c : SCell} (h : c.Ok) (sender : PubKey) (mk : MessageKeys) :
    match c.setMessageKeys grow sender mk with
    | .ok c' => c'.Ok ∧ c.value.setMessageKeys sender mk = .ok c'.value ∧ ∀ d ∈ c'.chains.live, ∃ d0 ∈ c.chains.live, d0.keys.Clean → d.keys.Clean
    | .err e => c.value.setMessageKeys sender mk = .err e
    | .panic => False := by
  unfold SCell.setMessageKeys SState.setMessageKeys
  rw [h.receiverChain]
  cases e : c.receiverChain sender with
  | none => simp
  | some q =>
    obtain ⟨i, d⟩ := q
    have hd := h.chainAt e
    have hk := h.keys d (List.mem_of_getElem? hd.1)
    obtain ⟨keys, f1, f2, f3, f4⟩ := SCell.addKey_ok grow hk { index := mk.counter, cipherKey := mk.cipherKey, macKey := mk.macKey, iv := mk.iv }
    obtain ⟨chains, e1, e2, e3, e4⟩ := h.replace (d' := { d with keys := keys }) e f2
    simp only [f1, e1, Res.bind_ok, Res.pure_eq, Option.map_some]
    refine ⟨e2, ?_, fun x hx => ?_⟩
    · rw [e4]
      show _ = Res.ok { c.value with receiverChains := c.value.receiverChains.set i { d.value with messageKeys := keys.live } }
      rw [f4]
      rfl
    · rw [e3] at hx
      rcases List.mem_or_eq_of_mem_set hx with hx | hx
      · exact ⟨x, hx, fun h => h⟩
      · exact ⟨d, List.mem_of_getElem? hd.1, by rw [hx]; exact f3⟩

/-- What `MessageKeys` does: the state that the method on lists gives, the last of the keys that were taken out; and where one key at most was taken out of a
slice without residue, the new slice has at most that many slots of residue. -/
theorem SCell.takeMessageKeys_ok (grow : Nat → Nat) {c : SCell} (h : c.Ok) (sender : PubKey) (n : UInt32) :
    match c.receiverChain sender with
    | none => c.takeMessageKeys grow sender n = .ok (none, c)
    | some (idx, d) => ∃ filtered chains, c.takeMessageKeys grow sender n = .ok ((d.keys.live.filter fun k => k.index = n).getLast?, { c with chains := chains }) ∧
        ({ c with chains := chains } : SCell).Ok ∧ chains.live = c.chains.live.set idx { d with keys := filtered } ∧
        (∀ pre l post, d.keys.Lays pre l post → ∃ mid, filtered.Lays pre (l.filter fun k => k.index ≠ n) (mid ++ post) ∧ mid.length = (l.filter fun k => k.index = n).length) ∧
        ({ c with chains := chains } : SCell).value =
          { c.value with receiverChains := c.value.receiverChains.set idx { d.value with messageKeys := d.value.messageKeys.filter fun k => k.index ≠ n } } := by
  unfold SCell.takeMessageKeys
  cases e : c.receiverChain sender with
  | none => simp
  | some q =>
    obtain ⟨i, d⟩ := q
    have hd := h.chainAt e
    have hk := h.keys d (List.mem_of_getElem? hd.1)
    have hl := hk.lays
    obtain ⟨filtered, mid, e1, e2, e3⟩ := filterKeys_lays grow n d.keys.live [] (d.keys.array.take d.keys.off) [] (d.keys.array.drop (d.keys.off + d.keys.len)) { d.keys with len := 0 } none
      hl.array hl.off rfl
    rw [← hk.length] at e1
    have e1 : SCell.filterKeys grow n d.keys.len 0 { d.keys with len := 0 } none = (filtered, (d.keys.live.filter fun k => k.index = n).getLast?) := by
      refine e1.trans ?_
      cases (d.keys.live.filter fun k => k.index = n).getLast? <;> rfl
    rw [List.nil_append] at e2
    obtain ⟨chains, f1, f2, f3, f4⟩ := h.replace (d' := { d with keys := filtered }) e e2.shows.self
    refine ⟨filtered, chains, ?_, f2, f3, ?_, ?_⟩
    · simp only [e1, f1, Res.bind_ok, Res.pure_eq]
    · intro pre l post hp
      have hll : l = d.keys.live := hp.shows.live.symm
      subst hll
      have hpre : pre = d.keys.array.take d.keys.off := by
        rw [hp.array, hp.off, List.take_left]
      have hpost : post = d.keys.array.drop (d.keys.off + d.keys.len) := by
        rw [hp.array, hp.off, hp.len, ← List.append_assoc]
        have : pre.length + d.keys.live.length = (pre ++ d.keys.live.map some).length := by simp
        rw [this, List.drop_left]
      subst hpre
      subst hpost
      exact ⟨mid, e2, by simpa using e3⟩
    · rw [f4]
      simp only [ChainCell.value, e2.shows.live]

end Verif
