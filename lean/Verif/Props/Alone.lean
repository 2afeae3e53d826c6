import Verif.Proofs.Lineage
import Verif.Props.Crash
import Verif.Props.Stores
import Verif.Props.Messages
import Verif.Props.Reading
import Verif.Props.Records
import Verif.Props.Group

/-!
# What holds in any schedule: C105, C106

No assumption about which calls overlap: several may be about the same address, session, pre-key or group. The stores hand out
copies and every store call is atomic; see `Verif.Spec.Threads` for schedules and `Verif.Spec.Alone` for what a call meets and leaves.
-/

namespace Verif

open Ex

/-! ## C105 -/

/-- **C105**. Whatever other calls do in between, a call returns what it would have returned alone, on stores each entry of which is
as the call met it at one of its turns; and whatever it would then have changed, it has left like that in the stores at one of its turns. -/
theorem C105_as_if_alone (E : Env) (hE : E.aliased = false) (cs : List Call) (schedule : List Nat) (w : World) (i : Nat) (c : Call)
    (hc : cs[i]? = some c) (hi : i ∈ schedule) (o : Out) (ho : (runAtOnce E cs schedule w).1[i]? = some (some o)) :
    ∃ v, v.MadeOf (Meets E cs schedule w i) ∧ (c.run E v).1 = o ∧ World.Puts (Leaves E cs schedule w i) v (c.run E v).2 :=
  runAtOnce_alone hE cs schedule w i c hc hi o ho

/-- C105, what is stored: whatever changes in the stores at a turn is what the call, perhaps cut off by a failing store call, leaves when it
runs alone on stores each entry of which is as the call met it at one of its turns so far. -/
theorem C105_every_change (E : Env) (hE : E.aliased = false) (cs : List Call) (s : List Nat) (w : World) (i : Nat) (c : Call)
    (hc : cs[i]? = some c) :
    ∃ v c', v.MadeOf (Meets E cs (s ++ [i]) w i) ∧ (c' = c ∨ c.CutOff c') ∧
      World.Puts (fun u => u = (c'.run E v).2) (runAtOnce E cs s w).2 (runAtOnce E cs (s ++ [i]) w).2 :=
  runAtOnce_change hE cs s w i c hc

/-- C105: at every moment of every schedule the stored sessions are within the bounds of C11. -/
theorem C105_records_stay_bounded (E : Env) (hE : E.aliased = false) (w : World) (hw : Reachable E w) (cs : List Call) (schedule : List Nat)
    (a : Address) (r : Record) (h : (runAtOnce E cs schedule w).2.sessions a = some r) :
    r.previous.length ≤ 40 ∧ ∀ s, r.HasState s → s.Bounded := by
  have hr := runAtOnce_WF hE cs w hw.WF _ schedule (Nat.le_refl _) a r h
  exact ⟨hr.count, fun s hs => ⟨(hr.state hs).chains, fun c hc => ((hr.state hs).chainWF c hc).count⟩⟩

theorem Call.run_decrypt_plaintext {E : Env} {a : Address} {m : Ciphertext} {rd : Bytes} {fs : List Fault} {v : World} {p : Option Bytes}
    (h : (Call.run E ⟨.decrypt a m, rd, fs⟩ v).1 = .plaintext a p) : (decryptMessage E a m { v with rand := rd, faults := fs }).1 = .ok p := by
  simp only [Call.run] at h
  rcases hx : decryptMessage E a m { v with rand := rd, faults := fs } with ⟨x, w'⟩
  rw [hx] at h
  cases x with
  | ok q => simp [Out.of] at h; simp [h]
  | err e => simp [Out.of] at h
  | panic => simp [Out.of] at h

/-- C105: in any schedule, a plaintext that DecryptMessage returns is what a session state, stored when the call looked or set up by the
message, reads out of it (cf. C68). -/
theorem C105_plaintext_is_authentic (E : Env) (hE : E.aliased = false) (w : World) (hw : Reachable E w) (cs : List Call) (schedule : List Nat)
    (i : Nat) (a : Address) (c : Ciphertext) (rand : Bytes) (faults : List Fault) (hc : cs[i]? = some ⟨.decrypt a c, rand, faults⟩)
    (hi : i ∈ schedule) (p : Bytes) (ho : (runAtOnce E cs schedule w).1[i]? = some (some (.plaintext a (some p)))) :
    ∃ (v : World) (m : Signal) (s : SState), v.MadeOf (Meets E cs schedule w i) ∧ c.inner = some m ∧ v.Reader E.C a c s ∧ s.CanRead E.C m p := by
  obtain ⟨v, h1, h2, -⟩ := runAtOnce_alone hE cs schedule w i _ hc hi _ ho
  have hv : v.WF := h1.WF fun u hu => hu.WF hE hw.WF
  obtain ⟨m, s, h3, h4, h5⟩ := delivered_reader (w := { v with rand := rand, faults := faults }) hv (Call.run_decrypt_plaintext h2)
  refine ⟨v, m, s, h1, h3, ?_, h5⟩
  cases h4 with
  | stored _ r s h hs => exact .stored _ r s h hs
  | fresh m s h hs => exact .fresh m s h ⟨hs.ours, hs.theirs, hs.fresh, hs.keys⟩

/-- C105: in any schedule, a message that EncryptMessage returns is at the position that the stored session had at a turn of this call, and
after a turn of this call the stored session was one past it (cf. C54). -/
theorem C105_sent_only_after_stored (E : Env) (hE : E.aliased = false) (w : World) (hw : Reachable E w) (cs : List Call) (schedule : List Nat)
    (i : Nat) (a : Address) (pt rand : Bytes) (faults : List Fault) (hc : cs[i]? = some ⟨.encrypt a pt, rand, faults⟩)
    (hi : i ∈ schedule) (c : Ciphertext) (ho : (runAtOnce E cs schedule w).1[i]? = some (some (.ciphertext a c))) :
    ∃ k n u u', c.position = some (k, n) ∧ Meets E cs schedule w i u ∧ u.sendPosition a = some (k.bytes, n) ∧
      Leaves E cs schedule w i u' ∧ u'.sendPosition a = some (k.bytes, n + 1) := by
  obtain ⟨v, h1, h2, h3⟩ := runAtOnce_alone hE cs schedule w i _ hc hi _ ho
  have hv : v.WF := h1.WF fun u hu => hu.WF hE hw.WF
  have hr : (encryptMessage E a pt { v with rand := rand, faults := faults }).1 = .ok c := by
    simp only [Call.run] at h2
    rcases hx : encryptMessage E a pt { v with rand := rand, faults := faults } with ⟨x, w'⟩
    rw [hx] at h2
    cases x with
    | ok q => simp [Out.of] at h2; simp [h2]
    | err e => simp [Out.of] at h2
    | panic => simp [Out.of] at h2
  obtain ⟨-, -, k, n, hp, hs, hs'⟩ := ciphertext_only_after_store (w := { v with rand := rand, faults := faults }) hv a pt c hr
  obtain ⟨u, hu, hus⟩ := h1.sessions a
  have hus' : u.sendPosition a = some (k.bytes, n) := by
    rw [← hs]; simp only [World.sendPosition]; rw [← hus]
  have hrun : ((Call.run E ⟨.encrypt a pt, rand, faults⟩ v).2).sendPosition a = some (k.bytes, n + 1) := hs'
  rcases h3.sessions a with h | ⟨u', hu', h⟩
  · exfalso
    simp only [World.sendPosition] at hrun hs
    rw [h, hs] at hrun
    simp only [Option.some.injEq, Prod.mk.injEq, true_and] at hrun
    have := congrArg UInt32.toNat hrun
    have hlt := n.toNat_lt
    rw [UInt32.toNat_add] at this
    simp at this
    omega
  · refine ⟨k, n, u, u', hp, hu, hus', hu', ?_⟩
    rw [← hrun]; simp only [World.sendPosition]; rw [h]

/-- C105: in any schedule, when DecryptMessage returns a plaintext, the session it met or left in the store at one of its turns has the
position of the message behind it (cf. C54). -/
theorem C105_received_only_after_stored (E : Env) (hE : E.aliased = false) (w : World) (hw : Reachable E w) (cs : List Call)
    (schedule : List Nat) (i : Nat) (a : Address) (c : Ciphertext) (rand : Bytes) (faults : List Fault)
    (hc : cs[i]? = some ⟨.decrypt a c, rand, faults⟩) (hi : i ∈ schedule) (p : Bytes)
    (ho : (runAtOnce E cs schedule w).1[i]? = some (some (.plaintext a (some p)))) :
    ∃ k n rec st u, c.position = some (k, n) ∧ (Meets E cs schedule w i u ∨ Leaves E cs schedule w i u) ∧ u.sessions a = some rec ∧
      rec.current = some st ∧ st.Received k n := by
  obtain ⟨v, h1, h2, h3⟩ := runAtOnce_alone hE cs schedule w i _ hc hi _ ho
  have hv : v.WF := h1.WF fun u hu => hu.WF hE hw.WF
  obtain ⟨-, -, k, n, rec, st, hp, hs, hst, hr⟩ :=
    plaintext_only_after_store (w := { v with rand := rand, faults := faults }) hv a c p (Call.run_decrypt_plaintext h2)
  have hrun : (Call.run E ⟨.decrypt a c, rand, faults⟩ v).2.sessions a = some rec := hs
  rcases h3.sessions a with h | ⟨u', hu', h⟩
  · obtain ⟨u, hu, hus⟩ := h1.sessions a
    exact ⟨k, n, rec, st, u, hp, .inl hu, by rw [← hus, ← h, hrun], hst, hr⟩
  · exact ⟨k, n, rec, st, u', hp, .inr hu', by rw [← h, hrun], hst, hr⟩

/-- C105: in no schedule does DecryptMessage panic on a parsed message that is not a pre-key message (cf. C18). -/
theorem C105_plain_message_never_panics (E : Env) (hE : E.aliased = false) (w : World) (hw : Reachable E w) (cs : List Call)
    (schedule : List Nat) (i : Nat) (a : Address) (m : Signal) (hm : (Ciphertext.signal m).Parsed) (rand : Bytes) (faults : List Fault)
    (hc : cs[i]? = some ⟨.decrypt a (.signal m), rand, faults⟩) (hi : i ∈ schedule) :
    (runAtOnce E cs schedule w).1[i]? ≠ some (some .panic) := by
  intro ho
  obtain ⟨v, h1, h2, -⟩ := runAtOnce_alone hE cs schedule w i _ hc hi _ ho
  have hv : v.WF := h1.WF fun u hu => hu.WF hE hw.WF
  refine signal_never_panics (E := E) (w := { v with rand := rand, faults := faults }) hv a m hm ?_
  simp only [Call.run] at h2
  rcases hx : decryptMessage E a (.signal m) { v with rand := rand, faults := faults } with ⟨x, w'⟩
  rw [hx] at h2
  cases x with
  | ok q => simp [Out.of] at h2
  | err e => simp [Out.of] at h2
  | panic => rfl

/-! ## C106 -/

/-- **C106**. Whatever other calls do in between, a call of the group API returns what it returns when it runs last, after some of the
other calls, one after the other, each at most once and perhaps cut off. -/
theorem C106_group_call_is_sequential (C : Crypto) (cs : List GCall) (schedule : List Nat) (w : GWorld) (i : Nat) (c : GCall)
    (hc : cs[i]? = some c) (hi : i ∈ schedule) (o : GOut) (ho : (runGAtOnce C cs schedule w).1[i]? = some (some o)) :
    ∃ runs : List (Nat × GCall), (i :: runs.map (·.1)).Nodup ∧ (∀ x ∈ runs, ∃ c, cs[x.1]? = some c ∧ (x.2 = c ∨ c.CutOff x.2)) ∧
      (c.run ⟨C, false⟩ (runGCalls ⟨C, false⟩ (runs.map (·.2)) w).2).1 = o :=
  runGAtOnce_sequential C cs schedule w i c hc hi o ho

/-- C106, what is stored: at every moment of every schedule, every stored sender key is what some of the calls leave that have had a turn,
one after the other, each at most once and perhaps cut off. -/
theorem C106_group_record_is_sequential (C : Crypto) (cs : List GCall) (schedule : List Nat) (w : GWorld) (k : Address × DistId) :
    ∃ runs : List (Nat × GCall), (runs.map (·.1)).Nodup ∧
      (∀ x ∈ runs, x.1 ∈ schedule ∧ ∃ c, cs[x.1]? = some c ∧ (x.2 = c ∨ c.CutOff x.2)) ∧
      (runGAtOnce C cs schedule w).2.records k = (runGCalls ⟨C, false⟩ (runs.map (·.2)) w).2.records k :=
  runGAtOnce_lineage C cs w k _ schedule (Nat.le_refl _)

theorem GReachable.more {E : GEnv} {w : GWorld} (h : GReachable E w) (cs : List GCall) :
    ∃ w', GReachable E w' ∧ w'.records = (runGCalls E cs w).2.records := by
  obtain ⟨w0, past, rd, srd, fs, h0, rfl⟩ := h
  have aux : ∀ (cs : List GCall) (w : GWorld) (rd srd : Bytes) (fs : List Fault),
      (runGCalls E cs { w with rand := rd, sysRand := srd, faults := fs }).2.records = (runGCalls E cs w).2.records := by
    intro cs
    cases cs with
    | nil => intros; rfl
    | cons c cs => intros; rfl
  have app : ∀ (past cs : List GCall) (w : GWorld), (runGCalls E (past ++ cs) w).2 = (runGCalls E cs (runGCalls E past w).2).2 := by
    intro past
    induction past with
    | nil => intros; rfl
    | cons c past ih => intro cs w; simp only [List.cons_append, runGCalls]; exact ih cs _
  refine ⟨_, ⟨w0, past ++ cs, [], [], [], h0, rfl⟩, ?_⟩
  simp only [gAfter]
  rw [app]
  exact (aux cs _ rd srd fs).symm

/-- C106: so whatever a call returns, it returns in a state that calls one after the other reach: every property of a single group call
holds among overlapping ones. -/
theorem C106_result_of_reachable_state (C : Crypto) (w : GWorld) (hw : GReachable ⟨C, false⟩ w) (cs : List GCall) (schedule : List Nat)
    (i : Nat) (c : GCall) (hc : cs[i]? = some c) (hi : i ∈ schedule) (o : GOut)
    (ho : (runGAtOnce C cs schedule w).1[i]? = some (some o)) :
    ∃ w', GReachable ⟨C, false⟩ w' ∧ (c.run ⟨C, false⟩ w').1 = o := by
  obtain ⟨runs, -, -, h⟩ := runGAtOnce_sequential C cs schedule w i c hc hi o ho
  obtain ⟨w', h1, h2⟩ := hw.more (runs.map (·.2))
  exact ⟨w', h1, by rw [(GCall.run_local C c _ _ (congrFun h2 _)).1, h]⟩

/-- C106: the same for what is stored. -/
theorem C106_record_of_reachable_state (C : Crypto) (w : GWorld) (hw : GReachable ⟨C, false⟩ w) (cs : List GCall) (schedule : List Nat)
    (k : Address × DistId) : ∃ w', GReachable ⟨C, false⟩ w' ∧ (runGAtOnce C cs schedule w).2.records k = w'.records k := by
  obtain ⟨runs, -, -, h⟩ := runGAtOnce_lineage C cs w k _ schedule (Nat.le_refl _)
  obtain ⟨w', h1, h2⟩ := hw.more (runs.map (·.2))
  exact ⟨w', h1, by rw [h, h2]⟩

/-- C106, for one property: the bounds of C40 hold at every moment of every schedule. -/
theorem C106_bounded (C : Crypto) (w : GWorld) (hw : GReachable ⟨C, false⟩ w) (cs : List GCall) (schedule : List Nat) (k : Address × DistId)
    (g : GRecord) (hg : (runGAtOnce C cs schedule w).2.records k = some g) :
    g.length ≤ 5 ∧ (g.Pairwise fun s t => s.chainId ≠ t.chainId) ∧ ∀ s ∈ g, s.messageKeys.length ≤ 2000 := by
  obtain ⟨w', h1, h2⟩ := C106_record_of_reachable_state C w hw cs schedule k
  exact C40_bounded ⟨C, false⟩ w' h1 k g (by rw [← h2, hg])

/-! ## Instances: calls about the same address and the same group, at the same time -/

/-- Both sends overlap and return the same position, and C105 says of each that it met that position and left the next one. -/
example : ∃ c, (runAtOnce copying twoSends overlapping alice0).1[2]? = some (some (.ciphertext bob c)) ∧
    ∃ k n u u', c.position = some (k, n) ∧ Meets copying twoSends overlapping alice0 2 u ∧ u.sendPosition bob = some (k.bytes, n) ∧
      Leaves copying twoSends overlapping alice0 2 u' ∧ u'.sendPosition bob = some (k.bytes, n + 1) := by
  have h : ∃ c, (runAtOnce copying twoSends overlapping alice0).1[2]? = some (some (.ciphertext bob c)) := by
    have e : (match (runAtOnce copying twoSends overlapping alice0).1[2]? with
      | some (some (Out.ciphertext b _)) => decide (b = bob)
      | _ => false) = true := by decide +kernel
    split at e
    · rename_i b c h
      rw [of_decide_eq_true e] at h
      exact ⟨c, h⟩
    · cases e
  obtain ⟨c, hc⟩ := h
  exact ⟨c, hc, C105_sent_only_after_stored copying rfl alice0 ⟨alice0, [], alice0.rand, alice0.faults, fun _ => rfl, rfl⟩ twoSends overlapping 2 bob [2] [] [] rfl (by decide) c hc⟩

/-- The two first messages that name the same one-time pre-key, decrypted in turn; both are delivered, and both are authentic. -/
example : ∃ (v : World) (m : Signal) (s : SState), v.MadeOf (Meets copying clashing (rounds 2 10) bob0 1) ∧ c1.inner = some m ∧ v.Reader toy carol c1 s ∧ s.CanRead toy m [7, 7] := by
  refine C105_plaintext_is_authentic copying rfl bob0 bob0_reachable clashing (rounds 2 10) 1 carol c1 (randomness 5) [] rfl (by decide) [7, 7] ?_
  have e : (match (runAtOnce copying clashing (rounds 2 10) bob0).1[1]? with
    | some (some (Out.plaintext b p)) => decide (b = carol ∧ p = some [7, 7])
    | _ => false) = true := by decide +kernel
  split at e
  · rename_i b p h
    obtain ⟨rfl, rfl⟩ := of_decide_eq_true e
    exact h
  · cases e

/-- Two overlapping group sends: the stored sender key afterwards is what only one of them leaves. -/
example : ((runGAtOnce toy twoGroupSends overlapping group0).2.records (alice, dist)).map (·.map fun s => s.chainKey.iteration) = some [1] ∧
    ((runGCalls ⟨toy, false⟩ (twoGroupSends.take 2) group0).2.records (alice, dist)).map (·.map fun s => s.chainKey.iteration) = some [1] := by
  decide +kernel

example : ∃ w', GReachable ⟨toy, false⟩ w' ∧
    (runGAtOnce toy twoGroupSends overlapping group0).2.records (alice, dist) = w'.records (alice, dist) :=
  C106_record_of_reachable_state toy group0 ⟨group0, [], group0.rand, group0.sysRand, group0.faults, fun _ => rfl, rfl⟩ twoGroupSends overlapping _

end Verif
