import Verif.Proofs.Flood
import Verif.Props.Delivery

/-!
# How long a late message stays readable: C58
-/

namespace Verif

open Ex

/-- **C58**, for messages at most 2000 positions behind. In any conversation, a message that has not been read and whose
receiving chain is still held can be decrypted as long as the newest accepted message of the same chain is at most 2000
positions ahead of it. Missing: messages further behind, however few are missing; for those the property is false
(`C58_in_order_false`, `C58_false`). -/
theorem C58_partial (d : Duo) (alice bob : World) (b : Bundle) (rand : Bytes) (h : d.Strangers alice bob b)
    (es : List DEvent) (s : Side) (i : Nat) (r : Bytes) (hf : FreshKeys d.C b rand (es ++ [.deliver s i r]))
    (hok : d.Ok (d.start alice bob b rand) es) (hlen : es.length < 2 ^ 32) (c : Ciphertext) (pt : Bytes) (k : PubKey) (n : UInt32)
    (hc : ((d.run (d.start alice bob b rand) es).sent s.other)[i]? = some (c, pt)) (hp : c.position = some (k, n))
    (hk : k ∈ recentChains ((d.run (d.start alice bob b rand) es).got s))
    (hu : (k, n) ∉ (d.run (d.start alice bob b rand) es).got s)
    (hlate : n.toNat < newestUnder ((d.run (d.start alice bob b rand) es).got s) k)
    (hb : newestUnder ((d.run (d.start alice bob b rand) es).got s) k ≤ n.toNat + 2000) :
    (d.receive s c r ((d.run (d.start alice bob b rand) es).world s)).1 = .ok (some pt) :=
  C01_delivery d alice bob b rand h es s i r hf hok hlen c pt k n hc hp ⟨.inl hk, hu, by omega, hb⟩

/-- **C58** is false whenever messages arrive in order: if the accepted messages of the chain came in the order in which they
were sent, then a message more than 2000 positions behind the newest one is never decrypted, even if it is the only one
missing. (The loop in messageKeys stores the key of the newest accepted message again before it goes on, so that every
message, and not only a missing one, takes up one of the 2000 places.) -/
theorem C58_in_order_false (d : Duo) (alice bob : World) (b : Bundle) (rand : Bytes) (h : d.Strangers alice bob b)
    (es : List DEvent) (s : Side) (i : Nat) (r : Bytes) (hf : FreshKeys d.C b rand es)
    (hok : d.Ok (d.start alice bob b rand) es) (hlen : es.length < 2 ^ 32) (c : Ciphertext) (pt : Bytes) (k : PubKey) (n : UInt32)
    (hc : ((d.run (d.start alice bob b rand) es).sent s.other)[i]? = some (c, pt)) (hp : c.position = some (k, n))
    (hk : k ∈ recentChains ((d.run (d.start alice bob b rand) es).got s))
    (ho : InOrder ((d.run (d.start alice bob b rand) es).got s) k)
    (hb : n.toNat + 2000 < newestUnder ((d.run (d.start alice bob b rand) es).got s) k) :
    ∀ p, (d.receive s c r ((d.run (d.start alice bob b rand) es).world s)).1 ≠ .ok (some p) := by
  obtain ⟨_, base, o, L, lev, cnt, st, hinv⟩ := Duo.start_ok h hf
  have hinv' : Inv d (identOf alice bob) b base o (deliveryRand (es ++ [])) 0 L lev cnt st (d.start alice bob b rand) := by
    rw [List.append_nil]; exact hinv
  obtain ⟨L', lev', cnt', st', hI⟩ := hinv'.run h.trusts es [] hok (by omega)
  exact fun p => hI.forgets h.trusts (List.mem_of_getElem? hc) hp hk ho hb r p

namespace Ex

/-- Randomness for the `i`-th delivery. -/
def drawn (i : Nat) : Bytes := [9, UInt8.ofNat i, UInt8.ofNat (i / 256), 250] ++ List.replicate 28 9

/-- Alice sends 2002 messages; Bob receives all but the first, in order. -/
def flood : List DEvent := sendsOf [7] (2001 + 1) ++ deliveriesOf drawn 0 2001

/-- A number that tells the drawn keys apart. -/
def keyTag : Option PubKey → Nat
  | some k => match k.key with
    | _ :: a :: b :: c :: _ => (a ^^^ 0x55).toNat + 256 * (b ^^^ 0x55).toNat + 65536 * (c ^^^ 0x55).toNat
    | _ => 0
  | none => 0

theorem drawn_tag : ∀ i, i < 2002 → keyTag (publicKeyOf toy (drawn i)) = 16384000 + i := by
  decide +kernel

theorem drawn_some {i : Nat} (hi : i < 2002) : publicKeyOf toy (drawn i) ≠ none := by
  intro h
  have := drawn_tag i hi
  rw [h] at this
  simp only [keyTag] at this
  omega

theorem flood_fresh : FreshKeys duo.C bundle (randomness 1) (flood ++ [.deliver .bob 0 (drawn 2001)]) := by
  have hkeys : (deliveryRand (flood ++ [.deliver .bob 0 (drawn 2001)])).map (publicKeyOf toy) = (List.range 2002).map fun i => publicKeyOf toy (drawn i) := by
    rw [flood, deliveryRand_append, deliveryRand_append, deliveryRand_sends, deliveryRand_deliveries, List.nil_append,
      show deliveryRand [.deliver .bob 0 (drawn 2001)] = [drawn 2001] from rfl, ← List.range_eq_range', List.range_succ (n := 2001)]
    simp only [List.map_append, List.map_map, List.map_cons, List.map_nil]
    rfl
  have hnot : ∀ k, keyTag k < 16384000 → k ∉ (List.range 2002).map fun i => publicKeyOf toy (drawn i) := by
    intro k hk hm
    rw [List.mem_map] at hm
    obtain ⟨i, hi, rfl⟩ := hm
    rw [List.mem_range] at hi
    have := drawn_tag i hi
    omega
  unfold FreshKeys
  rw [show duo.C = toy from rfl, hkeys]
  refine ⟨?_, ?_⟩
  · simp only [List.mem_cons, not_or]
    exact ⟨by simp, by decide +kernel, hnot _ (by decide)⟩
  · simp only [List.nodup_cons, List.mem_cons, not_or]
    refine ⟨⟨by decide +kernel, hnot _ (by decide +kernel)⟩, hnot _ (by decide +kernel), ?_⟩
    rw [List.Nodup, List.pairwise_map]
    refine List.Pairwise.imp_of_mem (fun {a b} ha hb hab => ?_) (List.pairwise_lt_range (n := 2002))
    intro he
    rw [List.mem_range] at ha hb
    have h1 := drawn_tag a ha
    have h2 := drawn_tag b hb
    rw [he] at h1
    omega

end Ex

/-- **C58** is false. There is a conversation (Alice sends 2002 messages, Bob receives all but the first, in order, and each
delivery draws a fresh key pair) in which the first message of Alice's chain is the only one missing: every other message has
been received and read, and the chain is held. But Bob cannot read the first message any more, whatever randomness is used. -/
theorem C58_false : ∃ (es : List DEvent) (last : Bytes) (S : DSys) (c : Ciphertext) (pt : Bytes) (k : PubKey),
    duo.Strangers alice0 bob0 bundle ∧ FreshKeys duo.C bundle (randomness 1) (es ++ [.deliver .bob 0 last]) ∧
    duo.Ok (duo.start alice0 bob0 bundle (randomness 1)) es ∧ S = duo.run (duo.start alice0 bob0 bundle (randomness 1)) es ∧
    (S.sent .alice)[0]? = some (c, pt) ∧ c.position = some (k, 0) ∧ k ∈ recentChains (S.got .bob) ∧ (k, 0) ∉ S.got .bob ∧
    (∀ i, 0 < i → i < (S.sent .alice).length → ∃ c' pt', (S.sent .alice)[i]? = some (c', pt') ∧ c'.position = some (k, UInt32.ofNat i) ∧
      (k, UInt32.ofNat i) ∈ S.got .bob) ∧
    ∀ r p, (duo.receive .bob c r (S.world .bob)).1 ≠ .ok (some p) := by
  obtain ⟨c, q, k, h1, h2, h3, h4, h5, h6, h7, h8, h9, h10⟩ := late_unreadable strangers [7] (by decide) drawn 2001 (by decide) (by decide) _ flood_fresh
  exact ⟨_, _, _, c, q, k, h1, h2, h3, rfl, h5, h6, h7, h8, fun i hi hl => h9 i hi (h4 ▸ hl), h10⟩

/-- The hypotheses of `C58_partial` are met by the conversation of C01: Bob reads the second message first. -/
example : latePosition.1 ∈ recentChains (talked.got .bob) ∧ latePosition ∉ talked.got .bob ∧
    latePosition.2.toNat < newestUnder (talked.got .bob) latePosition.1 ∧
    newestUnder (talked.got .bob) latePosition.1 ≤ latePosition.2.toNat + 2000 := by decide +kernel

end Verif
