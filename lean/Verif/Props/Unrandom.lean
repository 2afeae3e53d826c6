import Verif.Proofs.Unrandom
import Verif.Props.Group

/-!
# C129: what comes back does not depend on the random bytes
-/

namespace Verif

open Ex

theorem RunsAlike.result {σ α} {P Q : σ → σ → Prop} {x : M σ α} (h : RunsAlike P Q (fun y y' => y' = y) x x) {s s' : σ} (hs : P s s') :
    (x s').1 = (x s).1 ∧ Q (x s).2 (x s').2 := by
  have := h s s' hs
  rcases h1 : x s with ⟨r, t⟩
  rcases h2 : x s' with ⟨r', t'⟩
  rw [h1, h2] at this
  cases r <;> cases r' <;> simp only [AlikeRes] at this <;> simp_all

/-- **C129**. DecryptMessage returns the same plaintext, or the same error, whatever the random bytes it is given, as long as there are
as many of them: with any stores, any failures of the stores and any message whose ratchet key is refused or accepted alike with every
private key (on Curve25519 these are all keys, C129_every_key). The stores it leaves behind are the same too, but for the user's own newest keys in the session with this peer. -/
theorem C129_decrypt (E : Env) (a : Address) (c : Ciphertext) (hq : ∀ m, c.inner = some m → OrderOfKey E.C m.senderRatchetKey)
    (w w' : World) (hw : OnlyRand w w') :
    (decryptMessage E a c w').1 = (decryptMessage E a c w).1 ∧
    World.SameButOwnKeys a (decryptMessage E a c w).2 (decryptMessage E a c w').2 :=
  (decryptMessage_alike E a c hq).result hw

/-- C129: EncryptMessage uses no random bytes. The message it returns does not depend on them. -/
theorem C129_encrypt (E : Env) (a : Address) (pt : Bytes) (w w' : World) (hw : OnlyRand w w') :
    (encryptMessage E a pt w').1 = (encryptMessage E a pt w).1 ∧ OnlyRand (encryptMessage E a pt w).2 (encryptMessage E a pt w').2 :=
  (encryptMessage_rand E a pt).result hw

/-- C129 for groups: what GroupSession.DecryptMessage returns, and what it stores, does not depend on the random bytes. -/
theorem C129_group_decrypt (E : GEnv) (a : Address) (m : SenderKeyMsg) (w w' : GWorld) (hw : GOnlyRand w w') :
    (groupDecrypt E.C E.aliased a m w').1 = (groupDecrypt E.C E.aliased a m w).1 ∧
    (groupDecrypt E.C E.aliased a m w').2.records = (groupDecrypt E.C E.aliased a m w).2.records := by
  obtain ⟨h1, rd, srd, _, _, h2⟩ := (groupDecrypt_rand E.C E.aliased a m).result hw
  exact ⟨h1, by rw [h2]⟩

/-- C129 for groups: GroupSession.EncryptMessage stores the same and fails in the same way whatever the random bytes, and of the message
only the signature depends on them. -/
theorem C129_group_encrypt (E : GEnv) (a : Address) (d : DistId) (pt : Bytes) (w w' : GWorld) (hw : GOnlyRand w w') :
    (groupEncrypt E.C E.aliased a d pt w').2.records = (groupEncrypt E.C E.aliased a d pt w).2.records ∧
    match (groupEncrypt E.C E.aliased a d pt w).1, (groupEncrypt E.C E.aliased a d pt w').1 with
    | .ok m, .ok m' => SameButSignature m m'
    | .err e, .err e' => e = e'
    | .panic, .panic => True
    | _, _ => False := by
  have := groupEncrypt_rand E.C E.aliased a d pt w w' hw
  rcases h1 : groupEncrypt E.C E.aliased a d pt w with ⟨r, t⟩
  rcases h2 : groupEncrypt E.C E.aliased a d pt w' with ⟨r', t'⟩
  rw [h1, h2] at this
  cases r <;> cases r' <;> simp only [AlikeRes] at this ⊢
  · obtain ⟨h, rd, srd, _, _, e⟩ := this
    exact ⟨by rw [e], h⟩
  · obtain ⟨h, rd, srd, _, _, e⟩ := this
    exact ⟨by rw [e], h⟩
  · obtain ⟨rd, srd, _, _, e⟩ := this
    exact ⟨by rw [e], trivial⟩

/-! ## The hypotheses can be met -/

theorem orderOfKey_toy (q : PubKey) : OrderOfKey toy q := by
  intro k k'
  show (toyDh k.key q.key).isSome = (toyDh k'.key q.key).isSome
  unfold toyDh
  simp only
  split <;> rfl

/-- Alice receives Bob's answer, which makes Alice draw a new ratchet key. With other random bytes Alice reads the same, but has another
key. -/
example :
    OnlyRand alice3 { alice3 with rand := alice3.rand.map (· + 1) } ∧
    (decryptMessage copying bob r1 { alice3 with rand := alice3.rand.map (· + 1) }).1 = .ok (some [9]) ∧
    ((decryptMessage copying bob r1 { alice3 with rand := alice3.rand.map (· + 1) }).2.sessions bob ≠
      (decryptMessage copying bob r1 alice3).2.sessions bob) := by
  refine ⟨⟨_, by simp, rfl⟩, ?_, by decide +kernel⟩
  rw [(C129_decrypt copying bob r1 (fun _ _ => orderOfKey_toy _) alice3 _ ⟨_, by simp, rfl⟩).1]
  exact r1_delivered

end Verif
