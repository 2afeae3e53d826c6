import Verif.Proofs.Eval
import Verif.Model.Cipher
import Verif.Model.Fingerprint
import Verif.Vectors.Primitives

/-!
# The vectors of the repository's tests

The model with the primitives the library uses (`Crypto.standard`), evaluated by the kernel on the vectors in the
repository's own tests (and two of RFC 7748), with the results those tests expect. This checks that the model is the code, not a property of
the code.
-/

namespace Verif.Vectors

open Verif

set_option maxRecDepth 10000

/-- protocol/crypto/aes/aes_test.go:138-161 — `TestCBC`: the ciphertext. -/
theorem cbc : cbcEncrypt Crypto.standard (hex 32 0x4e22eb16d964779994222e82192ce9f747da72dc4abe49dfdeeb71d0ffe3796e)
    (hex 16 0x6f8a557ddc0a140c878063a6d5f31d3d) (hex 10 0x30736294a124482a4159) =
    .ok (hex 16 0xdd3f573ab4508b9ed0e45e0baf5608f3) := by
  decide +kernel

/-- protocol/crypto/aes/aes_test.go:170-175 — `TestCBC`: another IV changes the plaintext. -/
theorem cbc_bad_iv : cbcDecrypt Crypto.standard (hex 32 0x4e22eb16d964779994222e82192ce9f747da72dc4abe49dfdeeb71d0ffe3796e)
    (hex 16 0xef8a557ddc0a140c878063a6d5f31d3d) (hex 16 0xdd3f573ab4508b9ed0e45e0baf5608f3) =
    .ok (hex 10 0xb0736294a124482a4159) := by
  decide +kernel

/-- protocol/crypto/aes/aes_test.go:163-167 — `TestCBC`: invalid padding. -/
theorem cbc_bad_padding : cbcDecrypt Crypto.standard (hex 32 0x4e22eb16d964779994222e82192ce9f747da72dc4abe49dfdeeb71d0ffe3796e)
    (hex 16 0xdd3f573ab4508b9ed0e45e0baf5608f3) (hex 16 0xdd3f573ab4508b9ed0e45e0baf5608f3) = .err .badPadding := by
  decide +kernel

/-- protocol/ratchet/keys_test.go:9-47 — `TestChainKey`: the seed. -/
def chainKey0 : ChainKey := ⟨hex 32 0x8ab72d6f4cc5ac0d387eaf463378ddb28edd07385b1cb01250c715982e7ad48f, 0⟩

/-- `TestChainKey`: the keys of the first message. -/
theorem chainKey_messageKeys :
    (chainKey0.messageKeys Crypto.standard).cipherKey = hex 32 0xbf51e9d75e0e31031051f82a2491ffc084fa298b7793bd9db620056febf45217 ∧
    (chainKey0.messageKeys Crypto.standard).macKey = hex 32 0xc6c77d6a73a354337a56435e34607dfe48e3ace14e77314dc6abc172e7a7030b ∧
    (chainKey0.messageKeys Crypto.standard).counter = 0 := by
  decide +kernel

/-- `TestChainKey`: the next chain key. -/
theorem chainKey_next :
    chainKey0.next Crypto.standard = ⟨hex 32 0x28e8f8fee54b801eef7c5cfb2f17f32c7b334485bbb70fac6ec10342a246d15d, 1⟩ ∧
    ((chainKey0.next Crypto.standard).messageKeys Crypto.standard).counter = 1 := by
  decide +kernel

theorem newPrivateKey_vector {b : Bytes} (h : b.length = 32) :
    newPrivateKey b = .ok ⟨clamp b, by simpa using h, clamp_idem b⟩ := by
  unfold newPrivateKey
  rw [dif_pos h]

theorem agreement_vector {k : PrivKey} {p : PubKey} (out : Bytes) (h : x25519Check k.key p.key (leNat out) = true)
    (hl : out.length = 32) (h0 : out.all (· == 0) = false) : k.agreement Crypto.standard p = .ok out := by
  show Res.ofOption .lowOrderPoint (curveDh k.key p.key) = _
  unfold curveDh
  rw [x25519_eval out h hl]
  simp only [h0]
  rfl

/-- RFC 7748, section 5.2: the first vector. -/
theorem x25519_rfc_1 : x25519 (hex 32 0xa546e36bf0527c9d3b16154b82465edd62144c0ac1fc5a18506a2244ba449ac4)
    (hex 32 0xe6db6867583030db3594c1a424b15f7c726624ec26b3353b10a903a6d0ab1c4c) =
    hex 32 0xc3da55379de9c6908e94ea4df28d084f32eccf03491c71f754b4075577a28552 :=
  x25519_eval _ (by decide +kernel) (by decide +kernel)

/-- RFC 7748, section 5.2: the second vector. -/
theorem x25519_rfc_2 : x25519 (hex 32 0x4b66e9d4d1b4673c5ad22691957d6af5c11b6421e0ea01d42ca4169e7918ba0d)
    (hex 32 0xe5210f12786811d3f4b7959d0538ae2c31dbe7106fc03c3efc4cd549c715a493) =
    hex 32 0x95cbde9476e8907d7aade45cb4b873f88b595a68799fa152e6f8f7647aac7957 :=
  x25519_eval _ (by decide +kernel) (by decide +kernel)

/-- The keys of protocol/curve/curve25519/curve25519_test.go:12-58 — `TestAgreement`. -/
def alicePriv : Bytes := hex 32 0xc806439dc9d2c476ffed8f2580c0888d58ab406bf7ae3698879021b96bb4bf59
@[inherit_doc alicePriv] def alicePub : Bytes := hex 32 0x1bb75966f2e93a3691dfff942bb2a466a1c08b8d78ca3f4d6df8b8bfa2e4ee28
@[inherit_doc alicePriv] def bobPriv : Bytes := hex 32 0xb03b34c33a1c44f225b662d2bf4859b8135411fa7b0386d45fb75dc5b91b4466
@[inherit_doc alicePriv] def bobPub : Bytes := hex 32 0x653614993d2b15ee9e5fd3d86ce719ef4ec1daae1886a87b3f5fa9565a27a22f
@[inherit_doc alicePriv] def shared : Bytes := hex 32 0x325f239328941ced6e673b86ba41017448e99b649a9c3806c1dd7ca4c477e629

/-- `TestAgreement`: Alice. -/
theorem agreement_alice : ∃ k, newPrivateKey alicePriv = .ok k ∧ (k.pub Crypto.standard).keyBytes = alicePub ∧
    k.agreement Crypto.standard ⟨bobPub, by decide +kernel⟩ = .ok shared := by
  refine ⟨_, newPrivateKey_vector (by decide +kernel), ?_, ?_⟩
  · exact curvePublic_eval alicePub (by decide +kernel) (by decide +kernel)
  · exact agreement_vector shared (by decide +kernel) (by decide +kernel) (by decide +kernel)

/-- `TestAgreement`: Bob. -/
theorem agreement_bob : ∃ k, newPrivateKey bobPriv = .ok k ∧ (k.pub Crypto.standard).keyBytes = bobPub ∧
    k.agreement Crypto.standard ⟨alicePub, by decide +kernel⟩ = .ok shared := by
  refine ⟨_, newPrivateKey_vector (by decide +kernel), ?_, ?_⟩
  · exact curvePublic_eval bobPub (by decide +kernel) (by decide +kernel)
  · exact agreement_vector shared (by decide +kernel) (by decide +kernel) (by decide +kernel)

/-- The bytes of protocol/curve/curve25519/curve25519_test.go:76-99 — `TestVerifySignature`. -/
def signer : Bytes := hex 32 0xab7e717d4a163b7d9a1d8071dfe9dcf8cdcd1cea3339b6356be84d887e322c64
@[inherit_doc signer] def signerPriv : Bytes := hex 32 0xc097248412e58bf05df487968205132794178e367637f5818f81e0e6ce73e865
@[inherit_doc signer] def signed : Bytes := hex 33 0x05edce9d9c415ca78cb7252e72c2c4a554d3eb29485a0e1d503118d1a82d99fb4a
@[inherit_doc signer] def signature : Bytes :=
  hex 64 0x5de88ca9a89b4a115da79109c67c9c7464a3e4180274f1cb8c63c2984e286dfbede82deb9dcd9fae0bfbb821569b3d9001bd8130cd11d486cef047bd60b86e88

/-- `TestVerifySignature`: the public key. -/
theorem signer_public : ∃ k, newPrivateKey signerPriv = .ok k ∧ (k.pub Crypto.standard).keyBytes = signer :=
  ⟨_, newPrivateKey_vector (by decide +kernel), curvePublic_eval signer (by decide +kernel) (by decide +kernel)⟩

theorem verifySignature_standard (p : PubKey) (sig : Bytes) (ms : List Bytes) :
    p.verifySignature Crypto.standard sig ms =
      if sig.length ≠ 64 then .ok false
      else Res.ofOption .invalidUPoint (verifyOutcome (curveVerify sha512 p.key sig [ms.flatten])) := rfl

/-- `TestVerifySignature`: the signature is valid. -/
theorem signature_valid : PubKey.verifySignature Crypto.standard ⟨signer, by decide +kernel⟩ signature [signed] = .ok true := by
  have hv : curveVerify sha512 signer signature [signed] = .ok true :=
    curveVerify_eval (x := 50499249032811302185256679938675553014603699733483365142473386560513159475597)
      (y := 30931785971911419860062135114160479029041988394977574449406006687128548636270)
      (k := 2495723332615110199690777929679322046259622512568795853861832621425177452554)
      (S := 3814128495208060686208386296065275714504742969979569814028677794558909475053)
      (qx := 37358925845730853776954529019192699785240325254711155886675239282924890529247)
      (qy := 55827344894619756597456920105170745515602579749284392402382121942789366016093)
      (by decide +kernel) (by decide +kernel)
  rw [verifySignature_standard, if_neg (by decide +kernel), List.flatten_singleton, hv]
  rfl

/-- The keys of protocol/tests/ratchet_test.go:16-82 — `TestBobSession`, as private keys. -/
def privOf (b : Bytes) (h : b.length = 32) : PrivKey := ⟨clamp b, by simpa using h, clamp_idem b⟩

/-- protocol/tests/ratchet_test.go:16-33. -/
def aliceIdentity : PubKey := ⟨hex 32 0xb4a8455660ada65b401007f615e654041746432e3339c6875149bceefcb42b4a, by decide +kernel⟩
@[inherit_doc aliceIdentity] def aliceBase : PubKey := ⟨hex 32 0x472d1fb1a9862c3af6beaca8920277e2b26f4a79213ec7c906aeb35e03cf8950, by decide +kernel⟩
@[inherit_doc aliceIdentity] def bobIdentity : KeyPair :=
  ⟨privOf (hex 32 0x4875cc69ddf8ea0719ec947d61081135868d5fd801f02c0225e516df2156605e) (by decide +kernel),
    ⟨hex 32 0xf1f43874f6966956c2dd473f8fa15adeb71d1cb991b2341692324cefb1c5e626, by decide +kernel⟩⟩
@[inherit_doc aliceIdentity] def bobSigned : KeyPair :=
  ⟨privOf (hex 32 0x583900131fb727998b7803fe6ac22cc591f342e4e42a8c8d5d78194209b8d253) (by decide +kernel),
    ⟨hex 32 0xac248a8f263be6863576eb0362e28c828f0107a3379d34bab1586bf8c770cd67, by decide +kernel⟩⟩
@[inherit_doc aliceIdentity] def bobEphemeral : KeyPair :=
  ⟨privOf (hex 32 0xa1cab48f7c893fafa9880a28c3b4999d28d6329562d27a4ea4e22e9ff1bdd65a) (by decide +kernel),
    ⟨hex 32 0x2cb49776b8770205745a3a6e24f579cdb4ba7a89041005928ebbadc9c05ad458, by decide +kernel⟩⟩

theorem bobSession_eval {C : Crypto} {i signed ratchet : KeyPair} {identity base : PubKey} {d1 d2 d3 : Bytes} {rk : RootKey}
    {ck : ChainKey} (h1 : signed.priv.agreement C identity = .ok d1) (h2 : i.priv.agreement C base = .ok d2)
    (h3 : signed.priv.agreement C base = .ok d3)
    (hd : deriveKeys C (discontinuityBytes ++ d1 ++ d2 ++ d3 ++ []) = .ok (rk, ck)) :
    initializeBobSessionRecord C ⟨i, some signed, none, some ratchet, identity, base⟩ =
      .ok (Record.mk (some (SState.setSenderChain ({ sessionVersion := ciphertextVersion, localIdentityPublic := i.pub.bytes, remoteIdentityPublic := identity.bytes, rootKey := rk.key } : SState) ratchet ck)) []) := by
  unfold initializeBobSessionRecord initializeBobSession
  simp only [deref, h1, h2, h3, Res.bind_ok, hd]
  rfl

/-- protocol/tests/ratchet_test.go:56-63. -/
def bobParams : BobParameters where
  ourIdentityKeyPair := bobIdentity
  ourSignedPreKeyPair := some bobSigned
  ourOneTimePreKeyPair := none
  ourRatchetKeyPair := some bobEphemeral
  theirIdentityKey := aliceIdentity
  theirBaseKey := aliceBase

theorem bob_dh1 : bobSigned.priv.agreement Crypto.standard aliceIdentity =
    .ok (hex 32 0x346ef3eef3b691d5049bc657b7ba820ff9e891b802b4b785d8f93dad312bf711) :=
  agreement_vector _ (by decide +kernel) (by decide +kernel) (by decide +kernel)
theorem bob_dh2 : bobIdentity.priv.agreement Crypto.standard aliceBase =
    .ok (hex 32 0xd35a4f140d3ec116d03c8263941c4506331edecde7d78737c66b546310d09021) :=
  agreement_vector _ (by decide +kernel) (by decide +kernel) (by decide +kernel)
theorem bob_dh3 : bobSigned.priv.agreement Crypto.standard aliceBase =
    .ok (hex 32 0x2db6684891c480f7ed9012ab2c1ee2cf33d01e71aff789857a2d245677f3bb55) :=
  agreement_vector _ (by decide +kernel) (by decide +kernel) (by decide +kernel)

theorem bob_derived : deriveKeys Crypto.standard (discontinuityBytes ++
    (hex 32 0x346ef3eef3b691d5049bc657b7ba820ff9e891b802b4b785d8f93dad312bf711) ++
    (hex 32 0xd35a4f140d3ec116d03c8263941c4506331edecde7d78737c66b546310d09021) ++
    (hex 32 0x2db6684891c480f7ed9012ab2c1ee2cf33d01e71aff789857a2d245677f3bb55) ++ []) =
    .ok (⟨hex 32 0x3e6130d0a8c8e5b8ad65eb8b7d95fa3ab84710d48d92f34dcda43f9909261bca⟩,
      ⟨hex 32 0x9797caca53c989bbe229a40ca7727010eb2604fc14945d77958a0aeda088b44d, 0⟩) := by
  decide +kernel

/-- protocol/tests/ratchet_test.go:65-81 — `TestBobSession`: the identities and the sender chain. -/
theorem bob_session : ∃ s, initializeBobSessionRecord Crypto.standard bobParams = .ok { current := some s } ∧
    s.localIdentityKey = .ok bobIdentity.pub ∧ s.remoteIdentityKey = .ok (some aliceIdentity) ∧
    s.senderChainKey = .ok ⟨hex 32 0x9797caca53c989bbe229a40ca7727010eb2604fc14945d77958a0aeda088b44d, 0⟩ := by
  have h : initializeBobSessionRecord Crypto.standard bobParams = .ok (Record.mk (some
      (SState.setSenderChain ({ sessionVersion := ciphertextVersion, localIdentityPublic := bobIdentity.pub.bytes, remoteIdentityPublic := aliceIdentity.bytes, rootKey := hex 32 0x3e6130d0a8c8e5b8ad65eb8b7d95fa3ab84710d48d92f34dcda43f9909261bca } : SState)
        bobEphemeral ⟨hex 32 0x9797caca53c989bbe229a40ca7727010eb2604fc14945d77958a0aeda088b44d, 0⟩)) []) := by
    exact bobSession_eval bob_dh1 bob_dh2 bob_dh3 bob_derived
  exact ⟨_, h, by decide +kernel, by decide +kernel, by decide +kernel⟩

/-- protocol/tests/ratchet_test.go:85-92. -/
def aliceIdentityPair : KeyPair :=
  ⟨privOf (hex 32 0x9040f0d4e09cf38f6dc7c13779c908c015a1da4fa78737a080eb0a6f4f5f8f58) (by decide +kernel),
    ⟨hex 32 0xb4a8455660ada65b401007f615e654041746432e3339c6875149bceefcb42b4a, by decide +kernel⟩⟩
@[inherit_doc aliceIdentityPair] def aliceBasePair : KeyPair :=
  ⟨privOf (hex 32 0x11ae7c64d1e61cd596b76a0db5012673391cae66edbfcf073b4da80516a47449) (by decide +kernel),
    ⟨hex 32 0x472d1fb1a9862c3af6beaca8920277e2b26f4a79213ec7c906aeb35e03cf8950, by decide +kernel⟩⟩
@[inherit_doc aliceIdentityPair] def bobIdentityPublic : PubKey := ⟨hex 32 0xf1f43874f6966956c2dd473f8fa15adeb71d1cb991b2341692324cefb1c5e626, by decide +kernel⟩
@[inherit_doc aliceIdentityPair] def bobSignedPublic : PubKey := ⟨hex 32 0xac248a8f263be6863576eb0362e28c828f0107a3379d34bab1586bf8c770cd67, by decide +kernel⟩
@[inherit_doc aliceIdentityPair] def bobEphemeralPublic : PubKey := ⟨hex 32 0x2cb49776b8770205745a3a6e24f579cdb4ba7a89041005928ebbadc9c05ad458, by decide +kernel⟩
/-- protocol/tests/ratchet_test.go:117-124. -/
def aliceParams : AliceParameters where
  ourIdentityKeyPair := aliceIdentityPair
  ourBaseKeyPair := aliceBasePair
  theirIdentityKey := bobIdentityPublic
  theirSignedPreKey := bobSignedPublic
  theirOneTimePreKey := none
  theirRatchetKey := bobEphemeralPublic

theorem alice_dh1 : aliceIdentityPair.priv.agreement Crypto.standard bobSignedPublic =
    .ok (hex 32 0x346ef3eef3b691d5049bc657b7ba820ff9e891b802b4b785d8f93dad312bf711) :=
  agreement_vector _ (by decide +kernel) (by decide +kernel) (by decide +kernel)
theorem alice_dh2 : aliceBasePair.priv.agreement Crypto.standard bobIdentityPublic =
    .ok (hex 32 0x41c2555957396ba1919a921bed4cf4895211624bedeb993d64c53a4e3ee50031) :=
  agreement_vector _ (by decide +kernel) (by decide +kernel) (by decide +kernel)
theorem alice_dh3 : aliceBasePair.priv.agreement Crypto.standard bobSignedPublic =
    .ok (hex 32 0x09b2294774480158f8412ae93820022acc2cae6405328183eb342031d763f921) :=
  agreement_vector _ (by decide +kernel) (by decide +kernel) (by decide +kernel)

/-- The secret the chain of `TestAliceSession` is derived from. -/
def aliceSecret : Bytes := discontinuityBytes ++ (hex 32 0x346ef3eef3b691d5049bc657b7ba820ff9e891b802b4b785d8f93dad312bf711) ++
  (hex 32 0x41c2555957396ba1919a921bed4cf4895211624bedeb993d64c53a4e3ee50031) ++
  (hex 32 0x09b2294774480158f8412ae93820022acc2cae6405328183eb342031d763f921) ++ []

theorem alice_derived : deriveKeys Crypto.standard aliceSecret =
    .ok (⟨hex 32 0xcdbd35392e300db7b28f9e8501eb21b224cd8ca0a009c8339fbe89614035bcb2⟩, ⟨hex 32 0xab9be50e5cb22a925446ab90ee5670545f4fd32902459ec274b6ad0ae5d6031a, 0⟩) := by
  decide +kernel

/-- The point the ratchet key stands for. -/
def bobEphemeralPoint : EdPoint :=
  EdPoint.ofNat 18508761646617894888946184923622795375549945584014782267186682021129853758950
    51215781762257430611855931925078866886163117861039131476960987553456537849221 (by decide +kernel)

theorem bobEphemeralPoint_order : groupOrder • bobEphemeralPoint = 0 :=
  (EdPoint.Rep.mul (fuel := 253) (EdPoint.Rep.ofNat _ _ _) (by decide +kernel)).eq_zero (by decide +kernel) (by decide +kernel)

theorem bobEphemeralPoint_ne : bobEphemeralPoint ≠ 0 := by
  intro h
  have hy : bobEphemeralPoint.y = 1 := by rw [h]; rfl
  have : ((51215781762257430611855931925078866886163117861039131476960987553456537849221 : Nat) : Fe) = (1 : Nat) := by
    rw [Nat.cast_one]; exact hy
  rw [natCast_eq] at this
  exact absurd this (by decide +kernel)

theorem bobEphemeralPoint_u : bobEphemeralPoint.u = feOfBytes bobEphemeralPublic.key := by
  have h1 : (1 - bobEphemeralPoint.y) ≠ 0 := by
    intro h
    exact bobEphemeralPoint_ne (EdPoint.eq_zero_of_y (sub_eq_zero.1 h).symm)
  unfold EdPoint.u
  rw [← div_eq_mul_inv, div_eq_iff h1]
  unfold feOfBytes
  have hy : bobEphemeralPoint.y =
    ((51215781762257430611855931925078866886163117861039131476960987553456537849221 : Nat) : Fe) := rfl
  rw [hy, mul_sub, mul_one, eq_sub_iff_add_eq, ← Nat.cast_one, ← Nat.cast_mul, ← Nat.cast_add, ← Nat.cast_add, natCast_eq]
  decide +kernel

theorem bobEphemeral_agreement (k : PrivKey) : ∃ z, k.agreement Crypto.standard bobEphemeralPublic = .ok z := by
  have hz : (x25519 k.key bobEphemeralPublic.key).all (· == 0) = false := by
    rw [x25519_of_u k.len bobEphemeralPoint_u]
    cases hz : (leNat (clamp k.key) • bobEphemeralPoint).bytesMontgomery.all (· == 0) with
    | false => rfl
    | true =>
      exfalso
      have h2 := EdPoint.eq_zero_of_u (feBytes_all_zero hz)
      have : Fact groupOrder.Prime := ⟨groupOrder_prime⟩
      rw [← mul_nsmul, ← addOrderOf_dvd_iff_nsmul_eq_zero,
        addOrderOf_eq_prime bobEphemeralPoint_order bobEphemeralPoint_ne, Nat.Prime.dvd_mul groupOrder_prime] at h2
      rcases h2 with h | h
      · exact clamp_not_dvd k.len h
      · exact absurd (Nat.le_of_dvd (by omega) h) (by decide +kernel)
  refine ⟨x25519 k.key bobEphemeralPublic.key, ?_⟩
  show Res.ofOption .lowOrderPoint (curveDh k.key bobEphemeralPublic.key) = _
  unfold curveDh
  simp only [hz]
  rfl

/-- protocol/tests/ratchet_test.go:126-143 — `TestAliceSession`: the identities and the receiver chain, for every
source of randomness that has a key to give. -/
theorem alice_session (r : Bytes) (hr : 32 ≤ r.length) :
    ∃ s, (initializeAliceSessionRecord Crypto.standard aliceParams r).1 = .ok { current := some s } ∧
    s.localIdentityKey = .ok aliceIdentityPair.pub ∧ s.remoteIdentityKey = .ok (some bobIdentityPublic) ∧
    s.receiverChainKey bobEphemeralPublic =
      .ok (some ⟨hex 32 0xab9be50e5cb22a925446ab90ee5670545f4fd32902459ec274b6ad0ae5d6031a, 0⟩) := by
  obtain ⟨k, hk, hkey, hm⟩ := generateKeyPair_run Crypto.standard r hr
  obtain ⟨z, ha⟩ := bobEphemeral_agreement k.priv
  have hd := alice_derived
  unfold aliceSecret at hd
  unfold initializeAliceSessionRecord initializeAliceSession
  simp only [M.bind_run, hk, M.lift_run, M.pure_run, aliceParams, alice_dh1, alice_dh2, alice_dh3, Res.bind_ok, hd,
    createChain_eq, ha]
  refine ⟨_, rfl, ?_, ?_, ?_⟩
  · exact newIdentityKey_bytes _
  · exact (by decide +kernel : SState.remoteIdentityKey { remoteIdentityPublic := bobIdentityPublic.bytes } =
      .ok (some bobIdentityPublic))
  · exact (by decide +kernel : SState.receiverChainKey ((({} : SState).addReceiverChain bobEphemeralPublic
      ⟨hex 32 0xab9be50e5cb22a925446ab90ee5670545f4fd32902459ec274b6ad0ae5d6031a, 0⟩)) bobEphemeralPublic =
      .ok (some ⟨hex 32 0xab9be50e5cb22a925446ab90ee5670545f4fd32902459ec274b6ad0ae5d6031a, 0⟩))

end Verif.Vectors
