# Formal model of RTann/libsignal-go in Lean 4

Everything under `lean/Verif/` is one Lake library. `properties.jsonl` lists the English properties,
`MANIFEST.json` maps each to its theorems, `seeded/LOG.jsonl` records the wrong programs the theorems were
tried against.

* `Model/` — the code, function by function; every definition cites file and lines of /repo.
* `Spec/` — the vocabulary of the properties (histories of calls, observations, schedules, the protocol on paper). The model does not
  import it.
* `Props/` — the theorems of `MANIFEST.json`, named `Cnn_…`, each next to a concrete case that meets its hypotheses.
* `Proofs/` — everything else.
* `Vectors/` — known answers, as a check of the model.

## Shape of the model

* A Go `[]byte` is `List UInt8`; counters and ids are `UInt32`/`Int32` (wrap-around is real);
  a nil-able pointer is an `Option`; a call ends in `Res` = `ok | err e | panic`.
* Code with effects lives in `M σ α := σ → Res α × σ`. The state reached is kept when a call fails, so
  "a failed call changes nothing" is a statement about the model and not built in.
* The pairwise session cipher runs over a `World`: the four stores (sessions, pre-keys, signed pre-keys,
  identities), the random stream, a list of faults that the next store calls run into (each call succeeds, fails without
  effect, or fails after its effect), and a flag that says whether the session store hands out shared pointers (the in-memory store of
  the library) or copies. A crash at a store call is the world in which that call fails.
* Histories are lists of API calls, each with arbitrary arguments, random bytes and faults. Properties of reachable states are
  proved by induction over histories, with no bound on their length.
* Cryptographic primitives are fields of a structure `Crypto`, with the laws the code relies on (output
  lengths, AES decrypt∘encrypt, Diffie-Hellman commutes, an honest signature verifies). All theorems quantify over
  every `Crypto`. A concrete computable instance (`toy`) shows that the laws are consistent; the
  executable witnesses run on it. No injectivity or collision-freedom law is assumed; a theorem that needs
  distinct keys or unforgeability states that as a hypothesis about the concrete values of that run.
* The public-key laws are not only assumed: `Model/Edwards`, `Model/XEdDSA` and `Model/Curve25519` model
  `protocol/curve/curve25519` on the real curve. The field is the integers modulo 2^255-19 (proved prime), the
  group law of the twisted Edwards curve is proved (associativity included), so are the prime order of the base point and the
  conversion between the Montgomery and the Edwards form. `Crypto.onCurve` proves all public-key laws of `Crypto` for this code,
  so every theorem about an arbitrary `Crypto` applies to it.
* The symmetric algorithms are written out too: `Model/Sha2` (SHA-256, SHA-512, HMAC, HKDF) and `Model/AesBlock` (AES-128/192/256).
  `Crypto.standard` (`Model/Standard`) puts all of them together and proves every law of `Crypto` (C81). No assumption about a
  primitive is left.
* `Vectors/` runs the model in the kernel on the vectors of FIPS 180-4, FIPS 197, RFC 4231, RFC 5869, RFC 7748 and of the
  repository's own tests (`TestCBC`, `TestChainKey`, `TestAgreement`, `TestVerifySignature`, `TestBobSession`, `TestAliceSession`,
  `TestFingerprint_V1/V2` after the hashes). These are tests of the model against the code, not proofs of properties. The 5200
  rounds of SHA-512 of the fingerprint tests are too slow for the kernel; run once by the interpreter, the model gave the expected bytes.
* `Spec/Protocol.lean` writes down the bytes that X3DH, the Double Ratchet, sender keys and safety numbers prescribe,
  without using any function of the model; C60–C62 prove that the model produces these bytes.
* `Model/Heap.lean` writes the session code a second time as the Go code is, on pointers: records and states are objects on a heap, setters
  write in place, `Clone` and the stores decide who shares what. C85 proves that this code and the functions on values agree, for every history.
  `Model/GroupHeap.lean` does the same for the group code and also writes its slices as windows into arrays (C93–C96).
  `Model/SessionHeap.lean` writes the slices of the session code in the same way (C99–C102).
* `Model/Inspect.lean` has the accessors of records and the printed texts; `Spec/Openness.lean` and `Spec/Recovery.lean` say what a
  ratchet step forgets and what a new bundle repairs (C87–C90).
* `Model/Threads.lean` cuts every API call at its store calls; `Proofs/ThreadCalls.lean` and `Proofs/ThreadGroups.lean` prove that a call run alone is the
  sequential function. C63–C67 quantify over all interleavings of such calls.

## Trusted base

* Lean 4.33.0's kernel, and at most the axioms `propext`, `Classical.choice`, `Quot.sound` (list per theorem below). No other
  axiom, no `sorry`, no `native_decide`/`bv_decide`. `decide +kernel` is used for concrete witnesses, examples and finite
  case splits such as "all 256 bytes"; it is checked by the kernel.
* The correspondence between the Lean definitions and the Go text (each definition cites file and lines).
* Facts about Go's runtime and third-party libraries that the model transcribes: slice-bound panics, nil
  dereference panics, `encoding/binary`, `google/uuid` parsing, the protobuf wire format of
  `google.golang.org/protobuf`, `crypto/cipher` CBC chaining, `append` writing into spare capacity,
  `proto.Unmarshal` copying `bytes` fields.

### Modelled

`protocol/session` (session, cipher, state, record, in-memory stores, group session/cipher/record/state),
`protocol/senderkey`, `protocol/message` (all four message types and their parsers), `protocol/ratchet`,
`protocol/crypto/aes`, `protocol/curve` and `protocol/curve/curve25519` (key encodings, clamping, Diffie-Hellman, XEdDSA),
`protocol/identity`, `protocol/prekey` (in-memory store, bundle), `protocol/fingerprint`, `protocol/address`,
`protocol/distribution`, and the generated protobuf codec for the messages these use.

### Not modelled, or specified and not computed

* The algorithms of Go's standard library and of `filippo.io/edwards25519` are modelled by what they compute (the text of the
  standards), not by the code of those packages. The square root of point decompression is specified, not computed.
  Constant-time behaviour is not modelled.
* Protobuf unknown-field retention (parsed structures are re-serialised without unknown fields) and UTF-8
  validation (no `string` field occurs in the modelled messages).
* Context cancellation, logging text, error message text (apart from the two errors that carry an address, Model/Inspect), garbage collection.
* The concurrency theorems about results (C63 to C67, C104 to C106) are about stores that hand out copies and whose calls are atomic.
  The library has no lock, and its in-memory stores are plain Go maps. Which overlapping calls race on these maps is C110; that
  calls about different peers or sender keys never touch the same object is C123 and C124. Interleavings of single memory
  accesses to one shared record are not modelled. The one goroutine the library starts is in `Clear` (C111).
* Interface values that a caller fills with a foreign implementation of `curve.PublicKey`, and zero-valued
  `identity.Key{}` arguments.
* `append` to slices that accessors return
  (modelled: to the four keys of a session that accessors return, C133_append, C133_append_held, C133_append_later, C133_append_after_receiving and C133_append_overwrites_chain_key, and to the bytes of messages, C134_append_parsed
  and C134_append_made). Slices are
  modelled in nine places only: the plaintext handed to `CBCEncrypt` (Model/Slice), the buffers messages are parsed from (Model/Buffer), the bytes of keys
  (Model/KeyHeap, C130), the bytes of group states and group messages (Model/GroupBytes, C131), the bytes of session states
  (Model/StateBytes, C132), the same while the session sends and receives (Model/StateUse, C133), the bytes that getters of messages
  return (Model/Getters, C134), and the slices of pointers in group records and
  group states (Model/GroupHeap) and in session records and states (Model/SessionHeap).
* Memory exhaustion. Byte strings longer than Go can address are excluded by an explicit length hypothesis.

### Axioms of each theorem

Generated by `tools/axioms.py` with `#print axioms`.

<!-- axioms -->
* **none** (1): `C92_error_text_exact`
* **propext** (5): `C25_signal_panics_false`, `C25_plaintext_message`, `C47_tofu_agrees`, `C48_replacement_false`, `C91_no_session`
* **Quot.sound, propext** (58): `C08_failed_encrypt_keeps_session_partial`, `C08_all_or_nothing_partial`, `C09_encrypt_only_to_trusted`, `C19_group_other_version_is_rejected`, `C25_signal_partial`, `C25_others_partial`, `C26_version_enforced`, `C26_empty_and_plaintext`, `C27_signal_authenticated`, `C27_senderKey_authenticated`, `C28_distribution_id_round_trip`, `C28_distribution_id_injective`, `C29_public_key_encoding`, `C29_public_key_rejects`, `C29_public_key_reencode`, `C32_any_curve`, `C33_alternate_identity`, `C43_authenticated`, `C45_failed_decrypt_keeps_record_partial`, `C45_only_authentic_partial`, `C47_trust_on_first_use`, `C47_load`, `C48_replacement_partial`, `C50_compare_any_bytes`, `C55_verifyMAC_exact`, `C55_verifyMAC_key_size`, `C55_too_short`, `C56_displayable_digits`, `C56_needs_thirty_bytes`, `C72_length_is_all_that_shows`, `C75_sent_key_is_gone`, `C80_encrypt_pins`, `C83_parsing`, `C83_signal_partial`, `C83_senderKey_partial`, `C83_distribution_partial`, `C92_id_text`, `C109_group_process`, `C111_clear_at_once`, `C111_never_touches`, `C113_sent_unreadable`, `C115_hmac`, `C115_hkdf`, `C118_encrypt`, `C118_group`, `C119_short_contents`, `C121_unchanged_contents`, `C125_signal`, `C125_preKey`, `C125_signal_extra_fields`, `C125_preKey_extra_fields`, `C125_scanned_extra_fields`, `C125_stored_extra_fields`, `C125_malformed`, `C126_encrypt`, `C129_encrypt`, `C129_group_decrypt`, `C134_group_written_is_decrypted`
* **Classical.choice, Quot.sound, propext** (360): `C01_delivery`, `C01_exact`, `C01_sending`, `C02_agreement`, `C03_no_second_delivery_false`, `C03_no_late_second_delivery_false`, `C03_no_second_delivery_partial`, `C03_spent_message_partial`, `C03_replay_exactly_partial`, `C03_newest_again_false`, `C04_rejection_is_an_error_false`, `C04_rejection_gives_no_plaintext_partial`, `C04_preKey_rejection_partial`, `C04_nil_plaintext_partial`, `C05_in_memory_partial`, `C05_failed_decrypt_keeps_session_false`, `C05_failed_delete_false`, `C05_failed_decrypt_keeps_session_partial`, `C05_all_or_nothing_partial`, `C05_nil_plaintext_partial`, `C06_only_trusted_keys_partial`, `C06_failed_decrypt_keeps_trust_false`, `C06_known_identity_is_kept_partial`, `C07_no_reuse_partial`, `C07_position_is_persisted`, `C07_in_memory_false`, `C07_in_memory_same_key_false`, `C08_failed_encrypt_keeps_session_false`, `C09_decrypt_signal_only_from_trusted`, `C09_decrypt_preKey_false`, `C09_decrypt_preKey_partial`, `C10_bundle_is_authenticated`, `C10_rejected_bundle_changes_nothing`, `C11_records_stay_bounded`, `C12_too_far_is_rejected`, `C12_too_far_preKey_is_rejected`, `C12_limit_is_exact`, `C13_success_consumes_the_named_preKey`, `C13_failure_consumes_nothing`, `C13_all_or_nothing`, `C14_known_preKey_creates_nothing`, `C15_promotion_loses_nothing`, `C16_in_memory_false`, `C16_id_zero_false`, `C16_plain_after_first_reply`, `C16_preKey_until_first_reply_partial`, `C17_operations_are_isolated`, `C17_histories_are_isolated`, `C18_unknown_signed_preKey_false`, `C18_low_order_base_key_false`, `C18_signal_never_panics_partial`, `C18_preKey_never_panics_partial`, `C19_state_rejects_other_version`, `C19_other_version_is_rejected`, `C19_only_version_3`, `C20_state_round_trip`, `C20_stored_state_round_trip`, `C20_archive_is_recovered`, `C20_archived_state_is_recovered`, `C21_signal_round_trip`, `C22_preKey_round_trip`, `C22_preKey_round_trip_built`, `C23_senderKey_round_trip`, `C24_distribution_round_trip`, `C25_preKey_panics_false`, `C25_preKey_partial`, `C30_private_key`, `C30_private_key_round_trip`, `C30_prekey_round_trip`, `C31_signatures_verify`, `C31_code_meets_the_assumptions`, `C32_only_the_concatenation`, `C32_wrong_length`, `C32_never_panics`, `C34_cbc_round_trip`, `C34_cbc_encrypt_rejects`, `C35_cbcDecrypt_never_panics`, `C35_cbcDecrypt_rejects`, `C35_cbcDecrypt_strips`, `C35_bad_padding_rejected`, `C36_refines`, `C36_caller_memory_false`, `C36_caller_memory_partial`, `C37_delivery`, `C37_exact`, `C37_distribution_arrives`, `C38_accepted_once_partial`, `C38_dropped_chain_false`, `C39_nothing_before_distribution`, `C40_bounded`, `C41_distribution`, `C41_never_rewound`, `C42_jump_limit`, `C42_boundary`, `C44_iterations_distinct`, `C44_advance_persisted`, `C45_failed_decrypt_keeps_record_false`, `C46_existing_key`, `C46_existing_key_succeeds`, `C46_new_key`, `C49_fingerprints_agree`, `C50_compare_codes`, `C50_newScannable_lengths`, `C51_iteration_bounds`, `C52_address_unambiguous`, `C53_partial`, `C53_id_zero_false`, `C54_ciphertext_only_after_store`, `C54_plaintext_only_after_store`, `C57_retry_deletes_preKey_false`, `C57_retry_deletes_preKey_partial`, `C58_partial`, `C58_in_order_false`, `C58_false`, `C59_accepts_exactly`, `C60_wire`, `C61_group_wire`, `C61_group_numbers`, `C62_fingerprint_conforms`, `C63_calls_at_once`, `C63_different_peers`, `C63_every_call_returns`, `C64_concurrent_sends_false`, `C64_concurrent_sends_partial`, `C65_group_calls_at_once`, `C65_different_groups`, `C65_every_call_returns`, `C66_concurrent_group_sends_false`, `C66_concurrent_group_sends_partial`, `C67_one_time_preKey_false`, `C67_one_time_preKey_partial`, `C68_plaintext_is_authentic`, `C68_state_reads_exactly`, `C68_readable_is_read`, `C68_first_message_is_read`, `C69_only_ciphertexts_false`, `C69_accepted_ciphertexts_partial`, `C70_plaintext_is_authentic`, `C70_reads_exactly`, `C71_registration_id_false`, `C71_witness_false`, `C71_new_session_partial`, `C72_group_length_is_all_that_shows`, `C72_overhead`, `C73_stored_bytes_bounded`, `C74_restart_false`, `C74_all_states_partial`, `C75_received_key_is_kept_false`, `C75_received_in_order_false`, `C75_late_key_is_gone_partial`, `C76_sent_key_is_gone`, `C76_received_key_is_gone`, `C77_delivery`, `C77_exact`, `C77_sending`, `C77_starting`, `C78_signature_is_prescribed`, `C78_nonce_repeats_only_with_the_hash`, `C79_both_agree`, `C79_never_zero`, `C79_multiplies`, `C79_small_order_refused`, `C79_minus_one_refused`, `C79_refused_exactly`, `C80_decrypt_signal_pins`, `C80_decrypt_preKey_pins`, `C80_bundle_pins`, `C80_first_use_is_final`, `C81_aes_inverts`, `C81_algorithms_meet_the_assumptions`, `C82_delivery`, `C82_exact`, `C82_sending`, `C82_starting`, `C83_preKey_partial`, `C83_independent_false`, `C84_delivery`, `C84_exact`, `C84_again`, `C85_store_may_copy`, `C85_agrees`, `C86_snapshot_false`, `C86_snapshot_partial`, `C86_other_peers_partial`, `C86_one_object`, `C86_apart`, `C87_ratchet_step_forgets`, `C88_ratchet_step_renews`, `C89_content_is_open`, `C89_short_content_is_open`, `C89_group_content_is_open`, `C90_delivery`, `C90_sending`, `C91_stored_records_answer`, `C91_sender_chain_counts`, `C91_receiver_chain_counts`, `C92_type_text`, `C92_error_text`, `C93_agrees`, `C93_store_may_copy`, `C94_snapshot_false`, `C94_snapshot_partial`, `C94_other_groups_partial`, `C94_one_object`, `C94_apart`, `C95_nothing_hidden`, `C95_distinct`, `C96_nothing_hidden_false`, `C96_nothing_hidden_partial`, `C96_last_kept_first_partial`, `C97_used_pre_key_forgotten`, `C98_set_up_hides`, `C99_agrees`, `C99_room_does_not_matter`, `C100_no_chain_hidden`, `C100_no_nil`, `C101_used_keys_gone_false`, `C101_serialised_partial`, `C101_at_most_one_partial`, `C101_next_message_partial`, `C101_new_session_partial`, `C102_evicted_sessions_gone_false`, `C102_serialised_partial`, `C102_before_the_limit_partial`, `C103_sender_key_arrives`, `C103_group_delivery`, `C104_crash`, `C104_crash_state_is_reachable`, `C104_no_reuse_after_crash`, `C104_group_crash`, `C104_no_group_reuse_after_crash`, `C105_as_if_alone`, `C105_every_change`, `C105_records_stay_bounded`, `C105_plaintext_is_authentic`, `C105_sent_only_after_stored`, `C105_received_only_after_stored`, `C105_plain_message_never_panics`, `C106_group_call_is_sequential`, `C106_group_record_is_sequential`, `C106_result_of_reachable_state`, `C106_record_of_reachable_state`, `C106_bounded`, `C107_texts_of_an_id`, `C107_other_texts`, `C107_text_has_one_meaning`, `C107_text_form`, `C108_only_pre_key_messages_panic`, `C108_also_when_calls_overlap`, `C108_group_calls_never_panic`, `C108_group_calls_that_overlap`, `C108_pre_key_message_panics_exactly`, `C108_panics_exactly_on_curve`, `C109_encrypt`, `C109_bundle`, `C109_group_encrypt`, `C109_group_distribute`, `C109_bundle_on_curve`, `C110_success_races`, `C110_race_exactly`, `C110_group_race_exactly`, `C110_accesses`, `C112_first_message`, `C112_in_session`, `C112_accepted`, `C112_conversation`, `C113_read_by_version_3`, `C113_others_read_nothing`, `C114_nobody_knows`, `C114_other_values_reject`, `C114_accepted_by_guess`, `C115_sha256`, `C115_sha512`, `C115_aes`, `C116_delivery`, `C116_exact`, `C116_sending`, `C116_starting`, `C117_common_session`, `C118_decrypt`, `C118_bundle`, `C119_contents_are_open`, `C119_same_messages`, `C120_stored_keys`, `C120_bundle`, `C120_origin`, `C120_never_before`, `C120_reads`, `C120_group`, `C121_group_contents_are_open`, `C121_same_group_messages`, `C122_no_oracle`, `C122_no_group_oracle`, `C122_no_oracle_in_histories`, `C122_no_group_oracle_in_histories`, `C123_no_shared_object`, `C123_writes_only_own`, `C123_reads_only_own`, `C124_no_shared_object`, `C124_writes_only_own`, `C124_reads_only_own`, `C125_senderKey`, `C125_distribution`, `C125_senderKey_extra_fields`, `C125_distribution_extra_fields`, `C126_bundle`, `C126_decrypt`, `C126_named_only`, `C127_alternate_signed`, `C127_alternate_verified`, `C127_alternate_and_bundle`, `C127_group_and_others`, `C128_any_store`, `C128_pre_key_message`, `C128_encrypt_needs`, `C129_every_key`, `C129_decrypt_on_curve`, `C129_decrypt`, `C129_group_encrypt`, `C130_as_values`, `C130_keys_never_change`, `C130_own_bytes`, `C131_as_values_partial`, `C131_own_bytes`, `C131_store_is_apart`, `C131_written_key_is_used`, `C131_chain_key_false`, `C131_only_this_key_changes`, `C131_shared_until_next_message`, `C132_as_values`, `C132_any_layout`, `C132_looking_changes_nothing`, `C132_same_bytes`, `C132_message_keys_lose_message`, `C132_message_keys_change_session`, `C132_shared_bytes_change_session`, `C133_as_values`, `C133_received_ends_sharing`, `C133_sent_ends_sharing`, `C133_failure_changes_nothing`, `C133_append_overwrites_chain_key`, `C133_append`, `C133_append_held`, `C133_append_later`, `C133_append_after_receiving`, `C134_signal_parsed`, `C134_senderKey_parsed`, `C134_distribution_parsed`, `C134_preKey_parsed`, `C134_signal_made`, `C134_senderKey_made`, `C134_preKey_made`, `C134_plaintext`, `C134_as_values`, `C134_append_parsed`, `C134_append_made`, `C134_written_is_decrypted`, `C134_call`, `C134_preKey_call`, `C134_altered_message_accepted`
<!-- /axioms -->

## Where the code does not have the property

The following English properties are false of the code. For each of them the model proves the negation on a concrete
witness (theorem name ending in `_false`), and a `_partial` theorem states what does hold.

| property | reason |
|---|---|
| C03 | `messageKeys` stores the chain key of the message just used, not the next one: the newest message of a chain can be replayed |
| C04 | `decryptSignal` ignores the error of `decryptMessage`: a rejected Signal message gives `(nil, nil)` |
| C05 C08 C45 | the in-memory stores hand out shared pointers, so mutations made before a failure stick; with any store a failing `Delete` reports an error after the session was written (C05) |
| C06 | `ProcessPreKey` stores the sender identity before the message is authenticated |
| C07 | in-memory store only: a rejected pre-key message leaves a session that sends from counter 0 of the signed pre-key again |
| C09 | pre-key messages only: the identity in the envelope is checked, not the one of the session that decrypts |
| C16 | in-memory store: a rejected forged pre-key message becomes the current session, so later messages are not pre-key messages; with any store a one-time pre-key with id 0 is taken for none |
| C18 | an unknown signed pre-key id, or a low-order base key, makes `DecryptMessage` panic |
| C25 | `NewSignalFromBytes` panics on inputs of 1..8 bytes whose version nibble is 3 |
| C36 | `pkcs7pad` appends in place and can overwrite the caller's spare capacity |
| C38 | a group chain that was evicted from the record can be added again at its old position |
| C48 | the in-memory identity store compares key objects by pointer |
| C53 | one-time pre-key id 0 is treated as "no pre-key" by the sender |
| C57 | when `Delete` of the one-time pre-key fails, a retry takes the known-session path and never deletes it |
| C58 | messages received in order also use up the 2000 places for skipped keys |
| C64 C66 | two sends at the same time load the same chain position |
| C69 | `pkcs7unpad` looks only at the last padding byte |
| C67 | the one-time pre-key is deleted in the last store call, so two calls at the same time can both load it |
| C71 | the registration id in a pre-key message is covered by neither the MAC nor the key derivation |
| C74 | `NewRecordBytes(State().Bytes())` has no archived states |
| C75 | `messageKeys` stores the chain key of the message it delivers, not the next one, and when the next message arrives it keeps the message key as if the message had been skipped |
| C83 | the MAC and the signature are checked over the caller's slice as it is at decryption time, the decrypted ciphertext is a copy made at parsing time: a forged group message is accepted after the buffer has been reused |
| C86 | the in-memory store hands out its own record, and EncryptMessage advances it in place; true for stores that return copies, and for calls about other peers |
| C94 | the in-memory group store hands out its own pointer |
| C96 | RemoveMessageKeys clears the slot that is overwritten next instead of the one it frees |
| C101 | MessageKeys filters the kept keys in place and does not clear the slot that it frees |
| C102 | ArchiveCurrentState moves the slice on by one without clearing the slot in front of it |
| C131 | `ChainKey` of a distribution message made by `NewSenderKeyDistribution` is the stored state's own slice: overwriting it changes the stored sender key |

## Plan per property

| id | model | proof |
|---|---|---|
| C01 | two `World`s and a wire that holds every message sent, any interleaving of sends and deliveries | invariant relating both session states by ratchet epochs; induction over schedules |
| C02 | `initializeAliceSession`, `initializeBobSession`, X3DH | equational, from commutativity of Diffie-Hellman |
| C03 | `messageKeys`, saved keys per chain | refutation witness; bound by invariant on saved keys |
| C04 | `DecryptMessage` | refutation witness; a non-nil plaintext is only returned for a message whose MAC verified |
| C05 C06 C08 | `World` with faults, copying or sharing store | case analysis of every error exit; refutation for sharing stores |
| C07 | `EncryptMessage` in any history | invariant: used positions stay behind the stored ones, induction over histories |
| C09 C10 | trust decisions in encrypt/decrypt/process bundle | case analysis |
| C11 C12 | `State`/`Record` operations | invariant preserved by every operation |
| C13 C14 C57 | `decryptPreKey` | case analysis with faults |
| C15 | `PromoteOldState`, `ArchiveCurrentState` | list permutation |
| C16 | pending pre-key flag | invariant over histories; false for the in-memory store and the id 0 (witnesses) |
| C17 | `World` | frame theorem for every API call |
| C18 | every `DecryptMessage` path | refutation witness; no panic under stated store contents |
| C19 C26 | parsers, version checks | case analysis |
| C20 | protobuf codec of `SessionStructure` | generic wire round trip, induction |
| C21-C24 C27 C28 | message constructors and parsers | wire round trip |
| C25 | parsers | totality by cases, refutation witness |
| C29 C30 | key encodings, clamping | bitwise lemmas |
| C31 C32 C59 | XEdDSA on the curve | field and group algebra; both directions of verification |
| C33 | alternate identity signatures | from the signature law |
| C34 C35 | CBC + PKCS#7 | induction on blocks |
| C36 | slice-with-backing-array model of `append` | refutation, positive for full slices |
| C37-C46 | group record/cipher, two-party group wire | as for the pairwise cipher |
| C47 C48 | in-memory identity store | refinement to a finite map |
| C49-C51 C56 | fingerprints | symmetric under swapping sides; digit arithmetic |
| C52 | `Address.String` | injectivity of decimal printing |
| C53 | pre-key id through pending state and wire | refutation for 0, positive otherwise |
| C54 | order of store writes with faults | case analysis over fault lists |
| C55 | `Signal.VerifyMAC` | byte-wise comparison, both directions |
| C58 | skipped keys in `messageKeys` and `AddMessageKey` | refutation for in-order receipt; window invariant |
| C60 | `Spec/Protocol.lean` against `EncryptMessage` in any history | invariant: the stored state holds the prescribed keys; the encoder produces the prescribed bytes |
| C61 | the same for sender keys and distribution messages | invariant over group histories |
| C62 | the same for `fingerprint.New` | induction on the iterations, digit arithmetic |
| C63 C65 | calls as programs that stop at store calls; schedules | each program is proved equal to the sequential call; steps on different entries commute; schedules are sorted by exchanging steps |
| C64 C66 C67 | the same | refutation witness; with C63/C65 and C07/C44/C13 when clashing calls do not overlap |
| C68 | which states may read a message and what reading takes, written independently of the code (`Spec/Reading`) | case analysis of decryption with the chain-walk lemmas; AES decryption is also a right inverse because it is injective on a finite set |
| C69 | the padded plaintexts `pkcs7unpad` accepts | refutation witness; exact characterisation |
| C70 | the same as C68 for sender keys (`Spec/GroupReading`) | case analysis of the message key, with C69 |
| C71 | two runs of `DecryptMessage` whose messages differ only in the registration id | simulation: the runs go through the same steps up to the stored registration id |
| C72 | two runs of `EncryptMessage` with different plaintexts | side-by-side relation on results; length of varints and fields |
| C73 | the encoding of `SessionStructure` | length bounds per field; invariant on reachable records |
| C74 | two ways of writing a store with `State.Bytes` and `NewRecordBytes` | refutation witness; round trip and induction over the archived states |
| C75 | two runs of a call whose stores differ only in one secret | equality of the resulting stores (non-interference); refutation by the reading lemma of C68 |
| C76 | two runs of a group call whose stores differ only in a chain key | equality of the resulting records (non-interference) |
| C77 | Spec/Sessions.lean: schedules with starts; the model's ProcessPreKeyBundle, EncryptMessage and DecryptMessage unchanged | one copy of the C01 invariant per session, plus an invariant on the record (its states belong to different sessions); a delivery fails in every session but its own and restores all of them |
| C78 | XEdDSA signing on edwards25519 (Model/XEdDSA, Model/Edwards) | unfolding the code to the prescribed equations; equality of nonces from the injectivity of point encoding and the prime order of the base point |
| C79 | X25519 as multiplication of the point with the given coordinate (Model/XEdDSA, Model/Curve25519) | group law of edwards25519; clamped keys are multiples of 8; number of points of the curve and of its twist |
| C80 | session operations over stores that may fail (Model/World) | case analysis of every outcome; induction over histories for the last part |
| C81 | SHA-2, HMAC, HKDF, AES, the Montgomery ladder and XEdDSA written out (Model/Sha2, Model/AesBlock, Model/XEdDSA, Model/Standard) | AES: inverses of the four round operations, MixColumns by additivity and a table of 256 cases; the ladder: differential addition formulas on the Edwards curve |
| C82 | Schedules of C77 with store failures, injected messages, foreign calls and pre-key changes (Spec/Trouble) | each faulty call leaves the sessions as they were or as the undisturbed call leaves them; so the invariant of C77 is kept along a schedule without trouble that has led to the same sessions |
| C83 | Heap of byte arrays with slices (Model/Slice), parsed messages with the slices they hold (Model/Buffer) | which arrays parsing makes, by computation on the heap; what a message shows in any later memory that agrees on these arrays; counterexample by evaluation |
| C84 | Schedules of C37 with faulty deliveries, redistribution and processing of any distribution messages (Spec/GroupTrouble) | invariant of C37 plus the place of the state in the record: the states added after it are for chain ids in a tracked set of at most four; induction on the schedule |
| C85 | The session code on pointers: a heap of record and state objects, Clone/NewState/NewRecord allocate, setters write in place, the store maps addresses to pointers (Model/Heap) | simulation: a relational Hoare logic for one call (state level, record level, store level), the invariant that no two record objects share a state and no two addresses a record; induction on the history |
| C86 | The heap of C85 and loads by the application (Spec/Heap) | frame part of the simulation of C85: a call about a peer keeps the view of every object except the one stored for that peer; induction on the history |
| C87 | The existing session model; stores with three secrets replaced, HKDF with another output for one input (Spec/Openness) | the ratchet step computed explicitly on both sides, then a relational lemma for the rest of the call |
| C88 | As C87; the output of the second key derivation replaced by any value | the ratchet step computed explicitly; decryption commutes with replacing the root key and the sending chain |
| C89 | The existing models of both calls; the primitives with AES changed under one key (Spec/Openness) | a permutation with prescribed values built from exchanges; CBC block by block; the calls see AES only through the ciphertext |
| C90 | The two-sided system of C82, started from stores with any history (Spec/Recovery) | a simulation: the stores with the old sessions and the stores without them give the same results as long as the current session can read |
| C91 | Model/Inspect: the five accessors | an invariant of stored records (a current session, own identity key) over all calls; C54 for the counters |
| C92 | Model/Inspect: the texts as byte strings | decimal numbers determine their value; distinct first letters; C52 for addresses |
| C93 | Model/GroupHeap: records and states in a heap, slices as windows into arrays, append with any growth | simulation of every function by its counterpart on values; invariant: different records have different states, slots outside a record's window are nil |
| C94 | Model/GroupHeap | the simulation of C93 also says which objects a call can change |
| C95 | Model/GroupHeap | the invariant of C93 |
| C96 | Model/GroupHeap | which slots of the array are nil after each function; an invariant over histories |
| C97 | Spec/Openness: HKDF with another output for one single input; the input of a set-up | the set-up gives the same session, and reading the message does not use HKDF at that input; the pre-key is deleted at the end |
| C98 | Spec/Openness: a session with other secrets; the input of a set-up | the set-up with the changed HKDF gives the same session with the other secrets, field by field |
| C99 | Model/SessionHeap: states with slices as windows into arrays, append with any growth | every function does on slices what its counterpart of Model/Heap does on lists; invariant: each slice shows a list without nil, slots outside the window of the receiving chains are nil |
| C100 | Model/SessionHeap | the invariant of C99 |
| C101 | Model/SessionHeap | which slots of the arrays are nil after each function; an invariant over histories that ties the stored records to well-formed values |
| C102 | Model/SessionHeap | the invariant of C101 |
| C103 | Spec/Members: a sender, any number of members, one pairwise conversation per member | the run of the group, seen by one member, is a run of sender and receiver (induction over the schedule); then C01, the round trip of distribution messages, and C37 |
| C104 | the threads of `Model.Threads` under schedules that may end anywhere; `Spec.Crash` says what a call cut off is | a thread that has not ended is made to fail at its next store call and then leaves the stores alone; the sorting argument of C63 then applies to schedules that end early |
| C105 | the threads of `Model.Threads` under arbitrary schedules; `Spec.Alone` says what a call meets and leaves | every call reads each part of the stores at most once and never a part it has changed, so its answers are those of fixed stores put together from what it met; induction over schedules from the end |
| C106 | the threads of `Model.Threads` under arbitrary schedules | a group call loads a record at its first turn and then only changes the store; a stored record has a line of descent, call by call, by induction over schedules from the end |
| C107 | `Model.Uuid`; `Spec.Ids` lists the forms of an id | the digit table against the letters of the specification, then lengths tell the forms apart |
| C108 | the session and group models with `Res.panic`; `Spec.Failures` for which calls | no step of a call panics: each nil that is dereferenced is ruled out by the invariant of reachable records; for pre-key messages the panic is traced to the two dereferences in processPreKeyV3 |
| C109 | the session and group models; `Spec.Failures.Bundle.Usable` | one direction from the lists of outcomes of a call, the other by running the call under the invariant of reachable records |
| C110 | `Model.Races`: the map accesses of each store call; `Spec.Races`: a log of accesses of threads under a schedule, with arbitrary answers of the store calls | by induction on the program of a call: what it accesses is determined by whether it succeeds |
| C111 | `Model.Races.IdHeap`: the store with its maps as objects | invariant: the map in use is none of those being emptied |
| C112 | Spec/Deniability.lean: X3DH and the ratchet as Bob computes them, a first message, a message under given secrets, the wire bytes of a conversation. | First and in-session messages are reduced to what a session can read (C68); the conversation to the prescribed bytes (C60) by symmetry of Diffie-Hellman along the ladder of ratchet keys. |
| C113 | No new model; worlds with arbitrary stored records, parsed messages. | From a delivered plaintext back to the state that read it, whose version equals that of the message, which the parser requires to be 3. |
| C114 | Spec/Guessing.lean: the algorithms with HMAC changed at a set of points, the points at which a receiver looks, what it means not to have sent a body and to have seen only wrong guesses. | Congruence of every function of the cipher under the change, call by call and by induction over the history; C68 for the receiver. |
| C115 | Spec/Standards.lean: FIPS 180-4, RFC 2104, RFC 5869 and FIPS 197 independently of the model. | Word-by-word correspondence by induction over rounds, blocks, key words and output blocks; the constants by evaluation in the kernel. |
| C116 | Spec/Network.lean: a network of users of any number and its schedules; the model's functions run on every user's own stores. | Projection: the run of the network, seen by two of its users, is a run of C82 in which calls about other users change nothing of theirs (C17); the pre-keys that others use up are not theirs, because pending pre-key messages name only the key that their bundle offered. |
| C117 | As C77, with the session names that it already records. | The invariant of C77: sending keeps the current session, an accepted message makes its session current, a rejected one changes nothing; induction over what follows. |
| C118 | The calls as functions of the cryptographic algorithms; a set of queries and the algorithms that agree on it. | The calls are composed of few steps, each of which needs at most so many queries; sums over sequencing, induction over the skipping loop and the archived sessions, with the bounds of C11. |
| C119 | Spec/Transcript.lean: histories with other contents, on top of the session model | An opening cipher by induction over the messages (permutations with given values), then a relation between the two runs through decryptMessageSession, the archived sessions, records and calls, and induction over the history. |
| C120 | Spec/Fresh.lean: keys made of random bytes, on top of the session model | Record steps (Proofs/Steps) and induction over the history; for the reading a compositional predicate on computations, proved for every function that uses randomness. |
| C121 | Spec/GroupTranscript.lean: group histories with other contents, on top of Spec/Transcript and the group model | The opening cipher of C119; a relation between the two runs through groupEncrypt and groupDecrypt, with the secret bytes of C70, and induction over the history. |
| C122 | Spec/Oracle.lean: forged messages and headers, on top of the session and group models | Equality of the two runs through decryptMessageSession, the archived sessions, records and calls; induction over the history. |
| C123 | Model/SessionHeap.lean, Spec/Apart.lean: memories that agree on the objects of one peer | Two runs of every function on related memories; the invariant that objects are not shared, by induction over the history. |
| C124 | Model/GroupHeap.lean, Spec/Apart.lean | As C123; the arrays of slices stay within the objects of the sender key. |
| C125 | Model/Wire.lean with Spec/Fields.lean, Spec/Texts.lean: the wire format as a grammar | Both directions of parser against grammar; induction over the bytes, and over the nesting of groups. |
| C126 | Model/World.lean, Spec/PreKeys.lean: the same stores with other pre-keys | Every call commutes with the replacement; step by step through the calls. |
| C127 | Model/Keys.lean, Spec/Purposes.lean: what is signed | Exact texts, compared by their first byte. |
| C128 | Model/World.lean with arbitrary records, Spec/Damaged.lean: what sending needs | Every helper returns an error or a value for every record; exact condition for EncryptMessage. |
| C129 | Model/World.lean, Model/Group.lean, Spec/Unrandom.lean: the same stores but for the user's own newest keys | Two runs side by side through every step of the calls. |
| C130 | Heap of byte arrays with keys that hold slices (Model/KeyHeap), and the same program over plain values (Spec/KeyHeap) | simulation by induction over the program: every call works on new arrays, and held slices are apart from the arrays of keys |
| C131 | Group sessions with chain keys, message keys and messages as slices over a heap of byte arrays (Model/GroupBytes), and programs over memory and over values (Spec/GroupBytes) | simulation by induction over the program: calls work on new arrays apart from the padding of the plaintext; held slices are apart from each other and from the arrays of the store |
| C132 | Session states with slices for byte strings over a heap of byte arrays (Model/StateBytes), and programs over memory and over values (Spec/StateBytes) | invariant over the program: the windows of the state are pairwise apart and apart from what the program owns, and each shared slice is the one its accessor returns |
| C133 | The ratchet over a heap of byte arrays: which new keys are windows of one array (Model/StateUse), and programs that look, write, send and receive (Spec/StateUse) | each function over memory does what its counterpart of Model/Cipher does on values and makes windows that do not overlap; overlap is settled by counting slices; invariant of C132 over programs |
| C134 | Messages with the slices they are made from (Model/Buffer, Model/Getters) and writes to them (Spec/Getters) | slices that share no byte behave as separate byte strings, by induction over the writes; new arrays never overlap old slices; the check does not read the ciphertext |
