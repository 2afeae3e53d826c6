{"claims": [
{"property": "C01", "status": "proved", "theorems": ["Verif.C01_delivery", "Verif.C01_exact", "Verif.C01_sending"], "note": "every schedule of sends and deliveries from a fresh bundle, loss, reordering and repetition, both kinds of session store on either side, messages delivered as bytes; plaintexts under 2^62 bytes, fewer than 2^32 events; a message whose receiving chain was dropped is assumed not to be accepted by chance under a different key"},
{"property": "C02", "status": "proved", "theorems": ["Verif.C02_agreement"], "note": "all key pairs, with and without a one-time pre-key"},
{"property": "C03", "status": "partial", "theorems": ["Verif.C03_no_second_delivery_false", "Verif.C03_no_late_second_delivery_false", "Verif.C03_no_second_delivery_partial", "Verif.C03_spent_message_partial", "Verif.C03_replay_exactly_partial", "Verif.C03_newest_again_false"], "note": "false as stated: the newest message of a chain is accepted again, and once more after the chain has advanced (witnesses in the _false theorems). Proved: a message delivered after a newer one of its chain is rejected in every later state, for all interleavings, while the chain is kept"},
{"property": "C04", "status": "partial", "theorems": ["Verif.C04_rejection_is_an_error_false", "Verif.C04_rejection_gives_no_plaintext_partial", "Verif.C04_preKey_rejection_partial", "Verif.C04_nil_plaintext_partial"], "note": "False as stated: for a plain message that does not verify, DecryptMessage returns a nil plaintext and a nil error. Proved: no plaintext is ever returned for a message that no state which may read it can read (Spec/Reading.lean: secrets of the position, MAC, padding); a pre-key message of this kind is never a success; a nil plaintext always means rejection."},
{"property": "C05", "status": "partial", "theorems": ["Verif.C05_in_memory_partial", "Verif.C05_failed_decrypt_keeps_session_false", "Verif.C05_failed_delete_false", "Verif.C05_failed_decrypt_keeps_session_partial", "Verif.C05_all_or_nothing_partial", "Verif.C05_nil_plaintext_partial"], "note": "false as stated: with the library's in-memory store a forged pre-key message replaces the current session although an error is returned, and with any store a failing pre-key Delete reports an error after the session was written (witnesses); partial: copying stores that do not fail keep every session, and with arbitrary failures the sessions are unchanged or exactly those of the successful call; C05_in_memory_partial says exactly what remains in the store, for both kinds of store that do not fail"},
{"property": "C06", "status": "partial", "theorems": ["Verif.C06_only_trusted_keys_partial", "Verif.C06_failed_decrypt_keeps_trust_false", "Verif.C06_known_identity_is_kept_partial"], "note": "false as stated: the identity is stored before the message is authenticated (witness); partial: with trust on first use an identity once known never changes, over all histories; C06_only_trusted_keys_partial says exactly which key may be recorded by a failed call"},
{"property": "C07", "status": "partial", "theorems": ["Verif.C07_no_reuse_partial", "Verif.C07_position_is_persisted", "Verif.C07_in_memory_false", "Verif.C07_in_memory_same_key_false"], "note": "false for the in-memory session store: rejected pre-key messages leave a session that sends from counter 0 of the signed pre-key again, in the second witness even with the same message key; partial: for every store that returns copies, and for the in-memory store in histories where no pre-key message was rejected, no two returned messages share ratchet key and counter; the persisted-position half holds without restriction"},
{"property": "C08", "status": "partial", "theorems": ["Verif.C08_failed_encrypt_keeps_session_false", "Verif.C08_failed_encrypt_keeps_session_partial", "Verif.C08_all_or_nothing_partial"], "note": "false as stated for the in-memory store (the chain key is advanced in the shared record before the trust check); partial: copying stores, and all-or-nothing for every store and failure"},
{"property": "C09", "status": "partial", "theorems": ["Verif.C09_encrypt_only_to_trusted", "Verif.C09_decrypt_signal_only_from_trusted", "Verif.C09_decrypt_preKey_false", "Verif.C09_decrypt_preKey_partial"], "note": "false for pre-key messages: the envelope identity is checked, the identity of the session state that decrypts is not (witness); proved for EncryptMessage and for plain messages; partial for pre-key messages: the envelope identity is trusted"},
{"property": "C10", "status": "proved", "theorems": ["Verif.C10_bundle_is_authenticated", "Verif.C10_rejected_bundle_changes_nothing"], "note": "all bundles, states, stores and failures"},
{"property": "C11", "status": "proved", "theorems": ["Verif.C11_records_stay_bounded"], "note": "for every reachable world, kind of store and failure pattern"},
{"property": "C12", "status": "proved", "theorems": ["Verif.C12_too_far_is_rejected", "Verif.C12_too_far_preKey_is_rejected", "Verif.C12_limit_is_exact"], "note": "rejection for both message kinds, and exactness of the 25000 limit on known chains"},
{"property": "C13", "status": "proved", "theorems": ["Verif.C13_success_consumes_the_named_preKey", "Verif.C13_failure_consumes_nothing", "Verif.C13_all_or_nothing"], "note": "success removes exactly the named key; failure removes nothing when failing store calls have no effect; with arbitrary failures all or nothing"},
{"property": "C14", "status": "proved", "theorems": ["Verif.C14_known_preKey_creates_nothing"], "note": "a pre-key message whose session is known creates no session and consumes no pre-key"},
{"property": "C15", "status": "proved", "theorems": ["Verif.C15_promotion_loses_nothing"], "note": "promotion permutes the states of the record apart from the ratchet step of the state used"},
{"property": "C16", "status": "partial", "theorems": ["Verif.C16_in_memory_false", "Verif.C16_id_zero_false", "Verif.C16_plain_after_first_reply", "Verif.C16_preKey_until_first_reply_partial"], "note": "false as stated for the in-memory store, where a rejected forged pre-key message ends the phase, and for the pre-key id 0 (witnesses); from the first reply on it is proved for every store and failure (C16_plain_after_first_reply); before it, partial: for stores that return copies and bundles whose pre-key id is not 0"},
{"property": "C17", "status": "proved", "theorems": ["Verif.C17_operations_are_isolated", "Verif.C17_histories_are_isolated"], "note": "all operations, outcomes, panics, store failures, and histories"},
{"property": "C18", "status": "partial", "theorems": ["Verif.C18_unknown_signed_preKey_false", "Verif.C18_low_order_base_key_false", "Verif.C18_signal_never_panics_partial", "Verif.C18_preKey_never_panics_partial"], "note": "false as stated: an unknown signed pre-key id or a low-order base key makes DecryptMessage panic (witnesses in the _false theorems). Proved: no parsed plain message panics, and no pre-key message outside these two cases. C108 gives the exact condition"},
{"property": "C19", "status": "proved", "theorems": ["Verif.C19_group_other_version_is_rejected", "Verif.C19_state_rejects_other_version", "Verif.C19_other_version_is_rejected", "Verif.C19_only_version_3"], "note": "sessions and groups"},
{"property": "C20", "status": "proved", "theorems": ["Verif.C20_state_round_trip", "Verif.C20_stored_state_round_trip", "Verif.C20_archive_is_recovered", "Verif.C20_archived_state_is_recovered"], "note": "round trip of every state the library can store, and of archived states"},
{"property": "C21", "status": "proved", "theorems": ["Verif.C21_signal_round_trip"], "note": "every field, size and key; MAC verification included"},
{"property": "C22", "status": "proved", "theorems": ["Verif.C22_preKey_round_trip", "Verif.C22_preKey_round_trip_built"], "note": "both for arbitrary fields and for messages built from an outgoing session"},
{"property": "C23", "status": "proved", "theorems": ["Verif.C23_senderKey_round_trip"], "note": "all ids, chain ids, iterations, ciphertexts and signing keys"},
{"property": "C24", "status": "proved", "theorems": ["Verif.C24_distribution_round_trip"], "note": "all ids, iterations, 32-byte chain keys and signing keys"},
{"property": "C25", "status": "partial", "theorems": ["Verif.C25_signal_panics_false", "Verif.C25_preKey_panics_false", "Verif.C25_signal_partial", "Verif.C25_preKey_partial", "Verif.C25_others_partial", "Verif.C25_plaintext_message"], "note": "false as stated: NewSignalFromBytes slices out of range for inputs of 1 to 8 bytes (witnesses in the _false theorems); the _partial theorems give the exact inputs that panic and show all other parsers never do"},
{"property": "C26", "status": "proved", "theorems": ["Verif.C26_version_enforced", "Verif.C26_empty_and_plaintext"], "note": "all parsers, all byte strings"},
{"property": "C27", "status": "proved", "theorems": ["Verif.C27_signal_authenticated", "Verif.C27_senderKey_authenticated"], "note": "pairwise and sender-key messages"},
{"property": "C28", "status": "proved", "theorems": ["Verif.C28_distribution_id_round_trip", "Verif.C28_distribution_id_injective"], "note": "all 128-bit ids; also injectivity"},
{"property": "C29", "status": "proved", "theorems": ["Verif.C29_public_key_encoding", "Verif.C29_public_key_rejects", "Verif.C29_public_key_reencode"], "note": "acceptance set characterised exactly"},
{"property": "C30", "status": "proved", "theorems": ["Verif.C30_private_key", "Verif.C30_private_key_round_trip", "Verif.C30_prekey_round_trip"], "note": "clamping, storage round trip for private keys and pre-keys"},
{"property": "C31", "status": "proved", "theorems": ["Verif.C31_signatures_verify", "Verif.C31_code_meets_the_assumptions"], "note": "the signature code on the real curve: field, group law, primes and the order of the base point are proved in Lean; SHA-512 is an arbitrary function (C81 puts SHA-512 in its place). The second theorem shows that this code satisfies every law the rest of the model assumes of keys, agreement and signatures"},
{"property": "C32", "status": "proved", "theorems": ["Verif.C32_only_the_concatenation", "Verif.C32_wrong_length", "Verif.C32_any_curve", "Verif.C32_never_panics"], "note": "for the signature code itself"},
{"property": "C33", "status": "proved", "theorems": ["Verif.C33_alternate_identity"], "note": "for every signature scheme whose verify accepts its own signatures"},
{"property": "C34", "status": "proved", "theorems": ["Verif.C34_cbc_round_trip", "Verif.C34_cbc_encrypt_rejects"], "note": "all plaintexts, valid keys and IVs, over an abstract block cipher with its inverse"},
{"property": "C35", "status": "proved", "theorems": ["Verif.C35_cbcDecrypt_never_panics", "Verif.C35_cbcDecrypt_rejects", "Verif.C35_cbcDecrypt_strips", "Verif.C35_bad_padding_rejected"], "note": "all byte strings"},
{"property": "C36", "status": "partial", "theorems": ["Verif.C36_refines", "Verif.C36_caller_memory_false", "Verif.C36_caller_memory_partial"], "note": "false as stated: pkcs7pad appends in place and overwrites spare capacity (witness); partial: only spare capacity behind the slice can change, and nothing changes when capacity equals length"},
{"property": "C37", "status": "proved", "theorems": ["Verif.C37_delivery", "Verif.C37_exact", "Verif.C37_distribution_arrives"], "note": "every schedule of sends, deliveries, foreign messages and calls for other groups, both kinds of store on either side, store failures at the sender; iterations do not wrap"},
{"property": "C38", "status": "partial", "theorems": ["Verif.C38_accepted_once_partial", "Verif.C38_dropped_chain_false"], "note": "false without the condition that the record keeps the chain: after distribution messages for five other chains the chain's own distribution message brings it back at the old position (C38_dropped_chain_false). The _partial theorem proves the claim for every history, both kinds of store and any store failures, while the chain is kept and the 32-bit iteration has not wrapped"},
{"property": "C39", "status": "proved", "theorems": ["Verif.C39_nothing_before_distribution"], "note": "every history of receiver calls after the distribution message, both kinds of store, any store failures"},
{"property": "C40", "status": "proved", "theorems": ["Verif.C40_bounded"], "note": "every reachable record, both kinds of store, any store failures"},
{"property": "C41", "status": "proved", "theorems": ["Verif.C41_distribution", "Verif.C41_never_rewound"], "note": "every reachable record and every distribution message; second theorem for failing stores"},
{"property": "C42", "status": "proved", "theorems": ["Verif.C42_jump_limit", "Verif.C42_boundary"], "note": "every reachable record and iteration, both kinds of store, any store failures"},
{"property": "C43", "status": "proved", "theorems": ["Verif.C43_authenticated"], "note": "every record and message, both kinds of store, any store failures"},
{"property": "C44", "status": "proved", "theorems": ["Verif.C44_iterations_distinct", "Verif.C44_advance_persisted"], "note": "every history from an empty store, any store failures, both kinds of store"},
{"property": "C45", "status": "partial", "theorems": ["Verif.C45_failed_decrypt_keeps_record_false", "Verif.C45_failed_decrypt_keeps_record_partial", "Verif.C45_only_authentic_partial"], "note": "false for the in-memory store (witness); proved for copying stores; for every store only an authentic message leaves a change"},
{"property": "C46", "status": "proved", "theorems": ["Verif.C46_existing_key", "Verif.C46_existing_key_succeeds", "Verif.C46_new_key"], "note": "every store state"},
{"property": "C47", "status": "proved", "theorems": ["Verif.C47_trust_on_first_use", "Verif.C47_load", "Verif.C47_tofu_agrees"], "note": "all histories of Store/Clear"},
{"property": "C48", "status": "partial", "theorems": ["Verif.C48_replacement_false", "Verif.C48_replacement_partial"], "note": "false as stated: pointers are compared, so equal keys at different addresses report a replacement; partial: exact up to that"},
{"property": "C49", "status": "proved", "theorems": ["Verif.C49_fingerprints_agree"], "note": "all users, keys, iteration counts"},
{"property": "C50", "status": "proved", "theorems": ["Verif.C50_compare_codes", "Verif.C50_newScannable_lengths", "Verif.C50_compare_any_bytes"], "note": "all byte strings"},
{"property": "C51", "status": "proved", "theorems": ["Verif.C51_iteration_bounds"], "note": "all iteration counts"},
{"property": "C52", "status": "proved", "theorems": ["Verif.C52_address_unambiguous"], "note": "all pairs of addresses"},
{"property": "C53", "status": "partial", "theorems": ["Verif.C53_partial", "Verif.C53_id_zero_false"], "note": "false for the id 0 (witness); proved for every other id"},
{"property": "C54", "status": "proved", "theorems": ["Verif.C54_ciphertext_only_after_store", "Verif.C54_plaintext_only_after_store"], "note": "all reachable worlds and all failure patterns; each prefix of store calls is a failure pattern"},
{"property": "C55", "status": "proved", "theorems": ["Verif.C55_verifyMAC_exact", "Verif.C55_verifyMAC_key_size", "Verif.C55_too_short"], "note": "MAC check exact; wrong key sizes are errors"},
{"property": "C56", "status": "proved", "theorems": ["Verif.C56_displayable_digits", "Verif.C56_needs_thirty_bytes"], "note": "all 32-byte fingerprints"},
{"property": "C57", "status": "partial", "theorems": ["Verif.C57_retry_deletes_preKey_false", "Verif.C57_retry_deletes_preKey_partial"], "note": "false as stated: when Delete fails after the session was stored, the retry takes the known-session path and never deletes the pre-key (witness); partial: retries after failures before the session write"},
{"property": "C58", "status": "partial", "theorems": ["Verif.C58_partial", "Verif.C58_in_order_false", "Verif.C58_false"], "note": "False: the skip loop stores the key of the newest accepted message again, so messages received in order use up the 2000 places (C58_in_order_false for every conversation, C58_false a witness). Proved: readable up to 2000 positions behind (C58_partial)."},
{"property": "C59", "status": "proved", "theorems": ["Verif.C59_accepts_exactly"], "note": "both directions, for the signature code on the real curve"},
{"property": "C60", "status": "proved", "theorems": ["Verif.C60_wire"], "note": "Every message that EncryptMessage returns in any history is the byte string that Spec/Protocol.lean, written from the X3DH and Double Ratchet documents and not from the model, prescribes for the keys and counters of the session."},
{"property": "C61", "status": "proved", "theorems": ["Verif.C61_group_wire", "Verif.C61_group_numbers"], "note": "The bytes of sender-key and distribution messages, and the origin of chain id, seed and signing key, for every history of group calls."},
{"property": "C62", "status": "proved", "theorems": ["Verif.C62_fingerprint_conforms"], "note": "Both representations of NewFingerprint equal the prescribed ones, for every iteration count in range; the hash is an arbitrary function."},
{"property": "C63", "status": "proved", "theorems": ["Verif.C63_calls_at_once", "Verif.C63_different_peers", "Verif.C63_every_call_returns"], "note": "Interleaving at store-call granularity; stores hand out copies and store calls are atomic; the trust decision about an address depends on that address only (as for trust on first use). The programs that stop at store calls are proved equal to the sequential model."},
{"property": "C64", "status": "partial", "theorems": ["Verif.C64_concurrent_sends_false", "Verif.C64_concurrent_sends_partial"], "note": "False as stated: C64_concurrent_sends_false. Proved when calls about the same address or pre-key wait for each other."},
{"property": "C65", "status": "proved", "theorems": ["Verif.C65_group_calls_at_once", "Verif.C65_different_groups", "Verif.C65_every_call_returns"], "note": "As C63, for the group store."},
{"property": "C66", "status": "partial", "theorems": ["Verif.C66_concurrent_group_sends_false", "Verif.C66_concurrent_group_sends_partial"], "note": "False as stated: C66_concurrent_group_sends_false. Proved when calls about the same sender key wait for each other."},
{"property": "C67", "status": "partial", "theorems": ["Verif.C67_one_time_preKey_false", "Verif.C67_one_time_preKey_partial"], "note": "False as stated: C67_one_time_preKey_false. Proved when the calls wait for each other."},
{"property": "C68", "status": "proved", "theorems": ["Verif.C68_plaintext_is_authentic", "Verif.C68_state_reads_exactly", "Verif.C68_readable_is_read", "Verif.C68_first_message_is_read"], "note": "Both directions, at the level of one state and of the call."},
{"property": "C69", "status": "partial", "theorems": ["Verif.C69_only_ciphertexts_false", "Verif.C69_accepted_ciphertexts_partial"], "note": "False as stated: C69_only_ciphertexts_false. Proved: the exact set of accepted ciphertexts."},
{"property": "C70", "status": "proved", "theorems": ["Verif.C70_plaintext_is_authentic", "Verif.C70_reads_exactly"], "note": "An equivalence over Spec/GroupReading.lean."},
{"property": "C71", "status": "partial", "theorems": ["Verif.C71_registration_id_false", "Verif.C71_witness_false", "Verif.C71_new_session_partial"], "note": "False as stated: C71_registration_id_false, C71_witness_false (the registration id is not authenticated). C71_new_session_partial says where the id ends up."},
{"property": "C72", "status": "proved", "theorems": ["Verif.C72_length_is_all_that_shows", "Verif.C72_group_length_is_all_that_shows", "Verif.C72_overhead"], "note": "The bound of 173 bytes covers Signal and pre-key messages."},
{"property": "C73", "status": "proved", "theorems": ["Verif.C73_stored_bytes_bounded"], "note": "From the invariant on reachable records and the length of the encoding."},
{"property": "C74", "status": "partial", "theorems": ["Verif.C74_restart_false", "Verif.C74_all_states_partial"], "note": "False as stated: C74_restart_false. Proved when every state is saved."},
{"property": "C75", "status": "partial", "theorems": ["Verif.C75_sent_key_is_gone", "Verif.C75_received_key_is_kept_false", "Verif.C75_received_in_order_false", "Verif.C75_late_key_is_gone_partial"], "note": "False as stated for received messages: C75_received_key_is_kept_false, C75_received_in_order_false. C75_sent_key_is_gone is the whole claim for sent messages; C75_late_key_is_gone_partial is what holds for received ones."},
{"property": "C76", "status": "proved", "theorems": ["Verif.C76_sent_key_is_gone", "Verif.C76_received_key_is_gone"], "note": "Two runs with any primitives; equality of the records after the call."},
{"property": "C77", "status": "proved", "theorems": ["Verif.C77_delivery", "Verif.C77_exact", "Verif.C77_sending", "Verif.C77_starting"], "note": "C77_delivery, C77_exact, C77_sending and C77_starting are proved over every schedule of starts, sends and deliveries of two users. What is assumed of the schedule is written in Spec/Sessions.lean: all key pairs made differ, no one-time pre-key is offered twice, a message can be read in no session but its own (a MAC collision), a message whose chain was dropped is not accepted by accident, and with the in-memory store the message that starts a session at the receiver is at most 25000 ahead. No call fails or is interrupted (C06, C09 and C57 are about that)."},
{"property": "C78", "status": "proved", "theorems": ["Verif.C78_signature_is_prescribed", "Verif.C78_nonce_repeats_only_with_the_hash"], "note": "On the curve, with SHA-512 an arbitrary function."},
{"property": "C79", "status": "proved", "theorems": ["Verif.C79_both_agree", "Verif.C79_never_zero", "Verif.C79_multiplies", "Verif.C79_small_order_refused", "Verif.C79_minus_one_refused", "Verif.C79_refused_exactly"], "note": "X25519 is the Montgomery ladder, for every 32 bytes; C79_multiplies says what it computes for coordinates of curve points. C79_refused_exactly is for all keys: Proofs/CurveOrder.lean counts the points of the curve, Proofs/Twist.lean does the same for its twist, so the five published numbers are all that is refused."},
{"property": "C80", "status": "proved", "theorems": ["Verif.C80_encrypt_pins", "Verif.C80_decrypt_signal_pins", "Verif.C80_decrypt_preKey_pins", "Verif.C80_bundle_pins", "Verif.C80_first_use_is_final"], "note": "Every path of every operation, with any store failures; the last theorem is an induction over histories."},
{"property": "C81", "status": "proved", "theorems": ["Verif.C81_aes_inverts", "Verif.C81_algorithms_meet_the_assumptions"], "note": "The algorithms are written out from the standards (the code imports them) and checked against the vectors of the standards and of the repository's tests (Vectors/)."},
{"property": "C82", "status": "proved", "theorems": ["Verif.C82_delivery", "Verif.C82_exact", "Verif.C82_sending", "Verif.C82_starting"], "note": "DecryptMessage calls in which a store call fails, and pre-key messages from outside, are for session stores that return copies: with the in-memory store a failed DecryptMessage leaves a changed record behind (C05)."},
{"property": "C83", "status": "partial", "theorems": ["Verif.C83_parsing", "Verif.C83_signal_partial", "Verif.C83_senderKey_partial", "Verif.C83_preKey_partial", "Verif.C83_distribution_partial", "Verif.C83_independent_false"], "note": "False: NewSignalFromBytes and NewSenderKeyFromBytes keep the caller's slice and check the MAC or signature over what it holds at decryption time, while the ciphertext that is decrypted was copied at parsing time. A forged group message parsed from a buffer is accepted once a genuine message has been read into the same buffer; a genuine signal message is lost. Proved: pre-key and distribution messages are independent of the buffer; in the other two every field but the serialised bytes is, and nothing changes as long as the slice is left alone. Slices handed out by getters (Bytes, Message) are not written to."},
{"property": "C84", "status": "proved", "theorems": ["Verif.C84_delivery", "Verif.C84_exact", "Verif.C84_again"], "note": "Extends C37 by store failures during delivery and processing, by redistribution and by other sender keys. A distribution message with this chain id and another signing key in the sender's name is excluded (it replaces the key, see C38). The bound of four is shown to be exact by an example."},
{"property": "C85", "status": "proved", "theorems": ["Verif.C85_store_may_copy", "Verif.C85_agrees"], "note": "Proved as a refinement: the functions written on a heap of records and states (Model/Heap) give the results and stored values of the functions on values, for all four kinds of store. So the theorems about histories on values also hold for the code on pointers."},
{"property": "C86", "status": "partial", "theorems": ["Verif.C86_snapshot_false", "Verif.C86_snapshot_partial", "Verif.C86_other_peers_partial", "Verif.C86_one_object", "Verif.C86_apart"], "note": "False for the in-memory store: EncryptMessage to the same peer changes the record the application holds. Proved: a snapshot for every store whose Load returns copies; for every store, only calls about the same peer change it; a call changes at most one existing object; sessions of different peers share neither record nor state."},
{"property": "C87", "status": "proved", "theorems": ["Verif.C87_ratchet_step_forgets"], "note": "Proved as possibility: with HKDF changed for the one single input the secrets go into, the call on stores with other secrets gives the same plaintext and the same stores. The message must be read by the current session (a message for an archived session keeps the current one in the archive, as it must), and the other root key must not be the one the step derives."},
{"property": "C88", "status": "proved", "theorems": ["Verif.C88_ratchet_step_renews"], "note": "Proved for every step in which the fresh shared secret differs from the old one. The fresh private key is the first 32 random bytes of the call, clamped."},
{"property": "C89", "status": "proved", "theorems": ["Verif.C89_content_is_open", "Verif.C89_short_content_is_open", "Verif.C89_group_content_is_open"], "note": "Proved as an equivalence: exactly the contents that fit are possible. The MAC, the signature and every other field are computed from the ciphertext only."},
{"property": "C90", "status": "proved", "theorems": ["Verif.C90_delivery", "Verif.C90_sending"], "note": "The two users must trust each other's identity key, the bundle must be one Bob can serve, and Bob must have no session with the base key that Alice is about to draw. Deliveries are of messages sent after the bundle, inside the windows. The freshness of drawn keys is the assumption of C82."},
{"property": "C91", "status": "proved", "theorems": ["Verif.C91_no_session", "Verif.C91_stored_records_answer", "Verif.C91_sender_chain_counts", "Verif.C91_receiver_chain_counts"], "note": "Proved for every reachable store."},
{"property": "C92", "status": "proved", "theorems": ["Verif.C92_type_text", "Verif.C92_id_text", "Verif.C92_error_text", "Verif.C92_error_text_exact"], "note": "Names of addresses are any byte strings. Message types are taken as 64-bit integers."},
{"property": "C93", "status": "proved", "theorems": ["Verif.C93_agrees", "Verif.C93_store_may_copy"], "note": "The pointer code is a second model (Model/GroupHeap), proved to agree with the one on values for every history."},
{"property": "C94", "status": "partial", "theorems": ["Verif.C94_snapshot_false", "Verif.C94_snapshot_partial", "Verif.C94_other_groups_partial", "Verif.C94_one_object", "Verif.C94_apart"], "note": "False for the in-memory store, which hands out its own pointer (C94_snapshot_false). Proved for stores whose Load copies, and for all stores as long as no call is about the same sender and group; records of different senders or groups share nothing."},
{"property": "C95", "status": "proved", "theorems": ["Verif.C95_nothing_hidden", "Verif.C95_distinct"], "note": "Holds although RemoveStates does not clear the slots it frees: chain ids in a record are distinct, so at most one slot is freed and the append that follows fills it."},
{"property": "C96", "status": "partial", "theorems": ["Verif.C96_nothing_hidden_false", "Verif.C96_nothing_hidden_partial", "Verif.C96_last_kept_first_partial"], "note": "False for the in-memory store (C96_nothing_hidden_false): RemoveMessageKeys sets the used slot to nil and then moves the later keys over it, so the last key stays in the slot behind the slice. Proved for stores whose Load copies, and for all stores when late messages use the key kept last."},
{"property": "C97", "status": "proved", "theorems": ["Verif.C97_used_pre_key_forgotten"], "note": "Stated for the values in the stores; memory that Go has freed is outside the model."},
{"property": "C98", "status": "proved", "theorems": ["Verif.C98_set_up_hides"], "note": "HKDF is an arbitrary function here; that its output cannot be computed without the input is the assumption that turns this into secrecy."},
{"property": "C99", "status": "proved", "theorems": ["Verif.C99_agrees", "Verif.C99_room_does_not_matter"], "note": "The code on slices is a third model of the session code (Model/SessionHeap), proved to agree with the one on pointers and lists, and so with the one on values, for every history."},
{"property": "C100", "status": "proved", "theorems": ["Verif.C100_no_chain_hidden", "Verif.C100_no_nil"], "note": "Holds for every kind of store, also for the in-memory one."},
{"property": "C101", "status": "partial", "theorems": ["Verif.C101_used_keys_gone_false", "Verif.C101_serialised_partial", "Verif.C101_at_most_one_partial", "Verif.C101_next_message_partial", "Verif.C101_new_session_partial"], "note": "False for the in-memory store (C101_used_keys_gone_false): MessageKeys filters the slice in place and leaves the last key's pointer in the slot that becomes free. Proved for stores that serialise; for all stores at most one key stays behind, and it is gone when a message that was not skipped is read, because the state is cloned first."},
{"property": "C102", "status": "partial", "theorems": ["Verif.C102_evicted_sessions_gone_false", "Verif.C102_serialised_partial", "Verif.C102_before_the_limit_partial"], "note": "False for the in-memory store (C102_evicted_sessions_gone_false): ArchiveCurrentState moves the slice on by one without clearing the slot in front, so from the forty-third set-up on the evicted session stays in the array. Proved for stores that serialise, and for all stores while fewer than forty sessions are archived."},
{"property": "C103", "status": "proved", "theorems": ["Verif.C103_sender_key_arrives", "Verif.C103_group_delivery"], "note": "C01 for the handover and C37 for each member, joined by the wire format of distribution messages; the group with any number of members is shown to look to each member like a group of two. The sender's current key must be one the sender made (not one processed under the sender's own address)."},
{"property": "C104", "status": "proved", "theorems": ["Verif.C104_crash", "Verif.C104_crash_state_is_reachable", "Verif.C104_no_reuse_after_crash", "Verif.C104_group_crash", "Verif.C104_no_group_reuse_after_crash"], "note": "C104_crash gives the sequence of whole and failed calls; C104_crash_state_is_reachable and C104_no_reuse_after_crash are what follows for the state and for later sends, C104_group_crash and C104_no_group_reuse_after_crash are the same for groups. The calls by which the application adds its own pre-keys are left out: they are single store calls."},
{"property": "C105", "status": "proved", "theorems": ["Verif.C105_as_if_alone", "Verif.C105_every_change", "Verif.C105_records_stay_bounded", "Verif.C105_plaintext_is_authentic", "Verif.C105_sent_only_after_stored", "Verif.C105_received_only_after_stored", "Verif.C105_plain_message_never_panics"], "note": "C105_as_if_alone is about what a call returns and C105_every_change about every single change of the stores; the others are what follows for bounds, authenticity, stored positions and panics. That overlapping sends may reuse a position is C64; this says what remains true then. Needs no assumption on the trust decision."},
{"property": "C106", "status": "proved", "theorems": ["Verif.C106_group_call_is_sequential", "Verif.C106_group_record_is_sequential", "Verif.C106_result_of_reachable_state", "Verif.C106_record_of_reachable_state", "Verif.C106_bounded"], "note": "C106_group_call_is_sequential and C106_group_record_is_sequential are the two halves; C106_result_of_reachable_state and C106_record_of_reachable_state carry over what is proved about reachable states, C106_bounded is an instance. The histories differ from call to call and from key to key: that is how two sends can use the same iteration (C66)."},
{"property": "C107", "status": "proved", "theorems": ["Verif.C107_texts_of_an_id", "Verif.C107_other_texts", "Verif.C107_text_has_one_meaning", "Verif.C107_text_form"], "note": "C107_texts_of_an_id is the equivalence with `Writes`, a specification of the texts that does not use the parser. The parser is the pinned github.com/google/uuid; that it takes any two bytes for braces is how that package behaves."},
{"property": "C108", "status": "proved", "theorems": ["Verif.C108_only_pre_key_messages_panic", "Verif.C108_also_when_calls_overlap", "Verif.C108_group_calls_never_panic", "Verif.C108_group_calls_that_overlap", "Verif.C108_pre_key_message_panics_exactly", "Verif.C108_panics_exactly_on_curve"], "note": "C108_pre_key_message_panics_exactly turns C18 (a pre-key message can panic) into an equivalence. A panic is one that the Go code raises itself: dereferencing nil, an index or slice out of range, or an explicit panic. Running out of memory is not modelled. Messages come from the parser; the overlapping session calls are over a store that copies. On Curve25519 (C108_panics_exactly_on_curve) the last condition is that the identity key or base key of the message stands for one of the five numbers of small order."},
{"property": "C109", "status": "proved", "theorems": ["Verif.C109_encrypt", "Verif.C109_bundle", "Verif.C109_group_encrypt", "Verif.C109_group_process", "Verif.C109_group_distribute", "Verif.C109_bundle_on_curve"], "note": "When decrypting succeeds is the subject of the delivery properties (C01, C15, C37 and others). On Curve25519 (C109_bundle_on_curve) the last condition on a bundle is that none of its keys stands for one of the five numbers of small order."},
{"property": "C110", "status": "proved", "theorems": ["Verif.C110_success_races", "Verif.C110_race_exactly", "Verif.C110_group_race_exactly", "Verif.C110_accesses"], "note": "Races on maps only; races on shared records are not looked at. By the Go memory model, since neither the library nor the stores synchronise, accesses of different goroutines are unordered; `DataRace` says so in Spec/Races.lean. A failing DecryptMessage on a pre-key message may write the identity map; it is covered by C110_success_races only. C110_accesses: the listed accesses are those of the store calls: a write exactly if the call can change the map, none only if the answer does not depend on it."},
{"property": "C111", "status": "proved", "theorems": ["Verif.C111_clear_at_once", "Verif.C111_never_touches"], "note": "The calls themselves are made one after the other; C110 says what happens otherwise."},
{"property": "C112", "status": "proved", "theorems": ["Verif.C112_first_message", "Verif.C112_in_session", "Verif.C112_accepted", "Verif.C112_conversation"], "note": "C112_first_message, C112_in_session and C112_accepted are about DecryptMessage on the forged bytes after parsing; C112_conversation is about every message of an honest conversation. The forging functions are in Spec/Deniability.lean, written with the paper protocol of Spec/Protocol.lean; they take Bob's key pairs and public keys only. Group messages are different: they are signed (C70)."},
{"property": "C113", "status": "proved", "theorems": ["Verif.C113_read_by_version_3", "Verif.C113_others_read_nothing", "Verif.C113_sent_unreadable"], "note": "C113_read_by_version_3 and C113_others_read_nothing are the safe half. C113_sent_unreadable shows the finding: EncryptMessage does not refuse a session of an older version, so the caller gets a message nobody can read and a session that has moved on."},
{"property": "C114", "status": "proved", "theorems": ["Verif.C114_nobody_knows", "Verif.C114_other_values_reject", "Verif.C114_accepted_by_guess"], "note": "C114_nobody_knows is about any user, C114_other_values_reject about the receiver, C114_accepted_by_guess about the receiver with its own history. HKDF is a function of its own in the model, so replacing values of HMAC at MAC inputs (66 bytes of identity keys and a body) does not touch it; the chain keys are HMAC values of one-byte inputs and the proof shows that they are not touched either. A wrong guess (same body, wrong last eight bytes) excludes only the value that was guessed. Eight bytes is what the code keeps of HMAC-SHA256."},
{"property": "C115", "status": "proved", "theorems": ["Verif.C115_sha256", "Verif.C115_sha512", "Verif.C115_hmac", "Verif.C115_hkdf", "Verif.C115_aes"], "note": "The algorithms themselves are in the Go standard library and x/crypto, which are not in the repository; what is proved is that the functions the model uses for them (C81) are the ones of the standards, which Spec/Standards.lean writes down on bit vectors, with recurrences, with the constants as digits of roots of primes and with the S-box from inversion in the field of 256 elements. That the Go libraries implement the standards is trusted."},
{"property": "C116", "status": "proved", "theorems": ["Verif.C116_delivery", "Verif.C116_exact", "Verif.C116_sending", "Verif.C116_starting"], "note": "Assumptions as in C82, asked of each delivery: the users trust each other's identity, random bytes of the pair do not repeat, no one-time pre-key is offered twice (to anybody), pre-keys in use are not removed, invented messages are not accepted (C68, C114), the two users have at most 41 sessions between them, and the whole network makes at most 2^32 steps."},
{"property": "C117", "status": "proved", "theorems": ["Verif.C117_common_session"], "note": "Assumptions as in C77. That a message from before may take them apart again is shown by the conversation of the examples, in which the two users answer each other's first message in different sessions."},
{"property": "C118", "status": "proved", "theorems": ["Verif.C118_decrypt", "Verif.C118_encrypt", "Verif.C118_bundle", "Verif.C118_group"], "note": "An evaluation is counted by what depends on it: the result and the stores are the same with any other algorithms that agree at the counted arguments. AES and parsing, which are linear in the message, and signatures are not counted. In a session of a user with themselves the code drops the limit of 25000, so there the only limit is the 32-bit counter; the MAC is checked after the keys are derived, so these numbers hold for forged messages as well."},
{"property": "C119", "status": "proved", "theorems": ["Verif.C119_contents_are_open", "Verif.C119_same_messages", "Verif.C119_short_contents"], "note": "C119_contents_are_open: stores equal and outputs alike for all users with one cipher. C119_same_messages: an observer of the network sees the same. C119_short_contents: contents under 16 bytes fit without condition. Keys are single-use and messages genuine by hypothesis, since both fail for some histories (C07, C64) or by luck (C114)."},
{"property": "C120", "status": "proved", "theorems": ["Verif.C120_stored_keys", "Verif.C120_bundle", "Verif.C120_origin", "Verif.C120_never_before", "Verif.C120_reads", "Verif.C120_group"], "note": "C120_stored_keys: the three origins of a stored key. C120_bundle and C120_group: which bytes make which key. C120_origin and C120_never_before: histories. C120_reads: how many bytes are read, and independence of the rest."},
{"property": "C121", "status": "proved", "theorems": ["Verif.C121_group_contents_are_open", "Verif.C121_same_group_messages", "Verif.C121_unchanged_contents"], "note": "C121_group_contents_are_open: pairwise and group histories together, one list of sent messages, one other AES. C121_same_group_messages: what somebody sees who sees all group messages. C121_unchanged_contents: contents that are not replaced always fit. The list of sent messages (Sendings) says that keys are not reused; C07 and C44 say when calls reuse none."},
{"property": "C122", "status": "proved", "theorems": ["Verif.C122_no_oracle", "Verif.C122_no_group_oracle", "Verif.C122_no_oracle_in_histories", "Verif.C122_no_group_oracle_in_histories"], "note": "C122_no_oracle and C122_no_group_oracle: one call, equality of the whole outcome. The two _in_histories theorems: any number of forged messages between any other calls. Running time is not modelled, apart from the number of store calls and random bytes (C118 bounds the work)."},
{"property": "C123", "status": "proved", "theorems": ["Verif.C123_no_shared_object", "Verif.C123_writes_only_own", "Verif.C123_reads_only_own"], "note": "C123_no_shared_object: the objects are disjoint. C123_writes_only_own and C123_reads_only_own: what a call writes and depends on. The calls run whole: that a call does not write to a foreign object and restore it is not expressed, but it could not restore what it does not read. That overlapping calls still race on the Go maps of the in-memory stores is C110."},
{"property": "C124", "status": "proved", "theorems": ["Verif.C124_no_shared_object", "Verif.C124_writes_only_own", "Verif.C124_reads_only_own"], "note": "As C123, for sender keys."},
{"property": "C125", "status": "proved", "theorems": ["Verif.C125_signal", "Verif.C125_preKey", "Verif.C125_senderKey", "Verif.C125_distribution", "Verif.C125_signal_extra_fields", "Verif.C125_senderKey_extra_fields", "Verif.C125_preKey_extra_fields", "Verif.C125_distribution_extra_fields", "Verif.C125_scanned_extra_fields", "Verif.C125_stored_extra_fields", "Verif.C125_malformed"], "note": "Spec/Fields.lean is the wire format as a grammar, Spec/Texts.lean says which texts are messages; the theorems compare the parsers with these. The fields of a stored session that are themselves messages are covered by C20 only for what the library writes."},
{"property": "C126", "status": "proved", "theorems": ["Verif.C126_encrypt", "Verif.C126_bundle", "Verif.C126_decrypt", "Verif.C126_named_only"], "note": "C126_named_only is about every pre-key message; with C126_decrypt the ones of known sessions depend on no pre-key at all."},
{"property": "C127", "status": "proved", "theorems": ["Verif.C127_alternate_signed", "Verif.C127_alternate_verified", "Verif.C127_alternate_and_bundle", "Verif.C127_group_and_others"], "note": "The text of a signed pre-key is the encoded key (first byte 5), that of a group message begins with a byte of version 3, that of an alternate identity with 0xFF."},
{"property": "C128", "status": "proved", "theorems": ["Verif.C128_any_store", "Verif.C128_pre_key_message", "Verif.C128_encrypt_needs"], "note": "Group calls are covered for any store by C108_group_calls_never_panic."},
{"property": "C129", "status": "proved", "theorems": ["Verif.C129_every_key", "Verif.C129_decrypt_on_curve", "Verif.C129_decrypt", "Verif.C129_encrypt", "Verif.C129_group_decrypt", "Verif.C129_group_encrypt"], "note": "C129_decrypt, for any primitives, assumes that the message's ratchet key is refused as of low order by every private key or by none. C129_every_key proves this on Curve25519 for every key, and C129_decrypt_on_curve is the property without the assumption."},
{"property": "C130", "status": "proved", "theorems": ["Verif.C130_as_values", "Verif.C130_keys_never_change", "Verif.C130_own_bytes"], "note": "The copies made inside crypto/ecdh and edwards25519 are modelled as copies. A program writes inside the window of a slice it holds, and its own slices do not overlap each other."},
{"property": "C131", "status": "partial", "theorems": ["Verif.C131_as_values_partial", "Verif.C131_own_bytes", "Verif.C131_store_is_apart", "Verif.C131_written_key_is_used", "Verif.C131_chain_key_false", "Verif.C131_only_this_key_changes", "Verif.C131_shared_until_next_message"], "note": "False for one kind of bytes: ChainKey of a distribution message made by NewSenderKeyDistribution is the stored sender key's own slice, until the next EncryptMessage replaces it. Wiping it after sending makes the sender encrypt the next group message under a key that follows from the wiped bytes (C131_chain_key_false is a run, C131_written_key_is_used says it for all programs). For all other bytes the property is proved. C131_only_this_key_changes: such a write changes this chain key and nothing else in the store. C131_shared_until_next_message: after the next EncryptMessage of this sender it changes nothing, ever. C131_own_bytes and C131_store_is_apart also hold for programs that write to these chain keys. The program's own slices do not overlap each other, and it writes inside the windows it holds."},
{"property": "C132", "status": "proved", "theorems": ["Verif.C132_as_values", "Verif.C132_any_layout", "Verif.C132_looking_changes_nothing", "Verif.C132_same_bytes", "Verif.C132_message_keys_lose_message", "Verif.C132_message_keys_change_session", "Verif.C132_shared_bytes_change_session"], "note": "C132_as_values is the whole property for all programs, exceptions included: the value program says what each write and each MessageKeys call does. The other theorems are its consequences, and runs that show the exceptions to be real. C132_any_layout says the same for states that were not parsed but built by the ratchet, where root key and chain key are windows of one array, if no windows overlap. Writes stay inside the windows held; append to a returned slice is not modelled."},
{"property": "C133", "status": "proved", "theorems": ["Verif.C133_as_values", "Verif.C133_received_ends_sharing", "Verif.C133_sent_ends_sharing", "Verif.C133_failure_changes_nothing", "Verif.C133_append_overwrites_chain_key", "Verif.C133_append", "Verif.C133_append_held", "Verif.C133_append_later", "Verif.C133_append_after_receiving"], "note": "C133_as_values is the whole property for all programs; the others are consequences in plain terms. C133_append, C133_append_held and C133_append_later: append to what the accessors return changes nothing, except to the root key after something was received; C133_append_after_receiving: nor does append to any bytes older than the last message received; C133_append_overwrites_chain_key is its exact effect then, for every session and message with a new ratchet key. Receiving is modelled for the current state of a record; archived states, trust and stores are outside this model (they are values in Model/Cipher and Model/World). Key pairs and the message are values."},
{"property": "C134", "status": "proved", "theorems": ["Verif.C134_signal_parsed", "Verif.C134_senderKey_parsed", "Verif.C134_distribution_parsed", "Verif.C134_preKey_parsed", "Verif.C134_signal_made", "Verif.C134_senderKey_made", "Verif.C134_preKey_made", "Verif.C134_plaintext", "Verif.C134_as_values", "Verif.C134_append_parsed", "Verif.C134_append_made", "Verif.C134_written_is_decrypted", "Verif.C134_call", "Verif.C134_preKey_call", "Verif.C134_group_written_is_decrypted", "Verif.C134_altered_message_accepted"], "note": "C134_signal_parsed, _senderKey_parsed, _distribution_parsed, _preKey_parsed, _signal_made, _senderKey_made, _preKey_made and _plaintext are the first half, for all sequences of writes. C134_written_is_decrypted (sessions) and C134_group_written_is_decrypted are the second, C134_call and C134_preKey_call the whole DecryptMessage call for a message that the current session reads; a message that only an archived session reads is covered by C134_written_is_decrypted for that session. C134_as_values: with slices or as values, the same messages and errors. C134_altered_message_accepted is a run: one byte of Message is written and DecryptMessage returns a plaintext that was never sent, without an error. Distribution messages that were made share ChainKey with the stored sender key (C131). append to a returned slice changes nothing about the message: C134_append_parsed, C134_append_made."}
]}
