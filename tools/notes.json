{
 "C21": {
  "note": "every field, size and key; MAC verification included"
 },
 "C22": {
  "note": "both for arbitrary fields and for messages built from an outgoing session"
 },
 "C23": {
  "note": "all ids, chain ids, iterations, ciphertexts and signing keys"
 },
 "C24": {
  "note": "all ids, iterations, 32-byte chain keys and signing keys"
 },
 "C25": {
  "note": "false as stated: NewSignalFromBytes slices out of range for inputs of 1 to 8 bytes (witnesses in the _false theorems); the _partial theorems give the exact inputs that panic and show all other parsers never do"
 },
 "C26": {
  "note": "all parsers, all byte strings"
 },
 "C27": {
  "note": "pairwise and sender-key messages"
 },
 "C28": {
  "note": "all 128-bit ids; also injectivity"
 },
 "C29": {
  "note": "acceptance set characterised exactly"
 },
 "C30": {
  "note": "clamping, storage round trip for private keys and pre-keys"
 },
 "C33": {
  "note": "for every signature scheme whose verify accepts its own signatures"
 },
 "C34": {
  "note": "all plaintexts, valid keys and IVs, over an abstract block cipher with its inverse"
 },
 "C35": {
  "note": "all byte strings"
 },
 "C36": {
  "note": "false as stated: pkcs7pad appends in place and overwrites spare capacity (witness); partial: only spare capacity behind the slice can change, and nothing changes when capacity equals length"
 },
 "C47": {
  "note": "all histories of Store/Clear"
 },
 "C48": {
  "note": "false as stated: pointers are compared, so equal keys at different addresses report a replacement; partial: exact up to that"
 },
 "C49": {
  "note": "all users, keys, iteration counts"
 },
 "C50": {
  "note": "all byte strings"
 },
 "C51": {
  "note": "all iteration counts"
 },
 "C52": {
  "note": "all pairs of addresses"
 },
 "C55": {
  "note": "MAC check exact; wrong key sizes are errors"
 },
 "C56": {
  "note": "all 32-byte fingerprints"
 },
 "C05": {
  "note": "false as stated: with the library's in-memory store a forged pre-key message replaces the current session although an error is returned, and with any store a failing pre-key Delete reports an error after the session was written (witnesses); partial: copying stores that do not fail keep every session, and with arbitrary failures the sessions are unchanged or exactly those of the successful call; C05_in_memory_partial says exactly what remains in the store, for both kinds of store that do not fail"
 },
 "C06": {
  "note": "false as stated: the identity is stored before the message is authenticated (witness); partial: with trust on first use an identity once known never changes, over all histories; C06_only_trusted_keys_partial says exactly which key may be recorded by a failed call"
 },
 "C08": {
  "note": "false as stated for the in-memory store (the chain key is advanced in the shared record before the trust check); partial: copying stores, and all-or-nothing for every store and failure"
 },
 "C09": {
  "note": "false for pre-key messages: the envelope identity is checked, the identity of the session state that decrypts is not (witness); proved for EncryptMessage and for plain messages; partial for pre-key messages: the envelope identity is trusted"
 },
 "C10": {
  "note": "all bundles, states, stores and failures"
 },
 "C13": {
  "note": "success removes exactly the named key; failure removes nothing when failing store calls have no effect; with arbitrary failures all or nothing"
 },
 "C17": {
  "note": "all operations, outcomes, panics, store failures, and histories"
 },
 "C54": {
  "note": "all reachable worlds and all failure patterns; each prefix of store calls is a failure pattern"
 },
 "C57": {
  "note": "false as stated: when Delete fails after the session was stored, the retry takes the known-session path and never deletes the pre-key (witness); partial: retries after failures before the session write"
 },
 "C11": {
  "note": "for every reachable world, kind of store and failure pattern"
 },
 "C12": {
  "note": "rejection for both message kinds, and exactness of the 25000 limit on known chains"
 },
 "C14": {
  "note": "a pre-key message whose session is known creates no session and consumes no pre-key"
 },
 "C15": {
  "note": "promotion permutes the states of the record apart from the ratchet step of the state used"
 },
 "C19": {
  "note": "sessions and groups"
 },
 "C20": {
  "note": "round trip of every state the library can store, and of archived states"
 },
 "C03": {
  "note": "false as stated: the newest message of a chain is accepted again, and once more after the chain has advanced (witnesses in the _false theorems). Proved: a message delivered after a newer one of its chain is rejected in every later state, for all interleavings, while the chain is kept"
 },
 "C04": {
  "note": "False as stated: for a plain message that does not verify, DecryptMessage returns a nil plaintext and a nil error. Proved: no plaintext is ever returned for a message that no state which may read it can read (Spec/Reading.lean: secrets of the position, MAC, padding); a pre-key message of this kind is never a success; a nil plaintext always means rejection."
 },
 "C16": {
  "note": "false as stated for the in-memory store, where a rejected forged pre-key message ends the phase, and for the pre-key id 0 (witnesses); from the first reply on it is proved for every store and failure (C16_plain_after_first_reply); before it, partial: for stores that return copies and bundles whose pre-key id is not 0"
 },
 "C18": {
  "note": "false as stated: an unknown signed pre-key id or a low-order base key makes DecryptMessage panic (witnesses in the _false theorems). Proved: no parsed plain message panics, and no pre-key message outside these two cases. C108 gives the exact condition"
 },
 "C38": {
  "note": "false without the condition that the record keeps the chain: after distribution messages for five other chains the chain's own distribution message brings it back at the old position (C38_dropped_chain_false). The _partial theorem proves the claim for every history, both kinds of store and any store failures, while the chain is kept and the 32-bit iteration has not wrapped"
 },
 "C39": {
  "note": "every history of receiver calls after the distribution message, both kinds of store, any store failures"
 },
 "C40": {
  "note": "every reachable record, both kinds of store, any store failures"
 },
 "C41": {
  "note": "every reachable record and every distribution message; second theorem for failing stores"
 },
 "C42": {
  "note": "every reachable record and iteration, both kinds of store, any store failures"
 },
 "C43": {
  "note": "every record and message, both kinds of store, any store failures"
 },
 "C44": {
  "note": "every history from an empty store, any store failures, both kinds of store"
 },
 "C45": {
  "note": "false for the in-memory store (witness); proved for copying stores; for every store only an authentic message leaves a change"
 },
 "C46": {
  "note": "every store state"
 },
 "C37": {
  "note": "every schedule of sends, deliveries, foreign messages and calls for other groups, both kinds of store on either side, store failures at the sender; iterations do not wrap"
 },
 "C01": {
  "note": "every schedule of sends and deliveries from a fresh bundle, loss, reordering and repetition, both kinds of session store on either side, messages delivered as bytes; plaintexts under 2^62 bytes, fewer than 2^32 events; a message whose receiving chain was dropped is assumed not to be accepted by chance under a different key"
 },
 "C02": {
  "note": "all key pairs, with and without a one-time pre-key"
 },
 "C53": {
  "note": "false for the id 0 (witness); proved for every other id"
 },
 "C07": {
  "note": "false for the in-memory session store: rejected pre-key messages leave a session that sends from counter 0 of the signed pre-key again, in the second witness even with the same message key; partial: for every store that returns copies, and for the in-memory store in histories where no pre-key message was rejected, no two returned messages share ratchet key and counter; the persisted-position half holds without restriction"
 },
 "C31": {
  "note": "the signature code on the real curve: field, group law, primes and the order of the base point are proved in Lean; SHA-512 is an arbitrary function (C81 puts SHA-512 in its place). The second theorem shows that this code satisfies every law the rest of the model assumes of keys, agreement and signatures"
 },
 "C32": {
  "note": "for the signature code itself"
 },
 "C59": {
  "note": "both directions, for the signature code on the real curve"
 },
 "C58": {
  "note": "False: the skip loop stores the key of the newest accepted message again, so messages received in order use up the 2000 places (C58_in_order_false for every conversation, C58_false a witness). Proved: readable up to 2000 positions behind (C58_partial)."
 },
 "C60": {
  "note": "Every message that EncryptMessage returns in any history is the byte string that Spec/Protocol.lean, written from the X3DH and Double Ratchet documents and not from the model, prescribes for the keys and counters of the session."
 },
 "C61": {
  "note": "The bytes of sender-key and distribution messages, and the origin of chain id, seed and signing key, for every history of group calls."
 },
 "C62": {
  "note": "Both representations of NewFingerprint equal the prescribed ones, for every iteration count in range; the hash is an arbitrary function."
 },
 "C63": {
  "note": "Interleaving at store-call granularity; stores hand out copies and store calls are atomic; the trust decision about an address depends on that address only (as for trust on first use). The programs that stop at store calls are proved equal to the sequential model."
 },
 "C64": {
  "note": "False as stated: C64_concurrent_sends_false. Proved when calls about the same address or pre-key wait for each other."
 },
 "C65": {
  "note": "As C63, for the group store."
 },
 "C66": {
  "note": "False as stated: C66_concurrent_group_sends_false. Proved when calls about the same sender key wait for each other."
 },
 "C67": {
  "note": "False as stated: C67_one_time_preKey_false. Proved when the calls wait for each other."
 },
 "C68": {
  "note": "Both directions, at the level of one state and of the call."
 },
 "C69": {
  "note": "False as stated: C69_only_ciphertexts_false. Proved: the exact set of accepted ciphertexts."
 },
 "C70": {
  "note": "An equivalence over Spec/GroupReading.lean."
 },
 "C71": {
  "note": "False as stated: C71_registration_id_false, C71_witness_false (the registration id is not authenticated). C71_new_session_partial says where the id ends up."
 },
 "C72": {
  "note": "The bound of 173 bytes covers Signal and pre-key messages."
 },
 "C73": {
  "note": "From the invariant on reachable records and the length of the encoding."
 },
 "C74": {
  "note": "False as stated: C74_restart_false. Proved when every state is saved."
 },
 "C75": {
  "note": "False as stated for received messages: C75_received_key_is_kept_false, C75_received_in_order_false. C75_sent_key_is_gone is the whole claim for sent messages; C75_late_key_is_gone_partial is what holds for received ones."
 },
 "C76": {
  "note": "Two runs with any primitives; equality of the records after the call."
 },
 "C77": {
  "note": "C77_delivery, C77_exact, C77_sending and C77_starting are proved over every schedule of starts, sends and deliveries of two users. What is assumed of the schedule is written in Spec/Sessions.lean: all key pairs made differ, no one-time pre-key is offered twice, a message can be read in no session but its own (a MAC collision), a message whose chain was dropped is not accepted by accident, and with the in-memory store the message that starts a session at the receiver is at most 25000 ahead. No call fails or is interrupted (C06, C09 and C57 are about that)."
 },
 "C78": {
  "note": "On the curve, with SHA-512 an arbitrary function."
 },
 "C79": {
  "note": "X25519 is the Montgomery ladder, for every 32 bytes; C79_multiplies says what it computes for coordinates of curve points. C79_refused_exactly is for all keys: Proofs/CurveOrder.lean counts the points of the curve, Proofs/Twist.lean does the same for its twist, so the five published numbers are all that is refused."
 },
 "C80": {
  "note": "Every path of every operation, with any store failures; the last theorem is an induction over histories."
 },
 "C81": {
  "note": "The algorithms are written out from the standards (the code imports them) and checked against the vectors of the standards and of the repository's tests (Vectors/)."
 },
 "C82": {
  "note": "DecryptMessage calls in which a store call fails, and pre-key messages from outside, are for session stores that return copies: with the in-memory store a failed DecryptMessage leaves a changed record behind (C05)."
 },
 "C83": {
  "note": "False: NewSignalFromBytes and NewSenderKeyFromBytes keep the caller's slice and check the MAC or signature over what it holds at decryption time, while the ciphertext that is decrypted was copied at parsing time. A forged group message parsed from a buffer is accepted once a genuine message has been read into the same buffer; a genuine signal message is lost. Proved: pre-key and distribution messages are independent of the buffer; in the other two every field but the serialised bytes is, and nothing changes as long as the slice is left alone. Slices handed out by getters (Bytes, Message) are not written to.",
  "status": "partial"
 },
 "C84": {
  "note": "Extends C37 by store failures during delivery and processing, by redistribution and by other sender keys. A distribution message with this chain id and another signing key in the sender's name is excluded (it replaces the key, see C38). The bound of four is shown to be exact by an example."
 },
 "C85": {
  "note": "Proved as a refinement: the functions written on a heap of records and states (Model/Heap) give the results and stored values of the functions on values, for all four kinds of store. So the theorems about histories on values also hold for the code on pointers."
 },
 "C86": {
  "note": "False for the in-memory store: EncryptMessage to the same peer changes the record the application holds. Proved: a snapshot for every store whose Load returns copies; for every store, only calls about the same peer change it; a call changes at most one existing object; sessions of different peers share neither record nor state.",
  "status": "partial"
 },
 "C87": {
  "note": "Proved as possibility: with HKDF changed for the one single input the secrets go into, the call on stores with other secrets gives the same plaintext and the same stores. The message must be read by the current session (a message for an archived session keeps the current one in the archive, as it must), and the other root key must not be the one the step derives."
 },
 "C88": {
  "note": "Proved for every step in which the fresh shared secret differs from the old one. The fresh private key is the first 32 random bytes of the call, clamped."
 },
 "C89": {
  "note": "Proved as an equivalence: exactly the contents that fit are possible. The MAC, the signature and every other field are computed from the ciphertext only."
 },
 "C90": {
  "note": "The two users must trust each other's identity key, the bundle must be one Bob can serve, and Bob must have no session with the base key that Alice is about to draw. Deliveries are of messages sent after the bundle, inside the windows. The freshness of drawn keys is the assumption of C82."
 },
 "C91": {
  "note": "Proved for every reachable store."
 },
 "C92": {
  "note": "Names of addresses are any byte strings. Message types are taken as 64-bit integers."
 },
 "C93": {
  "note": "The pointer code is a second model (Model/GroupHeap), proved to agree with the one on values for every history."
 },
 "C94": {
  "note": "False for the in-memory store, which hands out its own pointer (C94_snapshot_false). Proved for stores whose Load copies, and for all stores as long as no call is about the same sender and group; records of different senders or groups share nothing.",
  "status": "partial"
 },
 "C95": {
  "note": "Holds although RemoveStates does not clear the slots it frees: chain ids in a record are distinct, so at most one slot is freed and the append that follows fills it."
 },
 "C96": {
  "note": "False for the in-memory store (C96_nothing_hidden_false): RemoveMessageKeys sets the used slot to nil and then moves the later keys over it, so the last key stays in the slot behind the slice. Proved for stores whose Load copies, and for all stores when late messages use the key kept last.",
  "status": "partial"
 },
 "C97": {
  "note": "Stated for the values in the stores; memory that Go has freed is outside the model."
 },
 "C98": {
  "note": "HKDF is an arbitrary function here; that its output cannot be computed without the input is the assumption that turns this into secrecy."
 },
 "C99": {
  "note": "The code on slices is a third model of the session code (Model/SessionHeap), proved to agree with the one on pointers and lists, and so with the one on values, for every history."
 },
 "C100": {
  "note": "Holds for every kind of store, also for the in-memory one."
 },
 "C101": {
  "note": "False for the in-memory store (C101_used_keys_gone_false): MessageKeys filters the slice in place and leaves the last key's pointer in the slot that becomes free. Proved for stores that serialise; for all stores at most one key stays behind, and it is gone when a message that was not skipped is read, because the state is cloned first.",
  "status": "partial"
 },
 "C102": {
  "note": "False for the in-memory store (C102_evicted_sessions_gone_false): ArchiveCurrentState moves the slice on by one without clearing the slot in front, so from the forty-third set-up on the evicted session stays in the array. Proved for stores that serialise, and for all stores while fewer than forty sessions are archived.",
  "status": "partial"
 },
 "C103": {
  "note": "C01 for the handover and C37 for each member, joined by the wire format of distribution messages; the group with any number of members is shown to look to each member like a group of two. The sender's current key must be one the sender made (not one processed under the sender's own address)."
 },
 "C104": {
  "note": "C104_crash gives the sequence of whole and failed calls; C104_crash_state_is_reachable and C104_no_reuse_after_crash are what follows for the state and for later sends, C104_group_crash and C104_no_group_reuse_after_crash are the same for groups. The calls by which the application adds its own pre-keys are left out: they are single store calls."
 },
 "C105": {
  "note": "C105_as_if_alone is about what a call returns and C105_every_change about every single change of the stores; the others are what follows for bounds, authenticity, stored positions and panics. That overlapping sends may reuse a position is C64; this says what remains true then. Needs no assumption on the trust decision."
 },
 "C106": {
  "note": "C106_group_call_is_sequential and C106_group_record_is_sequential are the two halves; C106_result_of_reachable_state and C106_record_of_reachable_state carry over what is proved about reachable states, C106_bounded is an instance. The histories differ from call to call and from key to key: that is how two sends can use the same iteration (C66)."
 },
 "C107": {
  "note": "C107_texts_of_an_id is the equivalence with `Writes`, a specification of the texts that does not use the parser. The parser is the pinned github.com/google/uuid; that it takes any two bytes for braces is how that package behaves."
 },
 "C108": {
  "note": "C108_pre_key_message_panics_exactly turns C18 (a pre-key message can panic) into an equivalence. A panic is one that the Go code raises itself: dereferencing nil, an index or slice out of range, or an explicit panic. Running out of memory is not modelled. Messages come from the parser; the overlapping session calls are over a store that copies. On Curve25519 (C108_panics_exactly_on_curve) the last condition is that the identity key or base key of the message stands for one of the five numbers of small order."
 },
 "C109": {
  "note": "When decrypting succeeds is the subject of the delivery properties (C01, C15, C37 and others). On Curve25519 (C109_bundle_on_curve) the last condition on a bundle is that none of its keys stands for one of the five numbers of small order."
 },
 "C110": {
  "note": "Races on maps only; races on shared records are not looked at. By the Go memory model, since neither the library nor the stores synchronise, accesses of different goroutines are unordered; `DataRace` says so in Spec/Races.lean. A failing DecryptMessage on a pre-key message may write the identity map; it is covered by C110_success_races only. C110_accesses: the listed accesses are those of the store calls: a write exactly if the call can change the map, none only if the answer does not depend on it."
 },
 "C111": {
  "note": "The calls themselves are made one after the other; C110 says what happens otherwise."
 },
 "C112": {
  "note": "C112_first_message, C112_in_session and C112_accepted are about DecryptMessage on the forged bytes after parsing; C112_conversation is about every message of an honest conversation. The forging functions are in Spec/Deniability.lean, written with the paper protocol of Spec/Protocol.lean; they take Bob's key pairs and public keys only. Group messages are different: they are signed (C70)."
 },
 "C113": {
  "note": "C113_read_by_version_3 and C113_others_read_nothing are the safe half. C113_sent_unreadable shows the finding: EncryptMessage does not refuse a session of an older version, so the caller gets a message nobody can read and a session that has moved on."
 },
 "C114": {
  "note": "C114_nobody_knows is about any user, C114_other_values_reject about the receiver, C114_accepted_by_guess about the receiver with its own history. HKDF is a function of its own in the model, so replacing values of HMAC at MAC inputs (66 bytes of identity keys and a body) does not touch it; the chain keys are HMAC values of one-byte inputs and the proof shows that they are not touched either. A wrong guess (same body, wrong last eight bytes) excludes only the value that was guessed. Eight bytes is what the code keeps of HMAC-SHA256."
 },
 "C115": {
  "note": "The algorithms themselves are in the Go standard library and x/crypto, which are not in the repository; what is proved is that the functions the model uses for them (C81) are the ones of the standards, which Spec/Standards.lean writes down on bit vectors, with recurrences, with the constants as digits of roots of primes and with the S-box from inversion in the field of 256 elements. That the Go libraries implement the standards is trusted."
 },
 "C116": {
  "note": "Assumptions as in C82, asked of each delivery: the users trust each other's identity, random bytes of the pair do not repeat, no one-time pre-key is offered twice (to anybody), pre-keys in use are not removed, invented messages are not accepted (C68, C114), the two users have at most 41 sessions between them, and the whole network makes at most 2^32 steps."
 },
 "C117": {
  "note": "Assumptions as in C77. That a message from before may take them apart again is shown by the conversation of the examples, in which the two users answer each other's first message in different sessions."
 },
 "C118": {
  "note": "An evaluation is counted by what depends on it: the result and the stores are the same with any other algorithms that agree at the counted arguments. AES and parsing, which are linear in the message, and signatures are not counted. In a session of a user with themselves the code drops the limit of 25000, so there the only limit is the 32-bit counter; the MAC is checked after the keys are derived, so these numbers hold for forged messages as well."
 },
 "C119": {
  "note": "C119_contents_are_open: stores equal and outputs alike for all users with one cipher. C119_same_messages: an observer of the network sees the same. C119_short_contents: contents under 16 bytes fit without condition. Keys are single-use and messages genuine by hypothesis, since both fail for some histories (C07, C64) or by luck (C114)."
 },
 "C120": {
  "note": "C120_stored_keys: the three origins of a stored key. C120_bundle and C120_group: which bytes make which key. C120_origin and C120_never_before: histories. C120_reads: how many bytes are read, and independence of the rest."
 },
 "C121": {
  "note": "C121_group_contents_are_open: pairwise and group histories together, one list of sent messages, one other AES. C121_same_group_messages: what somebody sees who sees all group messages. C121_unchanged_contents: contents that are not replaced always fit. The list of sent messages (Sendings) says that keys are not reused; C07 and C44 say when calls reuse none."
 },
 "C122": {
  "note": "C122_no_oracle and C122_no_group_oracle: one call, equality of the whole outcome. The two _in_histories theorems: any number of forged messages between any other calls. Running time is not modelled, apart from the number of store calls and random bytes (C118 bounds the work)."
 },
 "C123": {
  "note": "C123_no_shared_object: the objects are disjoint. C123_writes_only_own and C123_reads_only_own: what a call writes and depends on. The calls run whole: that a call does not write to a foreign object and restore it is not expressed, but it could not restore what it does not read. That overlapping calls still race on the Go maps of the in-memory stores is C110."
 },
 "C124": {
  "note": "As C123, for sender keys."
 },
 "C125": {
  "note": "Spec/Fields.lean is the wire format as a grammar, Spec/Texts.lean says which texts are messages; the theorems compare the parsers with these. The fields of a stored session that are themselves messages are covered by C20 only for what the library writes."
 },
 "C126": {
  "note": "C126_named_only is about every pre-key message; with C126_decrypt the ones of known sessions depend on no pre-key at all."
 },
 "C127": {
  "note": "The text of a signed pre-key is the encoded key (first byte 5), that of a group message begins with a byte of version 3, that of an alternate identity with 0xFF."
 },
 "C128": {
  "note": "Group calls are covered for any store by C108_group_calls_never_panic.",
  "status": "proved"
 },
 "C129": {
  "note": "C129_decrypt, for any primitives, assumes that the message's ratchet key is refused as of low order by every private key or by none. C129_every_key proves this on Curve25519 for every key, and C129_decrypt_on_curve is the property without the assumption.",
  "status": "proved"
 },
 "C130": {
  "note": "The copies made inside crypto/ecdh and edwards25519 are modelled as copies. A program writes inside the window of a slice it holds, and its own slices do not overlap each other."
 },
 "C131": {
  "note": "False for one kind of bytes: ChainKey of a distribution message made by NewSenderKeyDistribution is the stored sender key's own slice, until the next EncryptMessage replaces it. Wiping it after sending makes the sender encrypt the next group message under a key that follows from the wiped bytes (C131_chain_key_false is a run, C131_written_key_is_used says it for all programs). For all other bytes the property is proved. C131_only_this_key_changes: such a write changes this chain key and nothing else in the store. C131_shared_until_next_message: after the next EncryptMessage of this sender it changes nothing, ever. C131_own_bytes and C131_store_is_apart also hold for programs that write to these chain keys. The program's own slices do not overlap each other, and it writes inside the windows it holds."
 },
 "C132": {
  "note": "C132_as_values is the whole property for all programs, exceptions included: the value program says what each write and each MessageKeys call does. The other theorems are its consequences, and runs that show the exceptions to be real. C132_any_layout says the same for states that were not parsed but built by the ratchet, where root key and chain key are windows of one array, if no windows overlap. Writes stay inside the windows held; append to a returned slice is not modelled."
 },
 "C133": {
  "note": "C133_as_values is the whole property for all programs; the others are consequences in plain terms. C133_append, C133_append_held and C133_append_later: append to what the accessors return changes nothing, except to the root key after something was received; C133_append_after_receiving: nor does append to any bytes older than the last message received; C133_append_overwrites_chain_key is its exact effect then, for every session and message with a new ratchet key. Receiving is modelled for the current state of a record; archived states, trust and stores are outside this model (they are values in Model/Cipher and Model/World). Key pairs and the message are values."
 },
 "C134": {
  "note": "C134_signal_parsed, _senderKey_parsed, _distribution_parsed, _preKey_parsed, _signal_made, _senderKey_made, _preKey_made and _plaintext are the first half, for all sequences of writes. C134_written_is_decrypted (sessions) and C134_group_written_is_decrypted are the second, C134_call and C134_preKey_call the whole DecryptMessage call for a message that the current session reads; a message that only an archived session reads is covered by C134_written_is_decrypted for that session. C134_as_values: with slices or as values, the same messages and errors. C134_altered_message_accepted is a run: one byte of Message is written and DecryptMessage returns a plaintext that was never sent, without an error. Distribution messages that were made share ChainKey with the stored sender key (C131). append to a returned slice changes nothing about the message: C134_append_parsed, C134_append_made."
 }
}