{"id": "C01", "title": "Pairwise delivery under every schedule", "statement": "After Alice processes Bob's pre-key bundle, whenever either side calls DecryptMessage on (the parsed bytes of) a message the other side's EncryptMessage returned, and the message is inside the documented windows (one of the five most recent receiving chains or the next one; at most MaxJumps ahead and at most 2000 behind the newest message accepted on its chain; not already accepted), the call returns exactly the plaintext that was encrypted.", "quantifier": "every pair of identities and pre-keys, every plaintext, every interleaving of sends and deliveries in both directions with loss, reordering and duplication, of any length", "why_tests_cant": "The number of schedules is unbounded; tests shuffle one batch of 50 messages.", "anchors": ["protocol/session/cipher.go:EncryptMessage,DecryptMessage,decryptMessageSession,chainKey,messageKeys", "protocol/session/session.go:ProcessPreKeyBundle,ProcessPreKey"]}
{"id": "C02", "title": "Session set-up agreement (X3DH)", "statement": "If Alice initialises a session from Bob's public keys and Bob initialises one from Alice's public keys (same one-time pre-key choice), then the chain Bob sends on is the chain Alice receives on, and the chain Alice sends on is the chain Bob derives from Alice's first ratchet key.", "quantifier": "all key pairs on both sides, with and without a one-time pre-key, all ratchet keys", "why_tests_cant": "Tests check two hard-coded vectors for one side each.", "anchors": ["protocol/session/session.go:initializeAliceSession,initializeBobSession", "protocol/ratchet/ratchet.go:DeriveKeys", "protocol/ratchet/keys.go:CreateChain"]}
{"id": "C03", "title": "A decrypted message is never accepted twice (pairwise)", "statement": "Once DecryptMessage has returned the plaintext of a pairwise message, delivering the same message again never returns a plaintext again.", "quantifier": "every message and every history of deliveries on a session", "why_tests_cant": "A replay can be attempted at any later point of an unbounded history; no unit test delivers a pairwise message twice.", "anchors": ["protocol/session/cipher.go:messageKeys", "protocol/session/state.go:SetReceiverChainKey,MessageKeys"]}
{"id": "C04", "title": "Rejected ciphertexts are reported as errors", "statement": "If DecryptMessage cannot authenticate or decrypt the given message (bad MAC, duplicate, too far in the future, no usable session state) it returns a non-nil error.", "quantifier": "every session record and every message object", "why_tests_cant": "The set of invalid messages is unbounded; tests only assert errors on the pre-key path.", "anchors": ["protocol/session/cipher.go:decryptSignal,decryptPreKey,decryptMessage"]}
{"id": "C05", "title": "A failed DecryptMessage leaves the stored session unchanged", "statement": "If DecryptMessage returns an error or a nil plaintext, the session record held by the session store for that address is what it was before the call.", "quantifier": "every message (including adversarial), every prior state, for copying stores and for the library's own in-memory store, and every store failure", "why_tests_cant": "Adversarial messages and failure points are unbounded; tests never compare state before and after a failure.", "anchors": ["protocol/session/cipher.go:decryptPreKey,decryptSignal,decryptMessage", "protocol/session/store_inmem.go"]}
{"id": "C06", "title": "A failed DecryptMessage does not change trust", "statement": "If DecryptMessage does not return a plaintext, the identity key recorded for the remote address is unchanged.", "quantifier": "every message, every prior state of the identity store", "why_tests_cant": "Needs a quantification over adversarial messages at first contact.", "anchors": ["protocol/session/session.go:ProcessPreKey", "protocol/identity/store_inmem.go"]}
{"id": "C07", "title": "EncryptMessage never reuses a message key", "statement": "Any two ciphertexts returned by EncryptMessage for the same remote address under the same ratchet key carry different counters; the counter of each returned message is the chain position that was persisted before the message was handed out, and the persisted position is one further.", "quantifier": "every history of calls, every store failure or crash point, up to 2^32 messages per chain", "why_tests_cant": "Crash points and history length are unbounded.", "anchors": ["protocol/session/cipher.go:EncryptMessage", "protocol/session/state.go:SetSenderChainKey"]}
{"id": "C08", "title": "A failed EncryptMessage leaves the stored session unchanged", "statement": "If EncryptMessage returns an error, the stored session record is what it was before the call.", "quantifier": "every prior state, every failure (untrusted identity, store errors before the write), copying and in-memory stores", "why_tests_cant": "Tests have no failing stores and never inspect the record after a failure.", "anchors": ["protocol/session/cipher.go:EncryptMessage", "protocol/session/store_inmem.go"]}
{"id": "C09", "title": "No traffic with an untrusted identity", "statement": "EncryptMessage returns a ciphertext and DecryptMessage returns a plaintext only if the identity store trusts the remote identity key of the session used, for the right direction.", "quantifier": "every state, message and identity store behaviour", "why_tests_cant": "Identity-store contents and histories are unbounded.", "anchors": ["protocol/session/cipher.go:EncryptMessage,decryptSignal", "protocol/session/session.go:ProcessPreKey,ProcessPreKeyBundle"]}
{"id": "C10", "title": "Pre-key bundles are authenticated before use", "statement": "ProcessPreKeyBundle succeeds only if the bundle's identity key is trusted and its signature over the signed pre-key verifies under that identity key; otherwise it returns an error and changes neither the session store nor the identity store.", "quantifier": "every bundle and every prior state", "why_tests_cant": "A test flips the 512 bits of one signature; the statement is about every bundle.", "anchors": ["protocol/session/session.go:ProcessPreKeyBundle"]}
{"id": "C11", "title": "Session records stay bounded", "statement": "In every reachable record: at most 5 receiving chains per state, at most 2000 stored message keys per chain, at most 40 archived states.", "quantifier": "every history of API calls on a record, including adversarial messages", "why_tests_cant": "An invariant over all histories; the limits are only hit after thousands of steps.", "anchors": ["protocol/session/state.go:AddReceiverChain,SetMessageKeys", "protocol/session/record.go:ArchiveCurrentState"]}
{"id": "C12", "title": "Forward-jump limit (pairwise)", "statement": "A message whose counter is more than MaxJumps (25000) beyond the receiving chain position is rejected and leaves the state unchanged, unless the session is with oneself, in which case no limit applies.", "quantifier": "every state, chain position and counter in the 32-bit range", "why_tests_cant": "Boundary over 2^64 (position, counter) pairs; tests check one distance.", "anchors": ["protocol/session/cipher.go:messageKeys", "protocol/session/state.go:SessionWithSelf"]}
{"id": "C13", "title": "One-time pre-key consumption", "statement": "When DecryptMessage succeeds on a pre-key message that creates a session and names a one-time pre-key, that pre-key is no longer in the pre-key store afterwards, and no other pre-key is removed; when DecryptMessage fails, no pre-key is removed.", "quantifier": "every message, state, and store failure point, where a failing store call has no effect", "why_tests_cant": "Crash/failure points between the session write and the deletion.", "anchors": ["protocol/session/cipher.go:decryptPreKey", "protocol/session/session.go:processPreKeyV3"]}
{"id": "C14", "title": "Repeated pre-key messages do not create new sessions", "statement": "Delivering a pre-key message whose base key matches the current or an archived state creates no new state, archives nothing and consumes no pre-key.", "quantifier": "every record and message", "why_tests_cant": "Quantifies over all records with up to 41 states.", "anchors": ["protocol/session/record.go:HasSessionState", "protocol/session/session.go:processPreKeyV3"]}
{"id": "C15", "title": "Promotion of archived sessions loses nothing", "statement": "When a message decrypts under an archived state, that state becomes current and the former current state becomes archived; all other archived states are kept in order.", "quantifier": "every record, every archive position", "why_tests_cant": "Quantifies over every archive content and position.", "anchors": ["protocol/session/record.go:PromoteOldState,PromoteState,ArchiveCurrentState", "protocol/session/cipher.go:decryptMessage"]}
{"id": "C16", "title": "Pre-key envelope until first reply", "statement": "EncryptMessage returns a pre-key message as long as nothing has been successfully decrypted in an initiated session, and a plain message from the first successful decryption on; the pre-key ids and base key in it are those of the bundle.", "quantifier": "every history of the session, every bundle", "why_tests_cant": "Property of all histories.", "anchors": ["protocol/session/cipher.go:EncryptMessage,decryptMessageSession", "protocol/session/state.go:SetUnacknowledgedPreKeyMessage,UnacknowledgedPreKeyMessages"]}
{"id": "C17", "title": "Operations are isolated per remote address", "statement": "Session operations for one remote address never change the stored session or identity of another address.", "quantifier": "every operation, argument, outcome (including panics and store failures)", "why_tests_cant": "Quantifies over all operations and all other addresses.", "anchors": ["protocol/session/session.go", "protocol/session/cipher.go", "protocol/session/store_inmem.go"]}
{"id": "C18", "title": "DecryptMessage never panics on network input", "statement": "For messages obtained from the parsing functions, DecryptMessage returns (it never panics).", "quantifier": "every parsed message, every well-formed store content", "why_tests_cant": "Adversarial inputs are unbounded.", "anchors": ["protocol/session/session.go:processPreKeyV3,initializeBobSession", "protocol/session/cipher.go"]}
{"id": "C19", "title": "Version mismatch is rejected", "statement": "decrypting a pairwise or group message whose version differs from the state's version fails and leaves the state unchanged.", "quantifier": "every message and state", "why_tests_cant": "All versions and states.", "anchors": ["protocol/session/cipher.go:decryptMessageSession", "protocol/session/group_cipher.go:DecryptMessage"]}
{"id": "C20", "title": "Stored sessions survive serialisation", "statement": "Serialising a session state and parsing it back yields the same state; every archived state is recovered exactly.", "quantifier": "every session state (any chains, keys, counters, lengths)", "why_tests_cant": "Unbounded structure; tests never round-trip a state.", "anchors": ["protocol/session/state.go:Bytes", "protocol/session/record.go:NewRecordBytes,PreviousStates", "protocol/proto/v1/storage.proto"]}
{"id": "C21", "title": "Signal message round trip", "statement": "Parsing the bytes of a message built by NewSignal (current version) returns the same version, ratchet key, counter, previous counter and ciphertext, and the same bytes; its MAC verifies under the key and identities used to build it.", "quantifier": "every key, counter, ciphertext and identity pair", "why_tests_cant": "Unbounded values; one test vector.", "anchors": ["protocol/message/signal.go", "protocol/message/mac.go"]}
{"id": "C22", "title": "Pre-key message round trip", "statement": "Parsing the bytes of a message built by NewPreKey returns the same registration id, optional pre-key id, signed pre-key id, base key, identity key and inner message.", "quantifier": "every configuration, with and without a pre-key id", "why_tests_cant": "Unbounded values; one test vector.", "anchors": ["protocol/message/prekey.go"]}
{"id": "C23", "title": "Sender-key message round trip", "statement": "Parsing the bytes of a message built by NewSenderKey returns the same distribution id, chain id, iteration and ciphertext, and its signature verifies under the signer's public key.", "quantifier": "every configuration and randomness", "why_tests_cant": "Unbounded values; one test vector.", "anchors": ["protocol/message/senderkey.go:NewSenderKey,NewSenderKeyFromBytes,VerifySignature"]}
{"id": "C24", "title": "Sender-key distribution round trip", "statement": "Parsing the bytes of a message built by NewSenderKeyDistribution with a 32-byte chain key returns the same distribution id, chain id, iteration, chain key and signing key.", "quantifier": "every configuration", "why_tests_cant": "Unbounded values.", "anchors": ["protocol/message/senderkey.go:NewSenderKeyDistribution,NewSenderKeyDistributionFromBytes"]}
{"id": "C25", "title": "Message parsers never panic", "statement": "NewSignalFromBytes, NewPreKeyFromBytes, NewSenderKeyFromBytes, NewSenderKeyDistributionFromBytes and NewPlaintextFromBytes return for every byte string.", "quantifier": "every byte string", "why_tests_cant": "All byte strings; tests parse well-formed messages only.", "anchors": ["protocol/message/signal.go:NewSignalFromBytes", "protocol/message/prekey.go:NewPreKeyFromBytes", "protocol/message/senderkey.go", "protocol/message/plaintext.go"]}
{"id": "C26", "title": "Parsers enforce the version nibble", "statement": "Every parser rejects every byte string whose first byte does not carry the supported version (or content identifier).", "quantifier": "every byte string", "why_tests_cant": "All byte strings.", "anchors": ["protocol/message/signal.go", "protocol/message/prekey.go", "protocol/message/senderkey.go", "protocol/message/plaintext.go"]}
{"id": "C27", "title": "Authenticated bytes determine the message", "statement": "Two parsed pairwise messages whose bytes agree except in the last 8 (the MAC), or two parsed sender-key messages that agree except in the last 64 (the signature), have the same version, keys, counters and ciphertext: nothing outside the authenticated bytes influences decryption.", "quantifier": "every pair of byte strings", "why_tests_cant": "Relational statement over all byte strings.", "anchors": ["protocol/message/signal.go:NewSignalFromBytes,VerifyMAC", "protocol/message/senderkey.go:NewSenderKeyFromBytes,VerifySignature"]}
{"id": "C28", "title": "Distribution id text round trip", "statement": "Parsing the text form of a distribution id returns the same id.", "quantifier": "every 128-bit id", "why_tests_cant": "2^128 ids.", "anchors": ["protocol/distribution/id.go:String,Parse,ParseBytes"]}
{"id": "C29", "title": "Public key encoding", "statement": "NewPublicKey accepts exactly the byte strings of length at least 33 whose first byte is 0x05, and returns the key whose bytes are the 32 following bytes; re-encoding an accepted key and parsing it again gives an equal key.", "quantifier": "every byte string", "why_tests_cant": "All byte strings.", "anchors": ["protocol/curve/public.go", "protocol/curve/djb_public.go"]}
{"id": "C30", "title": "Private key clamping and storage", "statement": "A private key read back from its Bytes() has the same bytes and public key; every accepted key is 32 bytes and is clamped; pre-keys and signed pre-keys return the key pair they were built from.", "quantifier": "every byte string", "why_tests_cant": "All 2^256 keys.", "anchors": ["protocol/curve/curve25519/curve25519.go:NewPrivateKey", "protocol/prekey/prekey.go", "protocol/prekey/signed.go"]}
{"id": "C31", "title": "XEdDSA signatures verify", "statement": "A signature produced by Sign over any message list, with any randomness, is 64 bytes and is accepted by VerifySignature under the corresponding public key.", "quantifier": "every private key, message list and randomness", "why_tests_cant": "2^256 keys and both sign branches.", "anchors": ["protocol/curve/curve25519/curve25519.go:Sign,VerifySignature", "protocol/curve/curve25519/util.go:utoy,xtou"]}
{"id": "C32", "title": "Signatures cover the concatenation", "statement": "Verification of a signature over several message parts depends only on their concatenation and is false for every signature that is not 64 bytes long.", "quantifier": "every signature, key and list of parts", "why_tests_cant": "Relational over all splits.", "anchors": ["protocol/curve/curve25519/curve25519.go:VerifySignature", "protocol/curve/djb_public.go:VerifySignature"]}
{"id": "C33", "title": "Alternate identity proof", "statement": "A signature from SignAlternateIdentity for another key is accepted by VerifyAlternateIdentity for that key.", "quantifier": "every identity key pair and other key", "why_tests_cant": "All keys.", "anchors": ["protocol/identity/keys.go:SignAlternateIdentity,VerifyAlternateIdentity"]}
{"id": "C34", "title": "CBC round trip", "statement": "CBCDecrypt(CBCEncrypt(p)) = p for valid keys and IVs; the ciphertext length is the least multiple of 16 strictly greater than len(p).", "quantifier": "every plaintext (any length), AES key and IV", "why_tests_cant": "All lengths and contents.", "anchors": ["protocol/crypto/aes/aes.go"]}
{"id": "C35", "title": "CBCDecrypt is total", "statement": "CBCDecrypt never panics; it returns an error for bad key sizes, empty or non-block-multiple ciphertexts, bad IV sizes and bad final padding byte, and otherwise strips between 1 and 16 bytes.", "quantifier": "every key, IV and ciphertext", "why_tests_cant": "All byte strings.", "anchors": ["protocol/crypto/aes/aes.go:CBCDecrypt,pkcs7unpad"]}
{"id": "C36", "title": "Encryption does not modify caller memory", "statement": "Encrypting a plaintext slice does not modify any byte of the caller's underlying array.", "quantifier": "every slice, including slices with spare capacity", "why_tests_cant": "Depends on aliasing of spare capacity; tests pass exact-capacity slices.", "anchors": ["protocol/crypto/aes/aes.go:pkcs7pad"]}
{"id": "C37", "title": "Group delivery under every schedule", "statement": "A receiver that processed a sender's distribution message decrypts every message the sender encrypts afterwards to exactly the plaintext, in any order, as long as it is at most MaxJumps ahead, fewer than 2000 newer keys are stored, and it has not been decrypted before.", "quantifier": "every interleaving of sends and deliveries of any length, with loss, reordering and duplication", "why_tests_cant": "The repository's out-of-order group test sends no message at all (its loop bound is 0).", "anchors": ["protocol/session/group_cipher.go", "protocol/session/group_session.go"]}
{"id": "C38", "title": "Group messages are accepted at most once", "statement": "After DecryptMessage returned the plaintext of a group message, delivering it again returns ErrDuplicateMessage (until the 32-bit iteration wraps).", "quantifier": "every history of deliveries", "why_tests_cant": "Unbounded histories.", "anchors": ["protocol/session/group_cipher.go:messageKey", "protocol/session/group_state.go:RemoveMessageKeys"]}
{"id": "C39", "title": "Distribution messages give no access to the past", "statement": "A receiver whose state came from a distribution message at iteration k rejects every message with an iteration below k.", "quantifier": "every k, every history of deliveries", "why_tests_cant": "Unbounded.", "anchors": ["protocol/session/group_cipher.go:messageKey", "protocol/session/group_session.go:ProcessSenderKeyDistribution"]}
{"id": "C40", "title": "Group records stay bounded and unambiguous", "statement": "In every reachable group record there are at most 5 states, their chain ids are pairwise distinct, and each state stores at most 2000 message keys.", "quantifier": "every history of distribution messages and deliveries", "why_tests_cant": "Invariant over all histories.", "anchors": ["protocol/session/group_record.go:AddState", "protocol/session/group_state.go:AddMessageKey"]}
{"id": "C41", "title": "Distribution messages never rewind a known chain", "statement": "Processing a distribution message for a chain id and signing key already present keeps the existing ratchet position; a different signing key replaces the state; states of other chain ids are untouched except that the oldest is dropped when there are 5.", "quantifier": "every record and distribution message", "why_tests_cant": "All records.", "anchors": ["protocol/session/group_record.go:AddState,RemoveState,RemoveStates"]}
{"id": "C42", "title": "Forward-jump limit (group)", "statement": "A group message more than 25000 iterations ahead is rejected and leaves the state unchanged.", "quantifier": "every state and iteration in the 32-bit range", "why_tests_cant": "Boundary over all pairs.", "anchors": ["protocol/session/group_cipher.go:messageKey"]}
{"id": "C43", "title": "Group messages are authenticated before use", "statement": "DecryptMessage changes the stored group record or returns a plaintext only if the message's signature verifies under the signing key registered for its chain id.", "quantifier": "every message and record, both store kinds", "why_tests_cant": "All messages.", "anchors": ["protocol/session/group_cipher.go:DecryptMessage"]}
{"id": "C44", "title": "Group senders never reuse an iteration", "statement": "Any two messages returned by the group EncryptMessage for the same distribution have different iterations; the advance is persisted before the message is returned.", "quantifier": "every history, every store failure point, up to 2^32 messages", "why_tests_cant": "Failure points and history length are unbounded.", "anchors": ["protocol/session/group_cipher.go:EncryptMessage"]}
{"id": "C45", "title": "A failed group DecryptMessage leaves the stored record unchanged", "statement": "If the group DecryptMessage returns an error, the stored group record is what it was before.", "quantifier": "every message and record, copying and in-memory stores", "why_tests_cant": "All messages, both store kinds.", "anchors": ["protocol/session/group_cipher.go:DecryptMessage,messageKey", "protocol/session/store_inmem.go"]}
{"id": "C46", "title": "Sender keys are created once", "statement": "NewSenderKeyDistribution creates a key only if none exists for (sender, distribution); otherwise it returns the current chain position and leaves the store unchanged. New chain ids fit in 31 bits.", "quantifier": "every store state", "why_tests_cant": "All states.", "anchors": ["protocol/session/group_session.go:NewSenderKeyDistribution"]}
{"id": "C47", "title": "Trust on first use", "statement": "The in-memory identity store trusts any key for an unknown address and, for a known address, exactly keys equal to the last stored one; Clear forgets everything.", "quantifier": "every sequence of store operations", "why_tests_cant": "All sequences.", "anchors": ["protocol/identity/store_inmem.go"]}
{"id": "C48", "title": "Identity replacement is reported exactly", "statement": "Store returns true exactly when an entry for the address existed and held a different identity key.", "quantifier": "every sequence of store operations", "why_tests_cant": "Depends on object identity of equal keys.", "anchors": ["protocol/identity/store_inmem.go:Store", "protocol/identity/store.go:Store"]}
{"id": "C49", "title": "Fingerprints agree on both sides", "statement": "For any two users, the displayable fingerprint computed by either side is the same string of exactly 60 decimal digits, and each side's scannable fingerprint accepts the bytes of the other's.", "quantifier": "every pair of identifiers and keys, every valid iteration count and version", "why_tests_cant": "All identifiers and keys.", "anchors": ["protocol/fingerprint/fingerprint.go", "protocol/fingerprint/displayable.go", "protocol/fingerprint/encode.go", "protocol/fingerprint/scannable.go"]}
{"id": "C50", "title": "Scannable comparison is exact", "statement": "Compare returns true exactly when the versions agree, our local equals their remote and our remote equals their local; a version mismatch or unparsable code is an error.", "quantifier": "every scannable fingerprint and byte string", "why_tests_cant": "All byte strings.", "anchors": ["protocol/fingerprint/scannable.go:Compare"]}
{"id": "C51", "title": "Fingerprint iteration bounds", "statement": "New fails exactly when the iteration count is at most 1 or above 1000000.", "quantifier": "every 32-bit iteration count and all other arguments", "why_tests_cant": "All inputs.", "anchors": ["protocol/fingerprint/fingerprint.go:fingerprint"]}
{"id": "C52", "title": "Addresses print unambiguously", "statement": "Two addresses with the same text form are equal.", "quantifier": "every pair of addresses (any name, any device id)", "why_tests_cant": "All names, including names containing dots.", "anchors": ["protocol/address/address.go:String"]}
{"id": "C53", "title": "Every one-time pre-key id is usable", "statement": "If Bob's bundle names a one-time pre-key held in Bob's store, then the first message Alice sends from it names that pre-key and Bob decrypts it.", "quantifier": "every 32-bit pre-key id", "why_tests_cant": "2^32 ids; tests use 31337.", "anchors": ["protocol/session/state.go:SetUnacknowledgedPreKeyMessage,UnacknowledgedPreKeyMessages"]}
{"id": "C54", "title": "Crash-safe persistence ordering", "statement": "At every point where EncryptMessage or DecryptMessage can stop (store failure, crash), a caller never holds a returned plaintext or ciphertext whose session advance was not written to the session store.", "quantifier": "every operation, state, message and failure point", "why_tests_cant": "All failure points.", "anchors": ["protocol/session/cipher.go", "protocol/session/group_cipher.go"]}
{"id": "C55", "title": "The MAC check is exact", "statement": "VerifyMAC on a pairwise message with a 32-byte key returns true exactly when the last 8 bytes of the message are the truncated HMAC over sender identity, receiver identity and the preceding bytes; keys of any other size are an error.", "quantifier": "every message, key and pair of identities", "why_tests_cant": "All byte strings and key sizes.", "anchors": ["protocol/message/signal.go:VerifyMAC", "protocol/message/mac.go"]}
{"id": "C56", "title": "Displayable digits encode the fingerprint hash", "statement": "Each group of five digits of the displayable fingerprint is the big-endian value of the corresponding five bytes of the fingerprint hash modulo 100000, zero padded.", "quantifier": "every pair of fingerprint hashes", "why_tests_cant": "All hashes.", "anchors": ["protocol/fingerprint/displayable.go"]}
{"id": "C57", "title": "A retried delivery finishes the pre-key deletion", "statement": "If DecryptMessage of a pre-key message failed because of a store failure and a later delivery of the same message succeeds, the one-time pre-key it names is gone from the pre-key store.", "quantifier": "every pre-key message, state and store failure point of the first delivery", "why_tests_cant": "depends on which of the store calls fails, in every state; tests use a store that never fails", "anchors": ["protocol/session/cipher.go:decryptPreKey", "protocol/session/session.go:processPreKeyV3"]}
{"id": "C58", "title": "A skipped message stays readable until 2000 newer ones are missing", "statement": "A message of a chain that has not arrived yet can still be decrypted when it arrives as long as fewer than 2000 later messages of the same chain are missing too.", "quantifier": "every order of delivery of any number of messages of one chain", "why_tests_cant": "Needs long histories: the limit depends on everything received before.", "anchors": ["protocol/session/cipher.go:messageKeys", "protocol/session/state.go:SetMessageKeys"]}
{"id": "C59", "title": "Exactly the valid signatures are accepted", "statement": "VerifySignature accepts a byte string exactly when it is a 64-byte Ed25519 signature R, S of the concatenated messages (S below the group order, S*B = R + h*A) for the curve point A with the given u coordinate and the sign stored in the signature's top bit.", "quantifier": "every public key, byte string and list of message parts", "why_tests_cant": "Ranges over all byte strings; a verifier that accepts too much passes every test with honest signatures.", "anchors": ["protocol/curve/curve25519/curve25519.go:VerifySignature", "protocol/curve/curve25519/util.go:utoy", "protocol/curve/djb_public.go:VerifySignature"]}
{"id": "C60", "title": "Every pairwise message has exactly the bytes X3DH and the Double Ratchet prescribe", "statement": "When Alice processes Bob's pre-key bundle and the two then exchange messages with EncryptMessage and DecryptMessage, every ciphertext either side returns has exactly the bytes that the published protocol prescribes for it: the right root, chain and message keys derived from the X3DH secret and the sequence of ratchet keys, AES-CBC ciphertext, counter, previous counter, MAC over both identities, and the pre-key envelope exactly until the first accepted reply.", "quantifier": "all identities, bundles, plaintexts and random sources; all schedules of sends and deliveries in both directions, including lost, reordered and repeated messages", "why_tests_cant": "Two copies of the same wrong code still talk to each other, so round-trip tests cannot see a wrong derivation, and the keys of a message depend on the whole history, of which tests try a few.", "anchors": ["protocol/session/cipher.go:EncryptMessage", "protocol/session/cipher.go:DecryptMessage", "protocol/session/session.go:ProcessPreKeyBundle", "protocol/ratchet", "protocol/message/signal.go:NewSignal", "protocol/message/prekey.go:NewPreKey"]}
{"id": "C61", "title": "Every group message and distribution message has exactly the prescribed bytes", "statement": "For a sender, every message GroupSession.EncryptMessage returns and every message NewSenderKeyDistribution returns for a group has exactly the bytes prescribed for one chain, made of the randomness of one NewSenderKeyDistribution call: the chain and message keys of its iteration, the distribution id, the chain id and the signature. Without store failures the iteration of a message is the number of messages sent to the group before.", "quantifier": "all histories of calls for this and other groups, all plaintexts, random sources and patterns of store failures", "why_tests_cant": "Two copies of the same wrong code still talk to each other, and the iteration and key depend on the whole history of calls and failures.", "anchors": ["protocol/session/group_cipher.go:EncryptMessage", "protocol/session/group_session.go:NewSenderKeyDistribution", "protocol/senderkey/keys.go", "protocol/message/senderkey.go:NewSenderKey", "protocol/message/senderkey.go:NewSenderKeyDistribution", "protocol/distribution/id.go"]}
{"id": "C62", "title": "Safety numbers are computed as prescribed", "statement": "The displayable text of fingerprint.New is, for each user, six groups of five decimal digits of the iterated SHA-512 hash of version, identity key and user identifier, the smaller text first; the scannable code is the protobuf message with the version and the first 32 bytes of the two hashes.", "quantifier": "all versions, iteration counts, identifiers and keys", "why_tests_cant": "Both users compute the number with the same code, so agreement does not show that it is the number other implementations show; the keys and identifiers are unbounded.", "anchors": ["protocol/fingerprint/fingerprint.go:New", "protocol/fingerprint/displayable.go", "protocol/fingerprint/encode.go", "protocol/fingerprint/scannable.go"]}
{"id": "C63", "title": "Concurrent calls about different peers behave as if made one after the other", "statement": "Session API calls (EncryptMessage, DecryptMessage, ProcessPreKeyBundle, storing pre-keys) that run at the same time on shared stores, interleaved at their store calls in any way, return exactly what they return when made one after the other, and leave the same stores, as long as two calls that use the same remote address or the same one-time pre-key do not overlap. Every call returns after at most ten of its own steps, whatever the others do.", "quantifier": "every list of calls with any arguments, random bytes and store failures; every initial state of the stores; every schedule of the store calls", "why_tests_cant": "The number of interleavings is unbounded and a race shows up only under particular ones; a test runs a few of them.", "anchors": ["protocol/session/session.go:ProcessPreKeyBundle", "protocol/session/cipher.go:EncryptMessage", "protocol/session/cipher.go:DecryptMessage"]}
{"id": "C64", "title": "Concurrent EncryptMessage calls never reuse a message key", "statement": "Two EncryptMessage calls for the same remote address that run at the same time never return messages with the same ratchet key and counter. (False: there is no lock; both calls load the same chain position. True when calls about the same address wait for each other.)", "quantifier": "every list of calls, every schedule of their store calls", "why_tests_cant": "The outcome depends on the interleaving of the store calls, which a test does not control.", "anchors": ["protocol/session/cipher.go:EncryptMessage"]}
{"id": "C65", "title": "Concurrent group calls about different sender keys behave as if made one after the other", "statement": "Group API calls that run at the same time on a shared store, interleaved at their store calls in any way, return exactly what they return when made one after the other, and leave the same records, as long as two calls about the same sender address and distribution id do not overlap. Every call returns after at most five of its own steps.", "quantifier": "every list of group calls with any arguments, random bytes and store failures; every initial state; every schedule of the store calls", "why_tests_cant": "The number of interleavings is unbounded.", "anchors": ["protocol/session/group_cipher.go:EncryptMessage", "protocol/session/group_cipher.go:DecryptMessage", "protocol/session/group_session.go:ProcessSenderKeyDistribution", "protocol/session/group_session.go:NewSenderKeyDistribution"]}
{"id": "C66", "title": "Concurrent group sends never reuse an iteration", "statement": "Two group EncryptMessage calls under the same sender key that run at the same time never return messages with the same iteration. (False: there is no lock. True when calls about the same sender key wait for each other.)", "quantifier": "every list of group calls, every schedule of their store calls", "why_tests_cant": "The outcome depends on the interleaving of the store calls.", "anchors": ["protocol/session/group_cipher.go:EncryptMessage"]}
{"id": "C67", "title": "A one-time pre-key serves one session, also under concurrency", "statement": "When two pre-key messages that name the same one-time pre-key arrive at the same time, at most one of them sets up a session with it. (False: the key is deleted in the last store call, so both calls can load it. When such calls wait for each other, the key is gone for every call after the first message that was decrypted.)", "quantifier": "every list of calls, every schedule of their store calls", "why_tests_cant": "The outcome depends on the interleaving of the store calls.", "anchors": ["protocol/session/cipher.go:decryptPreKey", "protocol/session/session.go:processPreKeyV3"]}
{"id": "C68", "title": "DecryptMessage delivers exactly what a session can read", "statement": "Whatever plaintext DecryptMessage returns, some session state for that address (or the state X3DH prescribes for a first message) has the secrets for the message's ratchet key and counter, the message ends with the MAC of both identity keys and all its bytes under those secrets, and its ciphertext is the encryption of the plaintext. Conversely a message that a state can read is delivered when no store call fails, the peer is trusted and the counter is not spent.", "quantifier": "every reachable world, every address, every message object, every pattern of store failures", "why_tests_cant": "The set of forged messages is unbounded, and so are the histories that lead to the session state.", "anchors": ["protocol/session/cipher.go:decryptMessage,decryptMessageSession,decryptSignal,decryptPreKey", "protocol/message/signal.go:VerifyMAC", "protocol/crypto/aes/aes.go:CBCDecrypt"]}
{"id": "C69", "title": "CBCDecrypt accepts only what CBCEncrypt produces", "statement": "If CBCDecrypt returns a plaintext for a ciphertext then CBCEncrypt returns that ciphertext for that plaintext. (False: only the last padding byte is checked. What holds: the ciphertext is the encryption of the plaintext followed by 1 to 16 bytes that fill the last block and end with their number.)", "quantifier": "every key, IV and ciphertext", "why_tests_cant": "The domain is all byte strings.", "anchors": ["protocol/crypto/aes/aes.go:CBCDecrypt,pkcs7unpad"]}
{"id": "C70", "title": "Group DecryptMessage delivers exactly what a stored sender key can read", "statement": "When no store call fails, the group DecryptMessage returns a plaintext if and only if a state stored for that sender and distribution id has the message's chain id, the message is signed by the state's signing key, the state has the secrets for the iteration (kept from a skipped message, or at most 25000 ahead on the chain) and the ciphertext is the encryption of the padded plaintext under them. Store failures can only turn a success into an error.", "quantifier": "every reachable group store, every sender, every message object", "why_tests_cant": "The set of forged messages is unbounded, and so are the histories that lead to the stored state.", "anchors": ["protocol/session/group_cipher.go:DecryptMessage,messageKey", "protocol/message/senderkey.go:VerifySignature"]}
{"id": "C71", "title": "Every field of an accepted pre-key message is authenticated", "statement": "If DecryptMessage accepts a pre-key message, changing a field of its envelope makes it rejected or changes only what the receiver stores about that field. (False for the registration id: it can be changed to any value without changing the result, the consumed pre-key, the trusted identity or any other session.)", "quantifier": "every reachable world, address, pre-key message and registration id", "why_tests_cant": "It compares two executions for every message and every replaced value.", "anchors": ["protocol/session/cipher.go:decryptPreKey", "protocol/session/session.go:ProcessPreKey,processPreKeyV3", "protocol/message/prekey.go:PreKey"]}
{"id": "C72", "title": "The length of a message reveals only the number of plaintext blocks", "statement": "Two plaintexts with the same number of 16-byte blocks after padding, encrypted in the same session (or group) state, give ciphertext messages of the same length and type, and a message is longer than its plaintext by a bounded amount (173 bytes for a Signal or pre-key message, 137 for a group message).", "quantifier": "every state, every pair of plaintexts", "why_tests_cant": "It compares two executions for every pair of plaintexts and every state.", "anchors": ["protocol/session/cipher.go:EncryptMessage", "protocol/session/group_cipher.go:EncryptMessage", "protocol/message/signal.go:NewSignal", "protocol/message/senderkey.go:NewSenderKey", "protocol/crypto/aes/aes.go:CBCEncrypt"]}
{"id": "C73", "title": "Stored sessions stay bounded in bytes", "statement": "Whatever messages arrive, the bytes of every session state in the store are at most 941000, and a record holds at most 41 states.", "quantifier": "every reachable world, address and record", "why_tests_cant": "It ranges over every history of calls and all messages of an attacker.", "anchors": ["protocol/session/state.go:SetMessageKeys,AddReceiverChain,Bytes", "protocol/session/record.go:ArchiveCurrentState"]}
{"id": "C74", "title": "A session survives being saved and loaded", "statement": "A persistent store written with the byte encodings of the API (State.Bytes and NewRecordBytes) gives back records that read the same messages. (False for the current state alone: archived sessions are lost. Saving every state and promoting them again in order gives back exactly the record.)", "quantifier": "every reachable world, address and record", "why_tests_cant": "It ranges over every history that leads to a record.", "anchors": ["protocol/session/record.go:NewRecordBytes,PromoteState,ArchiveCurrentState", "protocol/session/state.go:Bytes"]}
{"id": "C75", "title": "The store no longer holds the key of a message that was sent or received", "statement": "After EncryptMessage has returned, nothing in the stores depends on the chain key it used, except through the next chain key, so a later theft of the stores does not reveal the message. The same holds after DecryptMessage has delivered a message. (False for received messages: the key of a message received in order stays derivable from the stored session; it is gone only for messages that arrived late.)", "quantifier": "every pair of stores that differ only in the secret, every plaintext, every message, all primitives", "why_tests_cant": "That a secret is gone is a statement about all values it could have had, so it compares executions for every such value.", "anchors": ["protocol/session/cipher.go:EncryptMessage,decryptMessageSession,messageKeys", "protocol/session/state.go:SetSenderChainKey,SetMessageKeys,MessageKeys"]}
{"id": "C76", "title": "The store no longer holds the key of a group message that was sent or received", "statement": "After the group cipher's EncryptMessage or DecryptMessage has returned, nothing in the stores depends on the chain key of the message or on its message key, except through the next chain key and the keys kept for skipped messages.", "quantifier": "every pair of stores that differ only in the chain key, every plaintext, every message, all primitives", "why_tests_cant": "It compares executions for every value the secret could have had.", "anchors": ["protocol/session/group_cipher.go:EncryptMessage,DecryptMessage,messageKey", "protocol/session/group_state.go:SetSenderChainKey,AddMessageKey,RemoveMessageKeys"]}
{"id": "C77", "title": "Messages are delivered when both users start sessions, at once and repeatedly", "statement": "Two users may process each other's pre-key bundles at any time, from both sides at once and again while messages of older sessions are on their way (up to 41 sessions, the number a record keeps). Every message that is inside the windows of the session in which it was encrypted is decrypted to its plaintext, whichever session is current when it arrives; nothing else is ever returned for it; the session of the message that was read last is the one the reader answers in; whoever has started a session or read a message can encrypt; and processing a fresh bundle always succeeds and begins a session with a new base key.", "quantifier": "all pairs of users, session stores of both kinds, bundles, plaintexts, random bytes whose key pairs differ, and all schedules of starting, sending, delivering, losing, reordering and repeating", "why_tests_cant": "The number of schedules is unbounded, and errors show only in particular interleavings: a message for an archived session that has meanwhile been replaced, or a pre-key message that crosses another one.", "anchors": ["protocol/session/cipher.go:DecryptMessage,decryptMessage,decryptMessageSession", "protocol/session/session.go:ProcessPreKeyBundle,ProcessPreKey", "protocol/session/record.go:PromoteState,ArchiveCurrentState,PreviousStates"]}
{"id": "C78", "title": "Signatures are exactly the prescribed ones", "statement": "For every private key, message parts and at least 64 random bytes, Sign returns R followed by S with the sign bit of the public point, where R = rB, S = r + ha, a is the secret scalar, r is the hash (modulo the group order) of the byte FE, 31 bytes FF, a, the message and the first 64 random bytes, and h is the hash of R, the public point and the message. Two signatures have the same R only if those nonce hashes agree modulo the group order.", "quantifier": "all private keys, all lists of message parts, all random inputs, every function in place of SHA-512", "why_tests_cant": "A signature whose nonce ignores the message or the random bytes still verifies in every test; only two signatures with the same nonce, which a test will not produce by chance, give away the key.", "anchors": ["protocol/curve/curve25519/curve25519.go: PrivateKey.Sign", "protocol/curve/djb_private.go: Sign"]}
{"id": "C79", "title": "Diffie-Hellman agreement is symmetric and refuses small-order keys", "statement": "Agreement between a private key and the public key of another private key never fails and gives both sides the same secret: the coordinate of the product of both scalars times the base point. For any 32 bytes given as public key, Agreement does not panic, never returns an all-zero secret, and returns an error exactly if the number the bytes stand for (top bit ignored, modulo 2^255-19) is one of the five published numbers of small order, whatever the private key.", "quantifier": "all pairs of private keys; all 32-byte public keys, of the curve and of its twist", "why_tests_cant": "The public key comes from the network: the refusal must hold for every encoding of every small-order point (including non-canonical ones) and every private key.", "anchors": ["protocol/curve/curve25519/curve25519.go: PrivateKey.Agreement, NewPrivateKey", "protocol/curve/djb_private.go: Agreement"]}
{"id": "C80", "title": "A successful call pins the identity of the peer", "statement": "When EncryptMessage, DecryptMessage or ProcessPreKeyBundle for an address succeeds, the identity store holds for that address the identity key of the peer (of the session used, of the message, of the bundle), and the entries of all other addresses are as before. With the trust rule of the in-memory identity store, every later successful call for that address, after any history of calls with any outcomes and store failures, is with that same key.", "quantifier": "all worlds, addresses, messages, bundles, plaintexts, random bytes, store failures; all later histories", "why_tests_cant": "If the key is not stored on one of the paths, everything still works; only a later change of identity, after some history, is accepted silently.", "anchors": ["protocol/session/cipher.go: EncryptMessage, DecryptMessage, decryptSignal", "protocol/session/session.go: ProcessPreKey, ProcessPreKeyBundle", "protocol/identity/store_inmem.go: IsTrustedIdentity"]}
{"id": "C81", "title": "The algorithms in use have the properties the protocol relies on", "statement": "AES block decryption inverts encryption for every key of 16, 24 or 32 bytes and every block. The algorithms the library calls (HMAC and HKDF with SHA-256, SHA-512, AES, X25519 and XEdDSA) satisfy every law that the other properties ask of the cryptographic primitives, so these properties hold for the library with its actual algorithms.", "quantifier": "all keys, blocks, messages, points and random bytes", "why_tests_cant": "Known-answer tests check single values; that decryption inverts encryption, that two users always agree and that every signature verifies must hold for all keys and messages.", "anchors": ["protocol/crypto/aes/aes.go: CBCEncrypt, CBCDecrypt", "protocol/ratchet/keys.go: ChainKey, RootKey", "protocol/curve/curve25519/curve25519.go: PrivateKey.Agreement, PrivateKey.Sign, PublicKey.VerifySignature", "protocol/fingerprint/fingerprint.go: fingerprint"]}
{"id": "C82", "title": "Failing stores, crashes and hostile input do not break a conversation", "statement": "Two users start sessions with each other and exchange messages in any order (with loss, reordering and repetition), while any store call may fail with or without having had its effect, calls may be cut off by crashes, anyone may hand them messages in the other's name that are not forgeries, they talk to other users, and they add and remove pre-keys that no session on its way needs. A message that EncryptMessage has returned and that is inside the receiver's windows can be decrypted, once the receiver's stores work, to the plaintext that was encrypted; nothing else is ever returned for it; whoever has a session can send; and new sessions can be started.", "quantifier": "all pairs of users, all schedules, all patterns of store failures and crash points, all rejected messages from outside, all calls about other users, all changes of the pre-key stores, up to 41 attempts to start a session", "why_tests_cant": "The outcome depends on which store call of which step fails and on what was delivered before; there are unboundedly many combinations, and one of them is enough to lose a conversation.", "anchors": ["protocol/session/cipher.go: DecryptMessage, decryptPreKey, decryptSignal, EncryptMessage", "protocol/session/session.go: ProcessPreKeyBundle, ProcessPreKey, processPreKeyV3", "protocol/session/record.go: Record.PromoteState, Record.SetSessionState"]}
{"id": "C83", "title": "A parsed message does not depend on the buffer it was parsed from", "statement": "After a message has been parsed from a byte slice, the caller may reuse or overwrite the slice: decrypting (or processing) the parsed message later gives the same result and the same effect on the stores as doing it at once, and only a message that its sender authenticated is accepted.", "quantifier": "all byte slices, all messages of the four kinds, all later contents of the caller's memory, all stores", "why_tests_cant": "Tests parse from a fresh slice that nobody writes to again; the property is about every later content of the caller's buffer.", "anchors": ["protocol/message/signal.go: NewSignalFromBytes, Signal.VerifyMAC", "protocol/message/prekey.go: NewPreKeyFromBytes", "protocol/message/senderkey.go: NewSenderKeyFromBytes, SenderKey.VerifySignature, NewSenderKeyDistributionFromBytes", "protocol/session/group_cipher.go: GroupSession.DecryptMessage"]}
{"id": "C84", "title": "Group messages arrive despite failing stores and repeated or replaced sender keys", "statement": "A receiver has processed a sender's distribution message. Afterwards store calls may fail (with or without having had their effect) on both sides and in every call, the sender may hand out its key again, and the receiver may be given further distribution messages in the sender's name: the same key at an earlier or later position, or other sender keys. As long as the receiver has not been handed more than four other sender keys since it last processed this one, every message sent that has not been taken in and is inside the windows (25000 ahead, 2000 outstanding) is decrypted to its plaintext, nothing else is ever returned for it, and a failed call leaves the stored record as it was or as it is after reading the message.", "quantifier": "all senders and receivers with any earlier history, all schedules of sends, deliveries, repeated and new distributions and foreign messages, all patterns of store failures, both kinds of store", "why_tests_cant": "Which of the five stored sender keys survives, and where its chain stands, depends on the whole order of distributions, deliveries and failures; tests try one order with a store that never fails.", "anchors": ["protocol/session/group_cipher.go: GroupSession.EncryptMessage, GroupSession.DecryptMessage", "protocol/session/group_session.go: GroupSession.ProcessSenderKeyDistribution, GroupSession.NewSenderKeyDistribution", "protocol/session/group_record.go: GroupRecord.AddState"]}
{"id": "C85", "title": "Results do not depend on who shares which session object", "statement": "A session store may keep the record pointer that Store is given or a copy of it; for any history of EncryptMessage, DecryptMessage, ProcessPreKeyBundle and pre-key store calls, with any store failures, and whatever sessions the application itself loads in between, all results and all stored sessions are the same in both cases. The only choice of the store that has an effect is whether Load returns the stored pointer or a copy.", "quantifier": "all session stores (Load: pointer or copy; Store: pointer or copy), all histories of calls and loads, all random bytes and store failures", "why_tests_cant": "The code writes through pointers that stores, records, clones and parsed archives may share; a wrong alias shows only after a particular sequence of promotions, failures and loads.", "anchors": ["protocol/session/record.go: Record.SetSessionState, Record.PromoteState, Record.PromoteOldState, Record.PreviousStates", "protocol/session/state.go: State.Clone", "protocol/session/cipher.go: Session.EncryptMessage, Session.DecryptMessage", "protocol/session/store_inmem.go: inMemStore.Load, inMemStore.Store"]}
{"id": "C86", "title": "A session record the application holds is a snapshot", "statement": "A record that the application obtained from SessionStore.Load keeps its contents, whatever calls follow; in particular a call about one peer never changes a record the application holds for another peer.", "quantifier": "all histories before and after the load, all peers, all session stores, all store failures", "why_tests_cant": "It is about every later call on every other object: a shared state would show only for the one pair of objects that share it.", "anchors": ["protocol/session/store_inmem.go: inMemStore.Load", "protocol/session/record.go: Record.State, Record.SetSessionState, Record.PromoteState", "protocol/session/cipher.go: Session.EncryptMessage, Session.DecryptMessage"]}
{"id": "C87", "title": "A ratchet step forgets the old secrets", "statement": "When DecryptMessage has read a message that begins a new ratchet step, nothing that is stored afterwards tells the former root key, the former private ratchet key or the former sending chain key from any other values: any other values of the three fit the same result and exactly the same stores.", "quantifier": "all stores, sessions, messages with a new ratchet key, random bytes and store failures; all other values of the three secrets; all primitives", "why_tests_cant": "It says that no trace of a secret is left anywhere in the stores, whatever its value; a test can only look for the values it knows in the places it knows.", "anchors": ["protocol/session/cipher.go: chainKey, decryptMessageSession, Session.DecryptMessage", "protocol/ratchet/keys.go: RootKey.CreateChain", "protocol/session/state.go: State.SetSenderChain, State.SetRootKey"]}
{"id": "C88", "title": "A ratchet step renews the secrets", "statement": "After DecryptMessage has read a message that begins a new ratchet step, the new root key and the new sending chain key are not determined by the stores before the call and the message: for every pair of values there are primitives, different only in HKDF for the input that contains the secret shared by the new ratchet key, with which the same call returns the same plaintext and stores these values.", "quantifier": "all stores, sessions, messages with a new ratchet key, random bytes and store failures; all values of the two new keys; all primitives", "why_tests_cant": "A test sees one value of the new keys; the claim is that every value is possible for someone who lacks the fresh random bytes.", "anchors": ["protocol/session/cipher.go: chainKey, decryptMessageSession, Session.DecryptMessage", "protocol/ratchet/keys.go: RootKey.CreateChain", "protocol/curve/pair.go: GenerateKeyPair"]}
{"id": "C89", "title": "A message hides its content up to the number of blocks", "statement": "A message that EncryptMessage returns, and the stores it leaves, could have come from any other content that fills the same number of 16-byte blocks and repeats blocks in CBC mode where the ciphertext does, if AES under the key of this message were another permutation; and from no other content. A message with less than 16 bytes of content could have any other content of less than 16 bytes. The same holds for group messages.", "quantifier": "all stores, peers, contents, alternative contents, store failures and random bytes; all primitives", "why_tests_cant": "It compares every content with every other one and with every permutation of blocks.", "anchors": ["protocol/session/cipher.go: Session.EncryptMessage", "protocol/session/group_cipher.go: GroupSession.EncryptMessage", "protocol/crypto/aes/aes.go: CBCEncrypt", "protocol/message/signal.go: NewSignal", "protocol/message/senderkey.go: NewSenderKey"]}
{"id": "C90", "title": "A new bundle repairs a conversation", "statement": "Whatever calls two users have made before, and whatever sessions these have left behind on either side, when one of them processes a bundle of the other's the conversation works again: every message sent from then on and delivered inside the windows is read, and both can go on sending.", "quantifier": "all histories of calls of both users, including failed, attacked and interrupted ones; all bundles the other user offers; all schedules of sends and deliveries, with losses and reordering; all contents and random bytes; all primitives", "why_tests_cant": "It ranges over all the states in which a session can be left behind, on both sides, and over all schedules afterwards.", "anchors": ["protocol/session/session.go: Session.ProcessPreKeyBundle", "protocol/session/cipher.go: Session.DecryptMessage, Session.EncryptMessage", "protocol/session/record.go: Record.PromoteState, Record.HasSessionState, Record.ArchiveCurrentState"]}
{"id": "C91", "title": "A stored session record answers every query", "statement": "The accessors of a session record (Version, LocalIdentityKey, RemoteIdentityKey, ReceiverChainKey, SenderChainKey) give ErrNoCurrentSession exactly when the record has no current session; a record in the store never lacks one. For a stored record Version is 3, LocalIdentityKey is the user's own identity key, RemoteIdentityKey exists, SenderChainKey is at the counter of the next message to be sent, and after a message has been decrypted ReceiverChainKey of its ratchet key exists and is at its counter or later.", "quantifier": "all histories of calls with any inputs, random bytes and store failures; all addresses; all ratchet keys; all primitives", "why_tests_cant": "It is an invariant of all stored records over all histories, including those with failed and attacked calls.", "anchors": ["protocol/session/record.go: Record.Version, Record.LocalIdentityKey, Record.RemoteIdentityKey, Record.ReceiverChainKey, Record.SenderChainKey", "protocol/session/cipher.go: Session.EncryptMessage, Session.DecryptMessage"]}
{"id": "C92", "title": "Printed types, ids and errors are unambiguous", "statement": "Two message types with the same String are the same type, and the four types of the library print their names; two pre-key ids with the same String are equal; a session-not-found or untrusted-identity error text names one address, and no text is both.", "quantifier": "all 64-bit message types, all 32-bit ids, all addresses (any name, any device id)", "why_tests_cant": "It compares every pair of values, with names that may contain any characters.", "anchors": ["protocol/message/ciphertexttype_string.go: CiphertextType.String", "protocol/prekey/prekey.go: ID.String", "protocol/perrors/errors.go: errSessionNotFound.Error, errUntrustedIdentity.Error"]}
{"id": "C93", "title": "Sharing of group records and slices does not show in any result", "statement": "Group records are pointers to slices of pointers, which the code appends to, cuts and filters in place. What every group call returns and what is stored after it depends only on the values: it is the same whether Store keeps the pointer or a copy, however much room append leaves in a new array, and whatever the application loads in between.", "quantifier": "all histories of the four group calls with any inputs, random bytes and store failures; all growth policies of append; both kinds of Store and of Load; all primitives", "why_tests_cant": "Overwritten slots of a shared array show only for certain lengths, capacities and orders of calls.", "anchors": ["protocol/session/group_record.go: GroupRecord, GroupRecord.AddState, GroupRecord.RemoveState, GroupRecord.RemoveStates", "protocol/session/group_cipher.go: GroupSession.EncryptMessage, GroupSession.DecryptMessage", "protocol/session/group_session.go: GroupSession.ProcessSenderKeyDistribution, GroupSession.NewSenderKeyDistribution", "protocol/session/store_inmem.go: inMemGroupStore.Load, inMemGroupStore.Store"]}
{"id": "C94", "title": "A loaded group record is a snapshot", "statement": "A group record that the application has loaded from the store has the stored value and does not change afterwards.", "quantifier": "all histories before and after the load, with any store failures", "why_tests_cant": "It must hold for every later call, also for failing ones and for other groups.", "anchors": ["protocol/session/group_record.go: GroupRecord, GroupRecord.AddState, GroupRecord.RemoveState, GroupRecord.RemoveStates", "protocol/session/group_cipher.go: GroupSession.EncryptMessage, GroupSession.DecryptMessage", "protocol/session/group_session.go: GroupSession.ProcessSenderKeyDistribution, GroupSession.NewSenderKeyDistribution", "protocol/session/store_inmem.go: inMemGroupStore.Load, inMemGroupStore.Store"]}
{"id": "C95", "title": "Replaced sender keys are released", "statement": "The array behind a stored group record points only to states that the record has: a sender key state that was replaced, removed or pushed out by newer ones cannot be reached from the record any more. No state is in a record twice and none is nil.", "quantifier": "all histories of group calls, all growth policies of append, all stores", "why_tests_cant": "What a slice leaves behind in its array cannot be seen through the API; it depends on every order of additions and removals.", "anchors": ["protocol/session/group_record.go: GroupRecord, GroupRecord.AddState, GroupRecord.RemoveState, GroupRecord.RemoveStates", "protocol/session/group_cipher.go: GroupSession.EncryptMessage, GroupSession.DecryptMessage", "protocol/session/group_session.go: GroupSession.ProcessSenderKeyDistribution, GroupSession.NewSenderKeyDistribution", "protocol/session/store_inmem.go: inMemGroupStore.Load, inMemGroupStore.Store"]}
{"id": "C96", "title": "Used message keys of a group are released", "statement": "The array behind the message keys of a stored sender key state points only to keys that can still be used: a key that has been used, or dropped, cannot be reached from the stored record any more.", "quantifier": "all histories of group calls, all growth policies of append, all stores", "why_tests_cant": "What a slice leaves behind in its array cannot be seen through the API.", "anchors": ["protocol/session/group_state.go: GroupState.RemoveMessageKeys, GroupState.AddMessageKey", "protocol/session/group_cipher.go: GroupSession.DecryptMessage, GroupSession.messageKey", "protocol/session/store_inmem.go: inMemGroupStore.Load, inMemGroupStore.Store"]}
{"id": "C97", "title": "A used one-time pre-key is forgotten", "statement": "Once DecryptMessage has read a message that set up a session with a one-time pre-key, nothing in the stores tells this pre-key from any other: with any other key pair in its place, and HKDF changed only for the input that contains its shared secret, the same call returns the same plaintext and leaves exactly the same stores.", "quantifier": "all stores (that do not fail), all pre-key messages that start a new session, all primitives, all other key pairs and shared secrets", "why_tests_cant": "That a secret has left no trace is a statement about all other values it could have had; a test looks at one run.", "anchors": ["protocol/session/cipher.go: Session.decryptPreKey", "protocol/session/session.go: Session.ProcessPreKey, Session.processPreKeyV3, initializeBobSession", "protocol/prekey/store_inmem.go: inMemStore.Delete"]}
{"id": "C98", "title": "The secrets of a new session are hidden from whoever lacks one of the shared secrets", "statement": "The root key and both chain keys that ProcessPreKeyBundle stores come from HKDF on the shared secrets of its keys with the keys of the bundle. For whoever lacks one of these shared secrets every value of them is possible: with HKDF changed only for the two inputs that contain them, the same call leaves the same stores with these values in place of the others. In particular no secret shows in the public parts of the session.", "quantifier": "all stores (that do not fail), all bundles, all random bytes, all primitives, all values of the secrets", "why_tests_cant": "Hiding is a statement about all other values the secrets could have had; a test sees one run.", "anchors": ["protocol/session/session.go: Session.ProcessPreKeyBundle, initializeAliceSession", "protocol/ratchet/ratchet.go: DeriveKeys", "protocol/ratchet/keys.go: RootKey.CreateChain"]}
{"id": "C99", "title": "Slices that are shared and overwritten do not show in any session result", "statement": "Session records hold pointers to structures with slices of receiving chains, of kept message keys and of archived sessions, which the code appends to, cuts, filters and overwrites in place. What every session call returns and what is stored after it depends only on the values: it is the same however much room the runtime leaves in arrays, and whether Store keeps the pointer or a copy.", "quantifier": "all histories of session calls with any inputs, random bytes and store failures; all growth policies of append; both kinds of Store and of Load; all primitives", "why_tests_cant": "Overwritten slots of a shared array show only for certain lengths, capacities and orders of calls.", "anchors": ["protocol/session/state.go: State.AddReceiverChain, State.MessageKeys, State.SetMessageKeys, State.SetReceiverChainKey, State.Clone", "protocol/session/record.go: Record.ArchiveCurrentState, Record.PromoteOldState, Record.PromoteState", "protocol/session/cipher.go: Session.DecryptMessage, Session.EncryptMessage"]}
{"id": "C100", "title": "Receiving chains that are pushed out are released", "statement": "A session keeps five receiving chains. The array behind them points only to chains that the session still has: a chain that a newer one has pushed out, with its keys, cannot be reached from the stored session any more. No slot of a stored slice is nil, so no later call follows a nil pointer.", "quantifier": "all histories of session calls, all growth policies of append, all stores, all stored sessions", "why_tests_cant": "What a slice leaves behind in its array cannot be seen through the API.", "anchors": ["protocol/session/state.go: State.AddReceiverChain, State.ReceiverChain"]}
{"id": "C101", "title": "Used message keys of a session are released", "statement": "The arrays behind the kept message keys of a stored session point only to keys that can still be used: a key that has been used, or dropped, cannot be reached from the stored session any more.", "quantifier": "all histories of session calls, all growth policies of append, all stores, all stored sessions", "why_tests_cant": "What a slice leaves behind in its array cannot be seen through the API.", "anchors": ["protocol/session/state.go: State.MessageKeys, State.SetMessageKeys", "protocol/session/cipher.go: messageKeys, Session.decryptMessage"]}
{"id": "C102", "title": "Archived sessions that are pushed out are released", "statement": "A record keeps forty archived sessions. The array behind them points only to sessions that the record still has: a session that a newer one has pushed out, with its keys, cannot be reached from the stored record any more.", "quantifier": "all histories of session calls, all growth policies of append, all stores, all stored records", "why_tests_cant": "What a slice leaves behind in its array cannot be seen through the API.", "anchors": ["protocol/session/record.go: Record.ArchiveCurrentState, Record.PromoteOldState, NewRecord"]}
{"id": "C103", "title": "A sender key handed over in pairwise sessions opens the group for every member", "statement": "A user makes a sender key and sends the bytes of the distribution message to each member as the plaintext of a pairwise message. Each member's DecryptMessage returns exactly those bytes, they parse, and processing them succeeds. After that one ciphertext from the group session serves all members: each member reads every group message that is inside that member's own windows, and reads what was encrypted, whatever the network loses, reorders, repeats or adds on the way to each of them.", "quantifier": "any set of members; for each, any pairwise conversation so far, started by either user; any schedule of group messages to the members; any foreign messages without a valid signature; both kinds of store; all primitives", "why_tests_cant": "It joins the session code, the message formats and the group code over all schedules of all members; tests run one member in one order.", "anchors": ["protocol/session/group_session.go: GroupSession.NewSenderKeyDistribution, GroupSession.ProcessSenderKeyDistribution", "protocol/session/group_cipher.go: GroupSession.EncryptMessage, GroupSession.DecryptMessage", "protocol/session/cipher.go: Session.EncryptMessage, Session.DecryptMessage", "protocol/message/senderkey.go: NewSenderKeyDistributionFromBytes"]}
{"id": "C104", "title": "A crash while several calls are in flight leaves the stores of some sequence of whole and failed calls", "statement": "Let several calls of the session API, or of the group API, run in different goroutines over stores that hand out copies and whose calls are atomic, with calls about the same address or key waiting for each other. If the process dies at any moment, what is in the stores is exactly what the same calls leave when they are made one after the other, those that had returned as they were and each of the others failing with an error from a store call. So no message that was returned before the crash has the position of one that is sent before, at or after it.", "quantifier": "every set of calls with any random bytes and store failures, every schedule in turn and every point at which it stops, every state of the stores before, every history afterwards", "why_tests_cant": "a test would have to stop the process between any two store calls of any interleaving", "anchors": ["protocol/session/cipher.go: Session.EncryptMessage, Session.DecryptMessage, Session.decryptPreKey, Session.decryptSignal", "protocol/session/session.go: Session.ProcessPreKeyBundle", "protocol/session/group_cipher.go: GroupSession.EncryptMessage, GroupSession.DecryptMessage", "protocol/session/group_session.go: GroupSession.NewSenderKeyDistribution"]}
{"id": "C105", "title": "Among any overlapping calls, each call does what it would do alone on what it met", "statement": "Let calls of the session API run in different goroutines over stores that hand out copies and whose calls are atomic, in any interleaving, with no rule about which of them may overlap. Then every call returns what it would have returned alone on stores whose every entry is as the call met it at one of its turns, and every change it would have made there was in the stores after one of its turns. So, whatever overlaps: stored sessions stay within their bounds, a returned plaintext is authentic, a returned ciphertext is at the position of a session that the call met and the next position was stored before it was returned, and no plain message makes DecryptMessage panic.", "quantifier": "every set of calls with any random bytes and store failures, every schedule, every reachable state of the stores before", "why_tests_cant": "the number of interleavings is unbounded, and a test cannot see which entries a call met at which moment", "anchors": ["protocol/session/cipher.go: Session.EncryptMessage, Session.DecryptMessage, Session.decryptPreKey, Session.decryptSignal", "protocol/session/session.go: Session.ProcessPreKeyBundle"]}
{"id": "C106", "title": "Among any overlapping group calls, every result and every stored sender key is that of a sequential history", "statement": "Let calls of the group API run in different goroutines over a store that hands out copies and whose calls are atomic, in any interleaving, also about the same sender key. Then every call returns what it returns when some of the other calls are made before it, one after the other and each at most once; and at every moment every stored sender key is what some of the calls, made one after the other and each at most once, leave. So every property of a single group call, and of the stored keys, holds in any interleaving.", "quantifier": "every set of calls with any random bytes and store failures, every schedule, every state of the store before, every sender key", "why_tests_cant": "the number of interleavings is unbounded", "anchors": ["protocol/session/group_cipher.go: GroupSession.EncryptMessage, GroupSession.DecryptMessage", "protocol/session/group_session.go: GroupSession.ProcessSenderKeyDistribution, GroupSession.NewSenderKeyDistribution"]}
{"id": "C107", "title": "Exactly the texts of an id are parsed as it", "statement": "Parsing a text as a distribution id gives an id exactly if the text is one of the ways to write that id: 8-4-4-4-12 hexadecimal digits in either case with hyphens, the same after 'urn:uuid:' in either case, the same between two bytes (braces, or any others), or the 32 digits alone. Every other text is refused with an error, or with a panic by MustParse; no text is a way to write two ids; and String gives the hyphenated form in lower case.", "quantifier": "every byte string and every id", "why_tests_cant": "the texts are unbounded in number, and the ones wrongly accepted or refused are those nobody thought of", "anchors": ["protocol/distribution/id.go: ID, Parse, ParseBytes, MustParse, String"]}
{"id": "C108", "title": "Only a pre-key message can make a call panic", "statement": "After any history no call of the session API panics, except DecryptMessage on a pre-key message; no call of the group API panics at all. This holds whatever the arguments, the random bytes, the kind of store and the store's failures, and also for calls that overlap. With a store that does not fail, DecryptMessage on a pre-key message panics exactly if the sender's identity is trusted, no session was set up with its base key yet, the pre-keys it names can be read as far as they exist, and the signed pre-key does not exist or a Diffie-Hellman value of the key agreement is zero.", "quantifier": "every history, call, argument, source of random bytes, store failure and, for overlapping calls, every schedule", "why_tests_cant": "a panic anywhere takes the process down; tests only reach the paths they call", "anchors": ["protocol/session/cipher.go: Session.EncryptMessage, Session.DecryptMessage", "protocol/session/session.go: Session.ProcessPreKeyBundle, Session.processPreKeyV3", "protocol/session/group_cipher.go: GroupSession.EncryptMessage, GroupSession.DecryptMessage"]}
{"id": "C109", "title": "Calls fail only for the named reasons", "statement": "With a store that does not fail: EncryptMessage either reports that there is no session, and there is none, or that the identity is untrusted, and it is, or returns a message. ProcessPreKeyBundle succeeds exactly if the identity is trusted, the signature on the signed pre-key verifies, there are 64 random bytes, and no Diffie-Hellman value is zero. Group EncryptMessage succeeds exactly if there are 64 random bytes and the newest sender key of the group is one whose private half is held. Processing a distribution message always succeeds. NewSenderKeyDistribution succeeds exactly if a sender key is there already or there are random bytes for a new one.", "quantifier": "every history, address, group, argument and source of random bytes", "why_tests_cant": "that no other reason to fail exists is a statement about all states and arguments", "anchors": ["protocol/session/cipher.go: Session.EncryptMessage", "protocol/session/session.go: Session.ProcessPreKeyBundle", "protocol/session/group_cipher.go: GroupSession.EncryptMessage", "protocol/session/group_session.go: GroupSession.ProcessSenderKeyDistribution, GroupSession.NewSenderKeyDistribution"]}
{"id": "C110", "title": "Calls that overlap on the in-memory stores race exactly if one succeeds", "statement": "The in-memory stores are maps without a lock. When calls run in different goroutines on the same in-memory stores, then as soon as one of two calls on sessions succeeds the two race on a map, also when they are about different peers and whatever the schedule. Of calls to EncryptMessage, ProcessPreKeyBundle and DecryptMessage on plain messages two race exactly if one of them succeeds, and likewise of group calls to EncryptMessage, DecryptMessage and ProcessSenderKeyDistribution. So these stores need a lock around whole calls, or one goroutine.", "quantifier": "every list of calls, every schedule, whatever the stores hold and however records are shared", "why_tests_cant": "a race shows only in some schedules, and the claim is about all of them", "anchors": ["protocol/session/store_inmem.go: NewInMemStore, NewInMemGroupStore", "protocol/identity/store_inmem.go: NewInMemStore", "protocol/prekey/store_inmem.go: NewInMemStore"]}
{"id": "C111", "title": "Clearing the identity store takes effect at once", "statement": "Clear empties the in-memory identity store at once. The goroutine it starts to delete the old entries never touches the map the store uses afterwards: whenever its deletions happen, the store holds what it would hold without them.", "quantifier": "every sequence of calls, interleaved in every way with the deletions of all the goroutines started by Clear", "why_tests_cant": "when the goroutine runs is up to the scheduler", "anchors": ["protocol/identity/store_inmem.go: NewInMemStore"]}
{"id": "C112", "title": "A message proves nothing to third parties about who wrote it", "statement": "Whoever receives a pairwise message could have written it. For any identity key Bob trusts for an address, any base key and ratchet key, any of Bob's pre-keys, any header and any plaintext, Bob can compute from their own private keys a first message that DecryptMessage accepts as coming from the owner of that identity key. For every position at which Bob's session could still read a message, the secrets in Bob's own session record write a message at that position with any plaintext, and DecryptMessage accepts it. And everything either side of a conversation sends, under any schedule, has the bytes that Bob computes from Bob's key pairs and Alice's public keys alone.", "quantifier": "all reachable states of the stores, all identity, base and ratchet keys not of low order, all pre-keys, headers and plaintexts; all schedules of sends and deliveries of a conversation, in both directions", "why_tests_cant": "The claim is that no message, header, plaintext or history carries anything that only its sender could have produced. A test shows one forged message; that all of them can be forged is a statement about every key and every conversation.", "anchors": ["protocol/session/session.go: initializeBobSession, InitializeBobSessionRecord", "protocol/session/cipher.go: Session.EncryptMessage, Session.DecryptMessage", "protocol/message/signal.go: NewSignal, Signal.VerifyMAC", "protocol/message/prekey.go: NewPreKey"]}
{"id": "C113", "title": "Sessions of another protocol version are never read from, and what is sent with them cannot be read", "statement": "The library speaks version 3 of the protocol only. A plaintext that DecryptMessage returns for a message parsed from bytes was read by a stored session of version 3; if all sessions stored for the address have another version, DecryptMessage returns no plaintext. A session whose stored version is below 3 can nevertheless still be sent with: EncryptMessage succeeds and advances it, but the bytes it returns are refused by the parser of every receiver.", "quantifier": "all store contents (whether reachable or not), all addresses, all message bytes, all plaintexts, all random bytes and store failures", "why_tests_cant": "A record can come from any older client or backup; that none of its states of another version ever yields a plaintext is a claim about every record and every message.", "anchors": ["protocol/session/state.go: State.Version", "protocol/session/cipher.go: Session.EncryptMessage, Session.DecryptMessage", "protocol/message/signal.go: NewSignal, NewSignalFromBytes"]}
{"id": "C114", "title": "A message that nobody sent is accepted only by guessing its MAC", "statement": "Take any message and the HMAC keys and inputs with which its receiver would check it. If the values of HMAC at these points are replaced by any others, nobody notices who has not sent a message with this body: every call of every history of every user returns and stores exactly the same, even if they were given wrong guesses of the message before. But with every replacement that does not begin with the last eight bytes of the message, the receiver, whose history is the same, does not accept it. So nothing that the users of the library do or return depends on these values: whoever produces an accepted message that was not sent has guessed eight bytes that nothing else depends on.", "quantifier": "all histories of calls of any number of users from stores without sessions, with any random bytes and store failures; all messages, Signal and pre-key; all replacement values of HMAC, and all earlier wrong guesses", "why_tests_cant": "The claim compares each history with the same history under every other value of HMAC at points that depend on the history; no test can change HMAC at single points or run all histories.", "anchors": ["protocol/session/cipher.go: Session.EncryptMessage, Session.DecryptMessage", "protocol/message/signal.go: NewSignal, Signal.VerifyMAC", "protocol/ratchet/keys.go: ChainKey.Next, ChainKey.MessageKeys"]}
{"id": "C115", "title": "The hash functions, MAC, key derivation and block cipher are those of the standards", "statement": "For every message, SHA-256 and SHA-512 give the digest that FIPS 180-4 defines; for every key and text, HMAC is that of RFC 2104; for every secret, salt, info and length, HKDF is that of RFC 5869; for every key of 128, 192 or 256 bits and every block, AES is the cipher of FIPS 197, and decryption its inverse.", "quantifier": "all messages, keys, texts, secrets, salts, infos, lengths and blocks", "why_tests_cant": "Published vectors check a few inputs; a wrong padding, block counter or key schedule can agree with all of them and differ elsewhere.", "anchors": ["protocol/crypto/aes/aes.go: CBCEncrypt, CBCDecrypt", "protocol/ratchet/keys.go: DeriveMessageKeys, hash, RootKey.CreateChain", "protocol/message/mac.go: mac", "protocol/senderkey/keys.go: hash", "protocol/fingerprint/fingerprint.go: fingerprint"]}
{"id": "C116", "title": "Among any number of users, every pair's messages arrive", "statement": "Any number of users start sessions with each other with any bundles and write to each other, every user with many others at the same time from the same stores, while store calls fail, calls are cut off by crashes and the network loses, reorders, repeats and invents messages in anybody's name. Whenever afterwards a message of one user to another is delivered to a store that works and lies inside the windows of its session, DecryptMessage returns its plaintext; a plaintext that a delivery returns is always the one that was encrypted; and every user can send to those with whom they have a session and start a session with everybody else. What happens between other users makes no difference.", "quantifier": "all sets of users, schedules of session starts, sends, deliveries, injected messages, pre-key changes, store failures, plaintexts and random bytes, and all pairs of users", "why_tests_cant": "The interleavings of many users' conversations over shared pre-key, identity and session stores are unbounded.", "anchors": ["protocol/session/session.go: Session.ProcessPreKeyBundle, Session.ProcessPreKey", "protocol/session/cipher.go: Session.EncryptMessage, Session.DecryptMessage", "protocol/session/store_inmem.go: inMemStore.Load, inMemStore.Store", "protocol/prekey/store_inmem.go: inMemStore.Load, inMemStore.Delete"]}
{"id": "C117", "title": "Users who start sessions at the same time settle on a common one", "statement": "Two users start sessions with each other, from both sides and as often as they like, and messages are lost, reordered and repeated. As soon as one of them reads a message that the other sent in the session the other still uses, both use this session. As long as then nobody starts a session and no message from before that moment arrives, both go on using it and every message is sent in it.", "quantifier": "all pairs of users, schedules of session starts, sends and deliveries before that moment, and schedules of sends and deliveries after it", "why_tests_cant": "Which session is current depends on the whole interleaving of starts, sends and deliveries.", "anchors": ["protocol/session/cipher.go: Session.DecryptMessage, Session.decryptMessage", "protocol/session/record.go: Record.PromoteOldState, Record.PromoteState", "protocol/session/session.go: Session.ProcessPreKeyBundle, Session.processPreKeyV3"]}
{"id": "C118", "title": "A message cannot make the library compute without limit", "statement": "DecryptMessage, given any message at all, forged ones included, from anybody with whom the user has no session as themselves, evaluates HMAC at most 2050082 times, HKDF at most 1025124 times, and multiplies curve points at most 127 times: 41 sessions with at most 25000 skipped messages each. EncryptMessage needs 3 HMACs and 1 HKDF, ProcessPreKeyBundle 2 HKDFs and 7 multiplications, and DecryptMessage of a group session 50002 HMACs and 25001 HKDFs.", "quantifier": "all reachable states, addresses, messages, bundles, plaintexts, random bytes, store failures and cryptographic algorithms", "why_tests_cant": "It is about the worst message in the worst state, over all of them.", "anchors": ["protocol/session/cipher.go: Session.DecryptMessage, Session.EncryptMessage, Session.messageKeys, MaxJumps", "protocol/session/session.go: Session.ProcessPreKeyBundle", "protocol/session/group_cipher.go: GroupSession.DecryptMessage", "protocol/session/state.go: State.SessionWithSelf", "protocol/session/record.go: Record.ArchiveCurrentState"]}
{"id": "C119", "title": "All messages and stores together hide the contents", "statement": "Let any number of users make any calls of the session API. Replace the content of every message that was sent by another content that fills the same number of AES blocks and repeats a CBC input block exactly where the ciphertext repeats a block (short contents of less than 16 bytes always do). If no two messages were sent under the same key and nobody forged a message, then an AES that differs only under the keys of these messages makes the same calls with these contents return exactly the same messages and errors and leave exactly the same stores, and everybody who read the old content of a message reads the new one. So everything that is sent and stored, taken together, tells nothing about the contents.", "quantifier": "every number of users, every history of calls of each of them with any random bytes and store failures, from any reachable stores, and every list of replacement contents that fit", "why_tests_cant": "It compares every history with every other history that has other contents, and it asks for the existence of a cipher; a test sees one history with one cipher.", "anchors": ["protocol/session/cipher.go: Session.EncryptMessage, Session.DecryptMessage, Session.decryptMessage", "protocol/crypto/aes/aes.go: CBCEncrypt, CBCDecrypt", "protocol/message/signal.go: NewSignal, Signal.VerifyMAC"]}
{"id": "C120", "title": "Private keys are made of fresh random bytes", "statement": "Every private ratchet key that is stored for an address after a call of the session API was stored for it before, or is made of 32 of the random bytes of this call, or is the private key of the signed pre-key that a pre-key message names; EncryptMessage makes no keys. A successful ProcessPreKeyBundle makes the base key of the first 32 random bytes and the ratchet key of the next 32; NewSenderKeyDistribution makes the chain key and the signing key of two different blocks of 32. A call reads at most 64 random bytes (ProcessPreKeyBundle) or 41 times 32 (DecryptMessage), leaves the others unread, and does not depend on them. So in any history, if the random bytes of a call are new, none of the keys they give was stored before the call, for any address.", "quantifier": "every reachable state, every call with any arguments, random bytes and store failures, both kinds of store; and every history", "why_tests_cant": "Whether a key is reused shows only by comparing it with every key ever stored; a test can also not see whether unread random bytes have an influence, since that compares infinitely many runs.", "anchors": ["protocol/session/session.go: Session.ProcessPreKeyBundle, Session.processPreKeyV3", "protocol/session/cipher.go: Session.chainKey, Session.decryptMessage", "protocol/session/group_session.go: GroupSession.NewSenderKeyDistribution, randomUint32", "protocol/curve/pair.go: GenerateKeyPair"]}
{"id": "C121", "title": "Pairwise and group messages and all stores together hide the contents", "statement": "Let any number of users make any calls of their sessions and of their group sessions. Replace the content of any of the messages that were sent, to one user or to a group, by another content that fills the same number of AES blocks and repeats a CBC input block exactly where the ciphertext repeats a block. If no two messages were sent under the same key and nobody forged a message, then one AES that differs only under the keys of these messages makes the same calls with these contents return exactly the same messages, distribution messages and errors and leave exactly the same stores, and everybody who read the old content of a message, alone or as a member of a group, reads the new one. So all traffic of both kinds and all stores, taken together, tell nothing about the contents.", "quantifier": "every number of users and of group members, every history of calls of each of them with any random bytes and store failures, from any reachable stores, both kinds of store, and every list of replacement contents that fit", "why_tests_cant": "It compares every history with every other history that has other contents, and it asks for the existence of one cipher that explains all of them; a test sees one history with one cipher.", "anchors": ["protocol/session/group_cipher.go: GroupSession.EncryptMessage, GroupSession.DecryptMessage", "protocol/session/cipher.go: Session.EncryptMessage, Session.DecryptMessage", "protocol/crypto/aes/aes.go: CBCEncrypt, CBCDecrypt", "protocol/message/senderkey.go: NewSenderKey, SenderKey.VerifySignature"]}
{"id": "C122", "title": "A forger learns nothing about bodies from the answers", "statement": "DecryptMessage looks at the body of a message only after its MAC, and the group DecryptMessage only after its signature. Take two forged messages with the same version, ratchet key and counter (and, for pre-key messages, the same keys and ids), whose MAC is wrong for every session that may read them: whatever their bodies, previous counters and MACs are, the call returns the same, leaves the same stores, reads the same number of random bytes and makes the same number of store calls, and it would do so with any other AES in place of AES. The same holds for group messages with a wrong signature, even with other iterations. So in any history of calls, somebody who sends any number of forged messages gets the same answers for all choices of the bodies and MACs: there is no padding oracle.", "quantifier": "every reachable state, both kinds of store, any random bytes and store failures, every pair of forged messages with the same header, every cipher; and every history with any number of forged messages in it", "why_tests_cant": "It compares the answers for every pair of forged messages, and for every cipher; a test can compare a few.", "anchors": ["protocol/session/cipher.go: Session.DecryptMessage, Session.decryptMessage", "protocol/session/group_cipher.go: GroupSession.DecryptMessage", "protocol/message/signal.go: Signal.VerifyMAC", "protocol/message/senderkey.go: SenderKey.VerifySignature", "protocol/crypto/aes/aes.go: CBCDecrypt"]}
{"id": "C123", "title": "A call touches only the session objects of its own peer", "statement": "Whatever has happened before, no Record and no State object (nor an array inside one) is reached from the sessions of two different peers, also when the store hands out and keeps pointers as the in-memory store does. A call of EncryptMessage, DecryptMessage or ProcessPreKeyBundle about one peer writes only to the objects of this peer and to objects it makes itself, and it reads no others: whatever the objects of other peers contain, even half-written by a call in another goroutine, the call returns the same, leaves the same in the objects of its own peer, and leaves the others as they are. So with stores whose single calls are protected by a lock, goroutines about different peers do not race on session objects.", "quantifier": "every history from empty stores, with stores that hand out and keep pointers or copies, any room in new arrays, any random bytes and store failures, and every call about a peer; every content of the objects of the other peers", "why_tests_cant": "It is about every history and about all possible contents of the memory of the other sessions; a test sees one memory.", "anchors": ["protocol/session/cipher.go: Session.EncryptMessage, Session.DecryptMessage", "protocol/session/session.go: Session.ProcessPreKeyBundle", "protocol/session/record.go: Record, Record.PromoteState, Record.PromoteOldState", "protocol/session/state.go: State, State.Clone", "protocol/session/store_inmem.go: inMemStore"]}
{"id": "C124", "title": "A group call touches only the objects of its own sender key", "statement": "Whatever has happened before, no GroupRecord and no GroupState object is reached from the entries of two different senders or groups, not even through the unused part of an array. A call of EncryptMessage, DecryptMessage, ProcessSenderKeyDistribution or NewSenderKeyDistribution about one sender and group writes only to the objects of this sender key and to objects it makes itself, and reads no others: whatever the other objects contain, the call returns the same, leaves the same in its own objects, and leaves the others as they are.", "quantifier": "every history from empty stores, with stores that hand out and keep pointers or copies, any room in new arrays, any random bytes and store failures, and every call about a sender and group, with records that the application has loaded itself in between; every content of the other objects", "why_tests_cant": "It is about every history and about all possible contents of the memory of the other sender keys; a test sees one memory.", "anchors": ["protocol/session/group_cipher.go: GroupSession.EncryptMessage, GroupSession.DecryptMessage", "protocol/session/group_session.go: GroupSession.ProcessSenderKeyDistribution, GroupSession.NewSenderKeyDistribution", "protocol/session/group_record.go: GroupRecord.AddState, GroupRecord.RemoveState, GroupRecord.RemoveStates"]}
{"id": "C125", "title": "Parsers accept exactly the protobuf texts, and ignore fields they do not know", "statement": "NewSignalFromBytes, NewPreKeyFromBytes, NewSenderKeyFromBytes and NewSenderKeyDistributionFromBytes succeed exactly on the byte strings that consist of a version byte of version 3, well-formed protobuf fields (in any order, with any repetitions, numbers in any length up to ten bytes) with valid keys and ids in the required ones, and the MAC or signature where there is one; every value is that of the last field of its number and type. Fields with other numbers, of every wire type including nested groups, change nothing wherever they stand, also in scanned fingerprints and in stored sessions, so messages of a later version that only adds fields are read. A message whose fields are cut off or garbled anywhere is refused with an error.", "quantifier": "every byte string; every well-formed sequence of added fields at every field boundary, groups nested up to the limit of the protobuf library", "why_tests_cant": "It ranges over all byte strings; the tests parse what the library itself has written.", "anchors": ["protocol/message/signal.go: NewSignalFromBytes", "protocol/message/prekey.go: NewPreKeyFromBytes", "protocol/message/senderkey.go: NewSenderKeyFromBytes, NewSenderKeyDistributionFromBytes", "protocol/fingerprint/scannable.go: Scannable.Compare", "protocol/session/record.go: NewRecordBytes"]}
{"id": "C126", "title": "Pre-keys matter only to the messages that start a session with them", "statement": "EncryptMessage, ProcessPreKeyBundle and DecryptMessage of a plain message, or of a pre-key message whose session is already in the record, return the same and leave the same whatever is in the pre-key stores, and leave the pre-key stores alone: signed pre-keys can be rotated and pre-keys removed at any time without any effect on running sessions. DecryptMessage of a message that starts a session depends only on the pre-keys it names, and leaves all others alone.", "quantifier": "every history, peer, plaintext, bundle and message; every content of the pre-key stores; stores that share pointers or copy", "why_tests_cant": "It compares every two contents of the pre-key stores in every state.", "anchors": ["protocol/session/cipher.go: Session.EncryptMessage, Session.DecryptMessage", "protocol/session/session.go: Session.ProcessPreKey, Session.ProcessPreKeyBundle", "protocol/prekey/store.go: Store, SignedStore"]}
{"id": "C127", "title": "A signature made for one purpose does not serve another", "statement": "SignAlternateIdentity signs exactly 32 bytes 0xFF, the text Signal_PNI_Signature and the encoded other key, and VerifyAlternateIdentity accepts exactly the signatures of this text; different keys give different texts. If one signature is accepted under one key for two of the three purposes (vouching for an identity key, a pre-key bundle, a group message), then it is valid for two different texts, so the signature scheme itself is broken.", "quantifier": "all primitives, keys, signatures, bundles, stores and byte strings parsed as group messages", "why_tests_cant": "It ranges over all signatures and texts, also those an attacker makes.", "anchors": ["protocol/identity/keys.go: KeyPair.SignAlternateIdentity, Key.VerifyAlternateIdentity", "protocol/session/session.go: Session.ProcessPreKeyBundle", "protocol/message/senderkey.go: SenderKey.VerifySignature"]}
{"id": "C128", "title": "Damaged session records give errors, not panics", "statement": "Whatever records the stores hold (damaged, foreign, or loaded by NewRecordBytes from any bytes), no call of the session API panics, except DecryptMessage on a pre-key message, which panics exactly in the case of C108, and then the archive of the record can be parsed. With a store that does not fail EncryptMessage returns a message exactly if the record has a current session with a sending chain with a 32-byte chain key and a ratchet key, both identity keys, a readable base key if a pre-key is pending, and the remote identity is trusted.", "quantifier": "every content of every store, reachable or not; every peer, plaintext, bundle and parsed message; every failure of the store", "why_tests_cant": "It ranges over all records, including those the library never writes; the tests use only records the library has made.", "anchors": ["protocol/session/record.go: NewRecordBytes", "protocol/session/cipher.go: Session.EncryptMessage, Session.DecryptMessage", "protocol/session/state.go: State.SenderChainKey, State.UnacknowledgedPreKeyMessages"]}
{"id": "C129", "title": "What comes back does not depend on the random bytes", "statement": "DecryptMessage returns the same plaintext or the same error whatever random bytes it is given, as long as there are as many, and leaves the same stores but for the user's own newest keys in the session with this peer. EncryptMessage and group decryption do not depend on random bytes at all. Of a group message only the 64-byte signature depends on them.", "quantifier": "every content of the stores, failure of the stores, peer, plaintext and message; every two equally long supplies of random bytes", "why_tests_cant": "It compares every two runs that differ in the random bytes; a test compares a few.", "anchors": ["protocol/session/cipher.go: Session.EncryptMessage, Session.DecryptMessage", "protocol/session/group_cipher.go: GroupSession.EncryptMessage, GroupSession.DecryptMessage"]}
{"id": "C130", "title": "Keys never share memory with the caller", "statement": "A program may overwrite the bytes it made a key from, and the bytes that any key function returned, at any time: no public key, private key or pre-key changes, and every call gives the same bytes, errors and answers as if keys and byte strings were plain values. No key function changes bytes that the program holds.", "quantifier": "all programs: all sequences of making slices, writing to them and calling NewPublicKey, NewPrivateKey, NewKeyPair, GeneratePrivateKey, Bytes, KeyBytes, PublicKey, Agreement, Sign, VerifySignature, NewPreKey and KeyPair", "why_tests_cant": "Which slices share an array does not show in any single result; it shows only in the combination of a call with a later write, and there are unboundedly many such programs.", "anchors": ["protocol/curve/public.go: NewPublicKey", "protocol/curve/djb_public.go: Bytes, KeyBytes", "protocol/curve/djb_private.go: Bytes, PublicKey, Agreement", "protocol/curve/curve25519/curve25519.go: NewPrivateKey, Bytes, PublicKeyBytes, Sign, VerifySignature", "protocol/prekey/prekey.go: NewPreKey, KeyPair", "protocol/prekey/signed.go: NewSigned, KeyPair"]}
{"id": "C131", "title": "Group sessions never share memory with the caller", "statement": "A program that uses group sessions over the in-memory store may overwrite its plaintexts, the bytes it parses messages from, the plaintexts it got, and what Bytes, Message and ChainKey of messages return, at any time: every call gives the same bytes and errors as if byte strings were plain values, and no stored sender key changes. No call changes bytes that the program holds.", "quantifier": "all programs: all sequences of making slices, writing to them and calling NewSenderKeyDistribution, ProcessSenderKeyDistribution, EncryptMessage and DecryptMessage, for any senders and distribution ids", "why_tests_cant": "Which slices share an array does not show in any single result; it shows only in the combination of a call with a later write and a still later call, and there are unboundedly many such programs.", "anchors": ["protocol/session/group_session.go: ProcessSenderKeyDistribution, NewSenderKeyDistribution", "protocol/session/group_cipher.go: EncryptMessage, DecryptMessage, messageKey", "protocol/session/group_state.go: NewGroupState, SenderChainKey, SetSenderChainKey, AddMessageKey, RemoveMessageKeys", "protocol/message/senderkey.go: NewSenderKey, NewSenderKeyDistribution, Message, ChainKey, Bytes", "protocol/senderkey/keys.go: NewChainKey, Seed, Next, MessageKey", "protocol/crypto/aes/aes.go: CBCEncrypt, CBCDecrypt"]}
{"id": "C132", "title": "Looking at a session changes nothing, with two exact exceptions", "statement": "A program that has parsed a stored session and calls the accessors of its state may overwrite every byte string it holds: the bytes of LocalIdentityKey, RemoteIdentityKey, SenderRatchetKey, SenderRatchetPrivateKey and of the pending base key, what State.Bytes returned, and its own bytes. Every accessor answers as if byte strings were plain values, and the session the library goes on with is the one that was parsed. The two exceptions are exact: a write to the bytes of AliceBaseKey, RootKey, SenderChainKey or ReceiverChainKey replaces that one key in the session at these positions; and MessageKeys takes the keys of that one position out, so that a late message at this position cannot be read any more.", "quantifier": "all session states, all programs: all sequences of accessor calls and writes to any held bytes, in any order", "why_tests_cant": "Which of the returned slices is the stored one does not show in any single result, only in the combination of an accessor, a write and a later use, and there are unboundedly many such programs; a test of an accessor cannot show that it has no effect on any session.", "anchors": ["protocol/session/state.go: AliceBaseKey, RootKey, SenderChainKey, ReceiverChainKey, MessageKeys, LocalIdentityKey, RemoteIdentityKey, SenderRatchetKey, SenderRatchetPrivateKey, UnacknowledgedPreKeyMessages, Bytes", "protocol/session/record.go: NewRecordBytes, State", "protocol/ratchet/keys.go: NewRootKey, Bytes, NewChainKey, Key, NewMessageKeys", "protocol/curve/public.go: NewPublicKey"]}
{"id": "C133", "title": "Bytes taken from a session stay the session's only until it is used", "statement": "A program may call the accessors of a session state, overwrite bytes they returned, send messages and receive messages, in any order. Every answer, every message and every plaintext is the one that plain values would give, where a write to the bytes of AliceBaseKey, RootKey or ReceiverChainKey replaces that key in the session until the next message has been received, and a write to the bytes of SenderChainKey until the next message has been sent or received. After that the same write changes nothing. The message bytes and plaintexts that are returned are never part of the session. Sending or receiving that fails leaves the session as it was. append to the bytes of AliceBaseKey, SenderChainKey or ReceiverChainKey never changes the session, nor does append to those of RootKey before anything was received; but after a message with a new ratchet key has been received, append to the root key bytes writes into the sending chain key.", "quantifier": "all session states, all programs: all sequences of accessor calls, writes, sends and receives with any messages and random bytes", "why_tests_cant": "The ratchet makes several keys in one array, keeps some arrays of the old state and replaces others; whether two of them overlap after any history of messages, or whether a slice taken long ago is still the stored one, cannot be settled by running some histories.", "anchors": ["protocol/session/cipher.go: EncryptMessage, decryptMessage, decryptMessageSession, chainKey, messageKeys", "protocol/session/state.go: Clone, SetSenderChain, SetSenderChainKey, AddReceiverChain, SetReceiverChainKey, SetMessageKeys, MessageKeys", "protocol/ratchet/keys.go: CreateChain, DeriveMessageKeys, Next"]}
{"id": "C134", "title": "Writing to what a message's getters return changes that byte string only, and the ciphertext is not covered by the check", "statement": "Message (ChainKey for a distribution message) and Bytes of a message return the message's own slices. They never overlap, for messages that were parsed and messages that were made: a program that writes to them in any order finds each getter returning exactly what it wrote there, every other getter unchanged, and nothing else about the message changed. The check of a message is over Bytes while decryption is of Message: if DecryptMessage reads a message then, after any write to Message, it decrypts the written bytes under the same keys, accepts them as the sender's and leaves the same session. For a plaintext message Message is the part of Bytes after the first byte, and a write to it is a write to Bytes.", "quantifier": "all slices and memories, all messages of all kinds, all sequences of writes, all sessions and group worlds", "why_tests_cant": "Independence of the two byte strings is about every input buffer, every position in it and every sequence of writes; that no write to one can make the check fail is about every ciphertext.", "anchors": ["protocol/message/signal.go: NewSignal, NewSignalFromBytes, Bytes, Message, VerifyMAC", "protocol/message/prekey.go: NewPreKey, NewPreKeyFromBytes, Bytes, Message", "protocol/message/senderkey.go: NewSenderKey, NewSenderKeyFromBytes, NewSenderKeyDistributionFromBytes, Bytes, Message, ChainKey", "protocol/message/plaintext.go: NewPlaintextFromBytes, Message", "protocol/session/cipher.go: decryptMessageSession", "protocol/session/group_cipher.go: DecryptMessage"]}
