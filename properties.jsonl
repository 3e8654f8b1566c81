{"id": "C01", "title": "A packet id is never accepted twice", "statement": "Whatever sequence of packet ids reaches a receiver's anti-replay container, each id value is accepted at most once between two resets, even after the id has slid out of the remembered window.", "quantifier": "all finite sequences of 64-bit packet ids (any order, any repetition, ids up to u64::MAX), starting from a fresh container", "why_tests_cant": "a replay that is only accepted after a particular pattern of window slides is one history among unboundedly many; tests sample a few orders", "anchors": ["citadel_pqcrypto/src/replay_attack_container.rs AntiReplayAttackContainer::on_pid_received", "citadel_pqcrypto/src/replay_attack_container.rs HISTORY_LEN"]}
{"id": "C02", "title": "Reordering inside the window never loses a packet", "statement": "A packet id that was not accepted before, and that is at most 1024 behind one past the highest accepted id, is accepted; in particular any permutation of the ids 0..n-1 in which no id arrives after one that is more than 1023 larger is accepted completely.", "quantifier": "all reachable container states and all candidate ids; all permutations with bounded displacement, for every n", "why_tests_cant": "the window boundary must be right for every combination of high-water mark and gaps, not only for the orders a test shuffles", "anchors": ["citadel_pqcrypto/src/replay_attack_container.rs AntiReplayAttackContainer::on_pid_received"]}
{"id": "C03", "title": "Anti-replay memory stays bounded", "statement": "The container never remembers more than 1024 ids (1025 at the very end of the 64-bit id space), no matter what ids an attacker makes it process.", "quantifier": "all finite sequences of packet ids from a fresh container", "why_tests_cant": "an adversarial sequence of jumps could grow the set without any test noticing", "anchors": ["citadel_pqcrypto/src/replay_attack_container.rs AntiReplayAttackContainer::on_pid_received"]}
{"id": "C04", "title": "Validated packets are genuine and delivered at most once", "statement": "Over a network that may drop, duplicate, reorder, and inject arbitrary packets, every payload that packet validation accepts was protected by the peer with exactly that header, every protected packet is accepted at most once between two resets of the receiver's anti-replay counters, and rejected packets change nothing (a forged packet cannot burn the id of a genuine one).", "quantifier": "all interleavings of sends, deliveries, duplications and injections of arbitrary byte strings, for every AEAD with ideal authenticity", "why_tests_cant": "an attacker chooses the schedule and the bytes; tests cannot enumerate them", "anchors": ["citadel_pqcrypto/src/lib.rs PostQuantumContainer::protect_packet_in_place", "citadel_pqcrypto/src/lib.rs PostQuantumContainer::validate_packet_in_place", "citadel_pqcrypto/src/replay_attack_container.rs AntiReplayAttackContainer::on_pid_received"]}
{"id": "C05", "title": "Every ratchet version a toolset reports is the one that was committed", "statement": "After any history of updates and deregistrations, asking a toolset for a version returns the ratchet that was committed with exactly that version, for exactly the versions from oldest to newest, and nothing for any other version.", "quantifier": "all histories of update/deregister calls (successful or failing), all 32-bit versions, including version wrap-around", "why_tests_cant": "off-by-one or wrap errors only appear at specific combinations of evictions and updates", "anchors": ["citadel_crypt/src/toolset.rs Toolset::update_from", "citadel_crypt/src/toolset.rs Toolset::deregister_oldest_ratchet", "citadel_crypt/src/toolset.rs Toolset::get_ratchet"]}
{"id": "C06", "title": "A toolset refuses updates and deregistrations that do not fit and is unchanged by the refusal", "statement": "An update is accepted only if it carries the toolset's own cid and the next version; a deregistration only if the store is at capacity and the version is the oldest. A refused call leaves every observable of the toolset unchanged.", "quantifier": "all toolset states and all candidate ratchets/versions", "why_tests_cant": "a partial mutation before an error return is visible only for specific states", "anchors": ["citadel_crypt/src/toolset.rs Toolset::update_from", "citadel_crypt/src/toolset.rs Toolset::deregister_oldest_ratchet"]}
{"id": "C07", "title": "The static auxiliary ratchet never changes and ratchet memory is bounded", "statement": "For the lifetime of a toolset the static auxiliary ratchet is the initial ratchet, the store is never empty, and if the owner deregisters whenever told to synchronise the store never holds more than the configured maximum number of ratchets.", "quantifier": "all histories of operations", "why_tests_cant": "requires an induction over unbounded histories", "anchors": ["citadel_crypt/src/toolset.rs Toolset::append_ratchet", "citadel_crypt/src/toolset.rs Toolset::get_static_auxiliary_ratchet", "citadel_crypt/src/toolset.rs MAX_RATCHETS_IN_MEMORY"]}
{"id": "C08", "title": "Ordered channel output is always an in-order, gap-free, duplicate-free prefix", "statement": "However packets numbered 0,1,2,... are reordered or duplicated in transit, the receiver of the ordered channel sees packet 0, then 1, then 2, ... each exactly once, with the latest payload that had arrived under that number when it was delivered.", "quantifier": "all arrival sequences (any reordering, duplication, loss) of all lengths below 2^64", "why_tests_cant": "the number of arrival orders is factorial; buffer/drain bugs show only for particular interleavings", "anchors": ["citadel_crypt/src/ordered_channel.rs OrderedChannel::on_packet_received"]}
{"id": "C09", "title": "Ordered channel eventually delivers everything that arrived without a gap", "statement": "Once all of packets 0..n-1 have arrived in any order, exactly packets 0..k-1 have been delivered where k is the first number that has not arrived, and nothing deliverable stays buffered.", "quantifier": "all arrival sequences", "why_tests_cant": "stall conditions depend on the arrival order", "anchors": ["citadel_crypt/src/ordered_channel.rs OrderedChannel::on_packet_received"]}
{"id": "C10", "title": "Only one task wins the re-key toggle", "statement": "However any number of tasks interleave their attempts to raise the re-key toggle, at most one of them is told it raised it between two times the toggle is lowered, and an armed guard going out of scope always lowers it.", "quantifier": "all interleavings of toggle operations by any number of tasks", "why_tests_cant": "a race is a schedule; tests run a handful", "anchors": ["citadel_crypt/src/sync_toggle.rs SyncToggle::toggle_on_if_untoggled", "citadel_crypt/src/sync_toggle.rs ToggleGuard"]}
{"id": "C11", "title": "Packet coordinates are invertible", "statement": "The coordinates (wave id, source port, destination port) stamped on the i-th packet of a group determine i: the receiver recovers exactly i, for every port mapping that is a permutation, and different packets of a group never get the same coordinates.", "quantifier": "all groups sizes, all packet indices, all permutations of the port range", "why_tests_cant": "the mapping is keyed by random permutations; a collision for one permutation is invisible to sampled tests", "anchors": ["citadel_crypt/src/packet_vector.rs generate_packet_vector", "citadel_crypt/src/packet_vector.rs generate_packet_coordinates_inv", "citadel_crypt/src/misc.rs create_port_mapping", "citadel_crypt/src/ratchets/entropy_bank.rs"]}
{"id": "C12", "title": "Splitting a message and receiving its packets in any order restores it", "statement": "For every non-empty plaintext that fits a group, cutting it into waves and packets, delivering every packet in any order with any duplicates, and reassembling yields the original plaintext.", "quantifier": "all plaintext lengths up to the group limit, all contents, all arrival orders, every length-preserving-plus-overhead cipher with a correct decryption", "why_tests_cant": "boundary lengths (multiples of the wave size) and arrival orders interact; tests use a few sizes", "anchors": ["citadel_crypt/src/scramble/crypt_splitter.rs generate_scrambler_metadata", "citadel_crypt/src/scramble/crypt_splitter.rs par_scramble_encrypt_group", "citadel_crypt/src/scramble/crypt_splitter.rs scramble_encrypt_wave", "citadel_crypt/src/scramble/crypt_splitter.rs GroupReceiver::new", "citadel_crypt/src/scramble/crypt_splitter.rs GroupReceiver::on_packet_received"]}
{"id": "C13", "title": "The sender's description of a group is always one the receiver accepts", "statement": "For every plaintext the sender is willing to split, the receiver configuration it announces passes the receiver's own validation, so the receiver never rejects an honest transfer.", "quantifier": "all plaintext lengths and header sizes accepted by the sender", "why_tests_cant": "fails only on exact-multiple lengths, which random lengths almost never hit", "anchors": ["citadel_crypt/src/scramble/crypt_splitter.rs generate_scrambler_metadata", "citadel_crypt/src/scramble/crypt_splitter.rs GroupReceiverConfig::validate"]}
{"id": "C14", "title": "A group receiver counts every packet once and reports every end once", "statement": "After any packets whatsoever, a group receiver has counted every distinct in-range packet exactly once, a repeated packet changes nothing at all, every wave is reported complete at most once, the group is reported complete at most once and only when no wave is pending and the number of decrypted bytes equals the announced length.", "quantifier": "all descriptions, all arrival sequences with duplicates, forged and out-of-range packets, every decryption function", "why_tests_cant": "duplicate-at-the-boundary schedules are not enumerable", "anchors": ["citadel_crypt/src/scramble/crypt_splitter.rs GroupReceiver::on_packet_received"]}
{"id": "C15", "title": "The missing report of a group receiver is exact", "statement": "The wave report lists exactly the waves before the last completed one that have not been completed, never panics, and the packet count of a wave is exactly the number of its packets that have not arrived.", "quantifier": "all packet sequences (wave report); all orders and duplicates of genuine packets (packet count)", "why_tests_cant": "needs every subset and order of received packets", "anchors": ["citadel_crypt/src/scramble/crypt_splitter.rs GroupReceiver::get_missing_waves", "citadel_crypt/src/scramble/crypt_splitter.rs GroupReceiver::get_missing_count_in_wave"]}
{"id": "C16", "title": "The sender's acknowledgement bookkeeping matches the receiver", "statement": "A group sender reports the transmission complete exactly when every wave it announced has been acknowledged.", "quantifier": "all sequences of acknowledgements, including repeated ones", "why_tests_cant": "repeated acknowledgements arise only from retransmission races", "anchors": ["citadel_crypt/src/scramble/crypt_splitter.rs GroupSenderDevice::on_wave_tail_ack_received"]}
{"id": "C17", "title": "A secure message packet decodes to exactly what was written", "statement": "Writing a payload, a header and an optional trailing extension into a secure message packet and then splitting the resulting bytes returns exactly that header, payload and extension.", "quantifier": "all payloads shorter than 2^32 bytes, all headers of the declared size, all extensions", "why_tests_cant": "length-prefix boundaries over all lengths", "anchors": ["citadel_crypt/src/secure_buffer/sec_packet.rs SecureMessagePacket::write_payload", "citadel_crypt/src/secure_buffer/sec_packet.rs SecureMessagePacket::write_header", "citadel_crypt/src/secure_buffer/sec_packet.rs SecureMessagePacket::write_payload_extension", "citadel_crypt/src/secure_buffer/sec_packet.rs SecureMessagePacket::decompose_payload_raw", "citadel_crypt/src/secure_buffer/partitioned_sec_buffer.rs"]}
{"id": "C18", "title": "Decoding hostile secure packets never reads outside the buffer", "statement": "For every byte string, splitting it as a secure packet either fails with an error or yields a payload that lies wholly inside the buffer and whose length equals the encoded length; the input is fully accounted for.", "quantifier": "all byte strings", "why_tests_cant": "malformed inputs are unbounded; fuzzing samples", "anchors": ["citadel_crypt/src/secure_buffer/sec_packet.rs SecureMessagePacket::extract_payload", "citadel_crypt/src/secure_buffer/sec_packet.rs SecureMessagePacket::decompose_payload_raw"]}
{"id": "C19", "title": "Layered encryption opens in reverse order at every security level", "statement": "A packet protected at any security level up to the ratchet's maximum is restored exactly by validation at the same level on the peer's matching ratchet; a level above the maximum is refused on both sides without touching the packet.", "quantifier": "all security levels, all numbers of layers, all plaintexts and headers, every AEAD with correct decryption", "why_tests_cant": "layer order and count errors appear only for multi-layer configurations not all sampled", "anchors": ["citadel_crypt/src/ratchets/mod.rs Ratchet::protect_message_packet", "citadel_crypt/src/ratchets/mod.rs Ratchet::validate_message_packet", "citadel_crypt/src/ratchets/mod.rs Ratchet::verify_level"]}
{"id": "C20", "title": "Crypto parameters survive their one-byte encoding, and only valid bytes decode", "statement": "Packing any valid choice of encryption, KEM and signature algorithm into one byte and unpacking it gives the same choice back; unpacking any byte yields either an error or a combination that passes validation and packs to the same byte.", "quantifier": "all parameter combinations and all 256 byte values", "why_tests_cant": "although finite, no test enumerates both directions together with validation", "anchors": ["citadel_types/src/crypto/mod.rs CryptoParameters", "citadel_types/src/utils/mod.rs validate_crypto_params"]}
{"id": "C21", "title": "Ratchet-tree navigation is consistent for every group size", "statement": "For a tree over any number n>=1 of leaves: every non-root node has a parent inside the tree and is one of that parent's two children; children of an inner node are inside the tree; direct paths are finite, stay inside the tree, and end at the root.", "quantifier": "all n >= 1 (as far as the index type allows) and all nodes", "why_tests_cant": "unit tests check small n; left-balanced trees misbehave at specific non-power-of-two sizes", "anchors": ["citadel_treekem/src/tree/math.rs left", "citadel_treekem/src/tree/math.rs right", "citadel_treekem/src/tree/math.rs parent", "citadel_treekem/src/tree/math.rs root", "citadel_treekem/src/tree/math.rs direct_path", "citadel_treekem/src/tree/math.rs sibling"]}
{"id": "C22", "title": "A leaf's co-path covers all other leaves exactly once", "statement": "For every leaf of a tree of any size, the subtrees hanging off its direct path (the co-path) contain every other leaf exactly once and do not contain the leaf itself.", "quantifier": "all n >= 1 and all leaves", "why_tests_cant": "the same; this is what makes a commit reach everyone", "anchors": ["citadel_treekem/src/tree/math.rs copath", "citadel_treekem/src/tree/math.rs direct_path"]}
{"id": "C23", "title": "The resolution of a node addresses exactly the members below it that must be reached", "statement": "For every ratchet tree, the resolution of a node lists only non-blank nodes below it, and every non-blank leaf below the node is either itself listed, or below a listed inner node that does not mark it unmerged.", "quantifier": "all ratchet trees (any pattern of blanks and unmerged leaves)", "why_tests_cant": "the pattern of blanks after arbitrary add/remove histories is unbounded", "anchors": ["citadel_treekem/src/tree/ratchet_tree.rs RatchetTree::resolution"]}
{"id": "C24", "title": "All group members always agree on the epoch secret", "statement": "After any history of group creation, joins, removals and key updates in which members process every commit in order, all current members hold the same epoch number, the same tree and the same epoch secrets, so any member can decrypt what any other member encrypts in that epoch.", "quantifier": "all histories of membership operations, all group sizes, every correct KEM/KDF", "why_tests_cant": "agreement must hold for every combination of blanks, unmerged leaves and tree growth that a history can create", "anchors": ["citadel_treekem/src/group.rs GroupState::commit_update", "citadel_treekem/src/group.rs GroupState::add_member", "citadel_treekem/src/group.rs GroupState::remove_member", "citadel_treekem/src/group.rs GroupState::process_commit", "citadel_treekem/src/group.rs GroupState::join_from_welcome", "citadel_treekem/src/path.rs"]}
{"id": "C25", "title": "A removed member cannot derive later group secrets", "statement": "From everything a removed member ever knew plus all later commits and welcomes on the wire, the epoch secrets of any epoch after its removal cannot be derived (symbolic cryptography), as long as remaining members stay honest.", "quantifier": "all histories before and after the removal, all attacker derivations", "why_tests_cant": "secrecy quantifies over all attacker strategies", "anchors": ["citadel_treekem/src/group.rs GroupState::remove_member", "citadel_treekem/src/path.rs generate_update_path", "citadel_treekem/src/tree/ratchet_tree.rs RatchetTree::remove_leaf"]}
{"id": "C26", "title": "A new member cannot derive earlier group secrets", "statement": "From its welcome, its own key and all earlier commits on the wire, a joining member cannot derive any epoch secret that precedes its joining epoch (symbolic cryptography).", "quantifier": "all histories before the join, all attacker derivations", "why_tests_cant": "secrecy quantifies over all attacker strategies", "anchors": ["citadel_treekem/src/group.rs GroupState::add_member", "citadel_treekem/src/group.rs GroupState::join_from_welcome", "citadel_treekem/src/schedule.rs"]}
{"id": "C27", "title": "Group application messages never reuse a key and nonce, and only open in their epoch", "statement": "Within an epoch no two messages encrypted by a member use the same (sender, generation) key/nonce derivation, a message opens to its plaintext at every member of the same epoch, and is rejected at any other epoch.", "quantifier": "all sequences of messages in all epochs", "why_tests_cant": "a counter wrap needs 2^32 messages", "anchors": ["citadel_treekem/src/group.rs GroupState::encrypt_message", "citadel_treekem/src/group.rs GroupState::decrypt_message", "citadel_treekem/src/application.rs"]}
{"id": "C28", "title": "Commits are applied in epoch order, once, or not at all", "statement": "A member ignores any commit that is not for the epoch right after its own; the epoch never goes backwards and increases by exactly one per applied commit.", "quantifier": "all sequences of commits with arbitrary announced epochs, including duplicates and reorderings by the relay", "why_tests_cant": "the relay chooses the order", "anchors": ["citadel_proto/src/proto/peer/group_cgka/mod.rs GroupCgkaState::process_commit"]}
{"id": "C29", "title": "Hierarchy messages are readable by exactly the chain of command (and the flat group when enabled)", "statement": "A member placed at a command path can open a hierarchy-encrypted message as a superior exactly when its path is an ancestor-or-equal prefix of the sender's path; anybody else can open it only with the group's flat key and only if the sender included the group as readers.", "quantifier": "all command paths of any depth, all senders, readers and read modes", "why_tests_cant": "paths are unbounded strings and prefixes", "anchors": ["citadel_treekem/src/hierarchy.rs derive_descendant_secret", "citadel_treekem/src/hierarchy.rs DheEnvelope", "citadel_treekem/src/hierarchy_member.rs HierarchyMember::open_message", "citadel_types/src/proto/mod.rs CommandPath::is_ancestor_of"]}
{"id": "C30", "title": "Deriving a subordinate's secret step by step or all at once gives the same secret", "statement": "The node secret of a descendant derived from any ancestor equals the one derived from any intermediate ancestor's derived secret; and only ancestors get one.", "quantifier": "all triples of paths", "why_tests_cant": "unbounded path lengths", "anchors": ["citadel_treekem/src/hierarchy.rs derive_descendant_secret", "citadel_types/src/proto/mod.rs CommandPath"]}
{"id": "C31", "title": "Nobody joins a private group without the owner's consent", "statement": "On the server, a peer becomes an active member of a private group only if the group's owner created the group with that peer, invited it, or accepted its request.", "quantifier": "all sequences of group signals from all clients, honest or not", "why_tests_cant": "requires an adversarial sequence of individually legal signals", "anchors": ["citadel_proto/src/proto/packet_processor/peer/group_broadcast.rs process_group_broadcast", "citadel_proto/src/proto/peer/peer_layer.rs upgrade_peer_in_group", "citadel_proto/src/proto/peer/peer_layer.rs request_join", "citadel_proto/src/proto/peer/peer_layer.rs add_pending_peers_to_group"]}
{"id": "C32", "title": "Only the owner can end a group, kick members or invite", "statement": "On the server, a group is ended, a member other than the signal's sender is removed, or an invitation is issued only as the effect of a signal sent by the group's owner.", "quantifier": "all sequences of group signals from all clients", "why_tests_cant": "authorisation must hold for every signal and state", "anchors": ["citadel_proto/src/proto/packet_processor/peer/group_broadcast.rs permission_gate", "citadel_proto/src/proto/packet_processor/peer/group_broadcast.rs process_group_broadcast", "citadel_proto/src/proto/session_manager.rs kick_from_message_group"]}
{"id": "C33", "title": "Group messages reach exactly the other current members, and only members can send them", "statement": "A group message accepted by the server is forwarded to exactly the active members of that group other than the sender, and only if the sender is an active member.", "quantifier": "all server states and senders", "why_tests_cant": "membership changes interleave with messages arbitrarily", "anchors": ["citadel_proto/src/proto/session_manager.rs broadcast_signal_to_group", "citadel_proto/src/proto/peer/peer_layer.rs get_peers_in_message_group"]}
{"id": "C34", "title": "Two endpoints that re-key always hold the same key for the same version", "statement": "However the two endpoints of a session start re-keys (one, the other, or both at once, any number of times) and however messages interleave on the two ordered reliable channels, whenever both endpoints hold a ratchet for some version it is the same ratchet.", "quantifier": "all schedules of re-key triggers and message deliveries, any number of rounds, absent crashes/timeouts", "why_tests_cant": "simultaneous re-key races are schedule-dependent; past bugs in this code were exactly such races", "anchors": ["citadel_crypt/src/ratchets/ratchet_manager.rs RatchetManager::trigger_rekey_with_payload", "citadel_crypt/src/ratchets/ratchet_manager.rs RatchetManager::rekey", "citadel_crypt/src/endpoint_crypto_container.rs PeerSessionCrypto::update_sync_safe"]}
{"id": "C35", "title": "A packet encrypted with the sender's current version can always be decrypted by the receiver", "statement": "At every moment the version an endpoint uses for new packets is held by its peer, and stays held until that packet has been delivered, so no in-flight packet becomes undecryptable by a re-key.", "quantifier": "all schedules of re-keys and packets on ordered channels, absent crashes/timeouts", "why_tests_cant": "depends on the interleaving of truncation and in-flight traffic", "anchors": ["citadel_crypt/src/ratchets/ratchet_manager.rs RatchetManager::rekey", "citadel_crypt/src/endpoint_crypto_container.rs PeerSessionCrypto::get_ratchet", "citadel_crypt/src/endpoint_crypto_container.rs PeerSessionCrypto::post_alice_stage1_or_post_stage1_bob"]}
{"id": "C36", "title": "Versions only move forward and never differ by more than one between endpoints", "statement": "An endpoint's usable version never decreases, and at any time the usable versions of the two endpoints differ by at most one.", "quantifier": "all schedules as above", "why_tests_cant": "needs all interleavings", "anchors": ["citadel_crypt/src/endpoint_crypto_container.rs PeerSessionCrypto", "citadel_crypt/src/ratchets/ratchet_manager.rs RatchetManager::rekey"]}
{"id": "C37", "title": "Session messages arrive in sending order, exactly once, in both secrecy modes", "statement": "Whatever re-keys happen meanwhile, the messages handed to a ratcheting messenger arrive at the peer's application in the order they were handed over, without duplicates, in best-effort and in perfect-secrecy mode.", "quantifier": "all interleavings of sends, queue drains and re-keys, absent transport errors", "why_tests_cant": "queueing in perfect mode reorders transmissions depending on schedule", "anchors": ["citadel_crypt/src/messaging.rs RatchetManagerMessengerLayer", "citadel_crypt/src/ordered_channel.rs OrderedChannel::on_packet_received"]}
{"id": "C38", "title": "A disconnect is announced to the application at most once", "statement": "For each session and each peer connection the kernel is told about a disconnect at most once until the connection is established again, no matter how many code paths race to report it.", "quantifier": "all interleavings of disconnect reports and reconnects", "why_tests_cant": "racing shutdown paths", "anchors": ["citadel_proto/src/proto/disconnect_tracker.rs DisconnectSignalTracker"]}
{"id": "C39", "title": "Scheduled session tasks never overwrite each other", "statement": "Every ordinary task scheduled on a session's queue worker gets its own ticket: scheduling a task never silently replaces another pending task, and the worker never crashes when timers fire.", "quantifier": "all sequences of schedule and expire events with any indices", "why_tests_cant": "ticket collisions need particular index/counter sums", "anchors": ["citadel_proto/src/proto/session_queue_handler.rs SessionQueueWorkerHandle::insert_ordinary", "citadel_proto/src/proto/session_queue_handler.rs SessionQueueWorker::poll_purge"]}
{"id": "C40", "title": "A network select has one agreed winner", "statement": "When two endpoints race fallible computations, at most one side gets a result; if either computation succeeded and both sides finish, exactly one side gets its own result and the other is told that its peer succeeded; both sides report global failure only if both computations failed.", "quantifier": "all schedules of completions and message deliveries, all outcomes", "why_tests_cant": "conflict resolution is schedule-dependent", "anchors": ["netbeam/src/sync/operations/net_select_ok.rs resolve"]}
{"id": "C41", "title": "A network try-join reports success on both sides only if both sides succeeded", "statement": "When two endpoints join fallible computations, both sides return a successful value if both computations succeed, and if one fails no side returns a successful value.", "quantifier": "all schedules of completions and message deliveries, all outcomes", "why_tests_cant": "early termination races", "anchors": ["netbeam/src/sync/operations/net_try_join.rs resolve"]}
{"id": "C42", "title": "The network mutex is a mutex", "statement": "At no time do both endpoints of a network mutex hold the lock.", "quantifier": "all schedules of lock, unlock and message deliveries, all request timestamps, any number of acquisitions", "why_tests_cant": "mutual exclusion is a property of all interleavings", "anchors": ["netbeam/src/sync/primitives/net_mutex.rs net_mutex_guard_acquirer", "netbeam/src/sync/primitives/net_mutex.rs yield_lock", "netbeam/src/sync/primitives/net_mutex.rs net_mutex_drop_code", "netbeam/src/sync/primitives/net_mutex.rs passive_background_handler"]}
{"id": "C43", "title": "The network mutex hands over the latest value", "statement": "Whoever acquires a network mutex sees the value left by the most recent holder on either endpoint.", "quantifier": "all schedules and all values written", "why_tests_cant": "stale-value handover depends on the interleaving", "anchors": ["netbeam/src/sync/primitives/net_mutex.rs"]}
{"id": "C44", "title": "A network mutex that is released can be acquired again", "statement": "When both endpoints are quiescent (no guard held, no message in flight) the mutex is not stuck: an acquisition by either side leads to that side holding the lock.", "quantifier": "all reachable quiescent states", "why_tests_cant": "stuck states are reached only by particular races", "anchors": ["netbeam/src/sync/primitives/net_mutex.rs passive_background_handler", "netbeam/src/sync/primitives/net_mutex.rs net_mutex_drop_code"]}
{"id": "C45", "title": "Multiplexed conversation ids are never reused and never move backwards", "statement": "Between two endpoints running this code, the ids of the conversations handed out at each endpoint strictly increase over time, so no id is ever used for two conversations and no id assertion fails, whatever is opened, closed or cancelled half-way.", "quantifier": "all interleavings of opens, answers, cancellations and closes at both endpoints, any number of pre-reserved ids", "why_tests_cant": "cancel/retry gaps", "anchors": ["netbeam/src/multiplex.rs IDGen::catch_up_to", "netbeam/src/multiplex.rs MultiplexedConn"]}
{"id": "C46", "title": "Peer registration is symmetric on the server", "statement": "After any history of peer registrations, deregistrations and account deletions processed by the server's account store, A lists B as a mutual peer exactly when B lists A, and no remaining account lists a deleted one.", "quantifier": "all histories over any set of accounts", "why_tests_cant": "duplicate registrations and deletions combine in unboundedly many ways", "anchors": ["citadel_user/src/client_account.rs ClientNetworkAccount::register_hyperlan_p2p_as_server", "citadel_user/src/client_account.rs ClientNetworkAccount::deregister_hyperlan_p2p_as_server", "citadel_user/src/backend/memory.rs MemoryBackend::delete_cnac_by_cid"]}
{"id": "C47", "title": "After deregistration two peers are no longer registered to each other", "statement": "When the server has processed a successful deregistration of A and B, neither lists the other.", "quantifier": "all histories before the deregistration", "why_tests_cant": "depends on duplicate registrations earlier in the history", "anchors": ["citadel_user/src/client_account.rs ClientNetworkAccount::deregister_hyperlan_p2p_as_server", "citadel_user/src/client_account.rs ClientNetworkAccount::insert_hyperlan_peer"]}
{"id": "C48", "title": "Constant-time comparison is equality", "statement": "The constant-time comparison of two byte strings answers true exactly when they are equal.", "quantifier": "all pairs of byte strings of any lengths", "why_tests_cant": "prefix/length corner cases over all inputs", "anchors": ["citadel_types/src/utils/mod.rs const_time_compare"]}
{"id": "C49", "title": "Credential checks enforce exactly the documented rules", "statement": "A username/password/name triple is accepted exactly when each length is within the configured inclusive bounds and username and password contain no space.", "quantifier": "all strings and all requirement settings", "why_tests_cant": "boundary lengths for arbitrary settings", "anchors": ["citadel_user/src/credentials.rs CredentialRequirements::check"]}
{"id": "C50", "title": "No nonce is ever used twice under one key", "statement": "However many packets (fewer than 2^63) an endpoint protects with one entropy bank instance, from whatever starting base the code draws, no two of them use the same AEAD nonce, provided the nonce derivation itself does not collide.", "quantifier": "all bases below 2^63, all runs of fewer than 2^63 protected packets interleaved with anything else", "why_tests_cant": "nonce reuse is a property of whole histories; tests look at a few consecutive ids", "anchors": ["citadel_crypt/src/ratchets/entropy_bank.rs TransientNonceCounter::next_id", "citadel_crypt/src/ratchets/entropy_bank.rs EntropyBank::wrap_with_unique_nonce_enx"]}
{"id": "C51", "title": "A packet is never accepted a second time in a later session", "statement": "A protected packet that was accepted once is never accepted again by the same keys, also not after a new session has been started on them.", "quantifier": "all interleavings of sends, deliveries of arbitrary bytes, and counter resets of either endpoint", "why_tests_cant": "needs all interleavings of an adversarial network with session restarts; the tests only replay within one session", "anchors": ["citadel_pqcrypto/src/lib.rs PostQuantumContainer::protect_packet_in_place", "citadel_pqcrypto/src/lib.rs PostQuantumContainer::validate_packet_in_place", "citadel_pqcrypto/src/replay_attack_container.rs AntiReplayAttackContainer::on_pid_received"]}
{"id": "C52", "title": "Both ends of a multiplexed conversation hold the same id", "statement": "Whenever an endpoint has completed opening a conversation, its peer answered with the same id, and the n-th conversation has the same id at both ends.", "quantifier": "all interleavings of opens, answers, cancellations and closes at both endpoints", "why_tests_cant": "needs a cancellation at exactly the wrong moment of the handshake", "anchors": ["netbeam/src/sync/network_application.rs NetworkApplication::preaction_sync", "netbeam/src/multiplex.rs MultiplexedConn"]}
{"id": "C53", "title": "A peer cannot make an endpoint reuse a conversation id or crash", "statement": "Whatever ids the remote endpoint proposes, the local endpoint never hands out an id a second time and never panics.", "quantifier": "all sequences of ids proposed by the peer, interleaved with local opens and closes", "why_tests_cant": "adversarial peers are not in the tests", "anchors": ["netbeam/src/multiplex.rs MultiplexedConn::subscribe", "netbeam/src/sync/network_application.rs NetworkApplication::preaction_sync"]}
{"id": "C54", "title": "Peer registration stays symmetric under concurrent requests", "statement": "At every moment when no server request is half done, account A lists B as a mutual peer exactly when B lists A, even if the two removal steps of deregistrations interleave with other requests.", "quantifier": "all accounts, all interleavings of registrations, deregistration halves and account deletions", "why_tests_cant": "needs a particular interleaving of two deregistrations and a registration", "anchors": ["citadel_user/src/account_manager.rs", "citadel_user/src/backend/memory.rs"]}
{"id": "C55", "title": "A client can only delete its own account", "statement": "The server deletes account V only on a request received on the session authenticated as V.", "quantifier": "all histories of client requests, including clients that choose packet header fields freely", "why_tests_cant": "tests use the library's own client, which always fills in its own cid", "anchors": ["citadel_proto/src/proto/packet_processor/deregister_packet.rs"]}
{"id": "C56", "title": "Registration needs the consent of both sides", "statement": "Whenever the server enters A and B as mutual peers, one of them had asked for the other before and the other is accepting that request or asking itself.", "quantifier": "all histories of registration requests and answers by any number of clients", "why_tests_cant": "tests involve the two intended parties only", "anchors": ["citadel_proto/src/proto/packet_processor/peer/peer_cmd_packet.rs", "citadel_proto/src/proto/packet_processor/peer/server/post_register.rs", "citadel_proto/src/proto/peer/peer_layer.rs"]}
{"id": "C57", "title": "A reported deregistration has removed the pair", "statement": "When the server reports a peer deregistration as successful, the entry of each party in the other's list has been removed.", "quantifier": "all server states and histories of postings", "why_tests_cant": "needs a repeated registration inside the life time of an old posting", "anchors": ["citadel_proto/src/proto/packet_processor/peer/peer_cmd_packet.rs", "citadel_proto/src/proto/peer/peer_layer.rs"]}
{"id": "C58", "title": "No client request can block the account store for ever", "statement": "After any history of client requests the account store can still process requests.", "quantifier": "all histories of client requests", "why_tests_cant": "needs a client that answers its own request", "anchors": ["citadel_user/src/backend/memory.rs", "citadel_proto/src/proto/packet_processor/peer/peer_cmd_packet.rs"]}
{"id": "C59", "title": "Only group members hold group keys", "statement": "Every peer that is a leaf of the owner's ratchet tree for a group is an active member of that group at the server.", "quantifier": "all histories of group signals from all clients", "why_tests_cant": "tests use cooperative clients that publish their key package only after being accepted", "anchors": ["citadel_proto/src/proto/packet_processor/peer/group_broadcast.rs", "citadel_proto/src/proto/peer/group_cgka/mod.rs", "citadel_proto/src/proto/state_container/rekey_and_groups.rs"]}
{"id": "C60", "title": "Partitions of a secure buffer never overlap", "statement": "In a partitioned secure buffer each partition window shows exactly the bytes last written to that partition: reserving or writing one partition never changes what another window shows, reservations out of order are refused, and the buffer is the concatenation of the partitions.", "quantifier": "all numbers of partitions, all sequences of reservations and writes with any sizes", "why_tests_cant": "overlap needs specific size sums (4 GiB) and interleavings of reservations and writes", "anchors": ["citadel_crypt/src/secure_buffer/partitioned_sec_buffer.rs PartitionedSecBuffer::reserve_partition", "citadel_crypt/src/secure_buffer/partitioned_sec_buffer.rs PartitionedSecBuffer::partition_window", "citadel_crypt/src/secure_buffer/partitioned_sec_buffer.rs PartitionedSecBuffer::get_range"]}
{"id": "C61", "title": "Locally encrypted contents open again at every level", "statement": "Contents encrypted with a ratchet's local encryption at any security level the ratchet has are restored exactly by local decryption at that level, including empty contents; a level above the maximum is refused.", "quantifier": "all levels, all numbers of layers, all contents, all transient counter values, every AEAD with correct decryption", "why_tests_cant": "layer order, empty input and counter wrap-around interact", "anchors": ["citadel_crypt/src/ratchets/mod.rs Ratchet::local_encrypt", "citadel_crypt/src/ratchets/mod.rs Ratchet::local_decrypt", "citadel_crypt/src/ratchets/entropy_bank.rs EntropyBank::local_encrypt"]}
{"id": "C62", "title": "Local encryption is for the local user only", "statement": "Contents encrypted with a container's local encryption can be opened only by that container's owner: the owner restores them exactly and no operation of the peer's container restores them.", "quantifier": "all algorithms, all layers, all contents, all sessions with any number of re-keys by either side", "why_tests_cant": "the project test only calls the peer's local_decrypt; the key used is one the peer also holds", "anchors": ["citadel_pqcrypto/src/lib.rs PostQuantumContainer::local_encrypt", "citadel_pqcrypto/src/lib.rs PostQuantumContainer::local_decrypt", "citadel_pqcrypto/src/lib.rs PostQuantumContainer::get_encryption_key", "citadel_pqcrypto/src/export.rs keys_to_aead_store"]}
{"id": "C63", "title": "Re-keyed endpoints keep reading each other at every layer", "statement": "After a first exchange and any sequence of completed re-keys, started by either endpoint, each endpoint opens everything the other encrypts, in every security layer and in both directions.", "quantifier": "all numbers of layers and parameter choices per layer, all numbers of re-keys, all initiator choices, all random choices, all pre-shared keys", "why_tests_cant": "the chain value of every layer depends on all layers and on who played which role in every earlier round", "anchors": ["citadel_pqcrypto/src/lib.rs PostQuantumContainer::generate_recursive_keystore", "citadel_pqcrypto/src/lib.rs PostQuantumContainer::new_bob", "citadel_pqcrypto/src/lib.rs PostQuantumContainer::alice_on_receive_ciphertext", "citadel_crypt/src/ratchets/stacked/ratchet.rs get_next_constructor_opts"]}
{"id": "C64", "title": "Hostile key-exchange transfers are refused without panic", "statement": "Whatever transfer a peer sends, constructing a container from it (or finishing one with it) returns a container or an error and never panics; a container that accepts a signed transfer has verified the signature; and an accepted container does not panic when it later decrypts.", "quantifier": "all transfers, all parameters, all previous chains, all later inputs", "why_tests_cant": "needs transfers whose kind does not fit the parameters; tests pair the two honestly", "anchors": ["citadel_pqcrypto/src/lib.rs PostQuantumMeta::new_bob", "citadel_pqcrypto/src/lib.rs PostQuantumMeta::alice_on_receive_ciphertext", "citadel_pqcrypto/src/export.rs keys_to_aead_store"]}
{"id": "C65", "title": "Hybrid-encrypted packets open exactly", "statement": "What one hybrid (lattice plus AES) module encrypts, the matching peer module decrypts to exactly the plaintext.", "quantifier": "all plaintexts, associated data, nonces, dictionaries, paddings and signatures", "why_tests_cant": "block alignment of the scrambled text, the three nested length fields and the padding interact", "anchors": ["citadel_pqcrypto/src/encryption.rs KyberModule::encrypt_in_place", "citadel_pqcrypto/src/encryption.rs KyberModule::decrypt_in_place", "citadel_pqcrypto/src/encryption.rs core_kyber_otp_encrypt", "citadel_pqcrypto/src/wire.rs ScramCryptDictionary"]}
{"id": "C66", "title": "Hostile hybrid packets never panic and are authenticated", "statement": "Decrypting any byte string with a hybrid module never panics, and any accepted string ends in a valid signature of the peer over the associated data and all preceding bytes, and passes AES under the peer's key.", "quantifier": "all inputs, all associated data, all primitives", "why_tests_cant": "attacker-chosen length fields at three nesting depths", "anchors": ["citadel_pqcrypto/src/encryption.rs KyberModule::decrypt_in_place", "citadel_pqcrypto/src/encryption.rs decode_length", "citadel_pqcrypto/src/encryption.rs core_kyber_otp_decrypt"]}
{"id": "C67", "title": "Session passwords bind the keys", "statement": "Two nodes that derive the same keys in an exchange entered the same list of session passwords (number, order and contents), unless a hash collision occurred among the hash evaluations of that very exchange.", "quantifier": "all password lists, all previous chains, all algorithms, all hash functions with the given output lengths", "why_tests_cant": "password lists are concatenated before hashing, so boundary ambiguities would need specially chosen lists", "anchors": ["citadel_types/src/crypto/mod.rs PreSharedKey::add_password", "citadel_pqcrypto/src/lib.rs PostQuantumContainer::generate_recursive_keystore"]}
{"id": "C68", "title": "No group description and no packets can make the receiver panic", "statement": "A group receiver whose description passed validation never panics, whatever packets arrive afterwards.", "quantifier": "all descriptions that pass validation, all packet sequences", "why_tests_cant": "hostile descriptions are combinations of ten numbers; tests reject a few obviously wrong ones", "anchors": ["citadel_crypt/src/scramble/crypt_splitter.rs GroupReceiverConfig::validate", "citadel_crypt/src/scramble/crypt_splitter.rs GroupReceiver::on_packet_received", "citadel_crypt/src/scramble/crypt_splitter.rs GroupReceiver::get_ciphertext_insertion_range"]}
{"id": "C69", "title": "A group reported complete has no gaps", "statement": "When a group receiver reports the group complete, every byte of the reassembled plaintext was written by a successfully decrypted wave.", "quantifier": "all descriptions that pass validation, all packet sequences, every decryption function", "why_tests_cant": "needs waves whose lengths compensate each other", "anchors": ["citadel_crypt/src/scramble/crypt_splitter.rs GroupReceiver::on_packet_received", "citadel_crypt/src/scramble/crypt_splitter.rs GroupReceiverConfig::validate"]}
{"id": "C70", "title": "A relay cannot rearrange a file", "statement": "If the receiver reports the group complete, the reassembled plaintext is the sender's, whatever the network does to the packets (including their headers).", "quantifier": "all files, all network behaviours, every cipher", "why_tests_cant": "needs an attacker in the middle; the tests deliver the packets unmodified", "anchors": ["citadel_crypt/src/scramble/crypt_splitter.rs GroupReceiver::on_packet_received", "citadel_proto/src/proto/state_container/inbound_transfer.rs on_group_payload_received", "citadel_proto/src/proto/packet_processor/primary_group_packet.rs"]}
{"id": "C71", "title": "A relayed group signal does not end the receiver's session", "statement": "Whatever key package, Welcome, commit or message another client has relayed to a client, the client's session with the server goes on and nothing panics.", "quantifier": "all client states, all relayed signals", "why_tests_cant": "needs malformed packets from another client; the tests only send well-formed ones", "anchors": ["citadel_proto/src/proto/packet_processor/peer/group_broadcast.rs KeyPackage, Welcome, Commit", "citadel_proto/src/proto/session.rs 941-995"]}
{"id": "C72", "title": "With a faithful relay the members follow the owner", "statement": "If the server relays in order and lets each client in once, no session ends, nothing panics, whoever is in the same epoch has the same tree and secrets, and a client on the roster for whom nothing is under way has joined and has the owner's secrets.", "quantifier": "all interleavings of joins, kicks, departures, messages and deliveries, all numbers of clients, all primitives", "why_tests_cant": "the interleavings of Welcome, commits and roster changes are unbounded; the tests run one order", "anchors": ["citadel_proto/src/proto/packet_processor/peer/group_broadcast.rs 505-1185", "citadel_proto/src/proto/session_manager.rs 1110-1230", "citadel_proto/src/proto/peer/group_cgka/mod.rs"]}
{"id": "C73", "title": "Only invited clients enter the group", "statement": "A leaf of the owner's tree belongs to the client whose cid it carries, and that client was let in by the server.", "quantifier": "all executions, including a server that answers for the clients", "why_tests_cant": "needs a malicious server", "anchors": ["citadel_proto/src/proto/peer/group_cgka/mod.rs GroupCgkaState::add_member", "citadel_proto/src/proto/packet_processor/peer/group_broadcast.rs cgka_owner_add_member"]}
{"id": "C74", "title": "A removed member is locked out even if it misbehaved", "statement": "After the owner has removed a member, that member cannot compute the group's later keys, whatever it sent before.", "quantifier": "all commits a member can make", "why_tests_cant": "needs a modified client", "anchors": ["citadel_crypt/src/cgka/group.rs process_commit", "citadel_proto/src/proto/peer/group_cgka/mod.rs GroupCgkaState::process_commit"]}
{"id": "C75", "title": "A Welcome does not replace the state of a member", "statement": "Once a client has joined a group, no relayed signal but the owner's commits changes its group state.", "quantifier": "all member states, all relayed signals", "why_tests_cant": "needs a client that sends an unsolicited Welcome", "anchors": ["citadel_proto/src/proto/peer/group_cgka/mod.rs GroupCgkaState::join", "citadel_proto/src/proto/packet_processor/peer/group_broadcast.rs Welcome"]}
{"id": "C76", "title": "A kick takes the client out of the group", "statement": "After the owner has kicked a cid, no leaf of its tree carries that cid, and the other leaves stay.", "quantifier": "all trees, all cids", "why_tests_cant": "needs two leaves with one cid", "anchors": ["citadel_proto/src/proto/peer/group_cgka/mod.rs GroupCgkaState::remove_member_by_cid", "citadel_crypt/src/cgka/group.rs remove_member"]}
{"id": "C77", "title": "Forward secrecy of a member's state", "statement": "The secrets a member holds do not help to compute the keys of epochs that have passed.", "quantifier": "all histories, all members", "why_tests_cant": "a symbolic derivation over all histories", "anchors": ["citadel_crypt/src/cgka/group.rs process_commit", "citadel_proto/src/proto/peer/group_cgka/mod.rs"]}
{"id": "C78", "title": "A former member can be invited again", "statement": "A client that left or was kicked and is let in again joins the group again.", "quantifier": "all histories of a client", "why_tests_cant": "the tests invite each client once", "anchors": ["citadel_proto/src/proto/packet_processor/peer/group_broadcast.rs cgka_joiner_publish_key_package", "citadel_proto/src/proto/state_container/rekey_and_groups.rs"]}
{"id": "C79", "title": "A kicked client is not added later", "statement": "A client that is kicked and not let in again does not get the group's secrets afterwards.", "quantifier": "all interleavings of the kick with the client's key package", "why_tests_cant": "needs the kick to overtake the key package", "anchors": ["citadel_proto/src/proto/packet_processor/peer/group_broadcast.rs KeyPackage", "citadel_proto/src/proto/session_manager.rs kick_from_message_group", "citadel_proto/src/proto/state_container/rekey_and_groups.rs 205-232"]}
{"id": "C80", "title": "A group message reaches every member", "statement": "A message sent by a member is handed to the application of every member the server relays it to.", "quantifier": "all interleavings", "why_tests_cant": "needs a message that crosses a commit", "anchors": ["citadel_proto/src/proto/packet_processor/peer/group_broadcast.rs 505-555 Message", "citadel_crypt/src/cgka/group.rs decrypt_message"]}
{"id": "C81", "title": "A client that left cannot read later messages", "statement": "With the state it had when it left, a client cannot open messages sent after it left.", "quantifier": "all histories", "why_tests_cant": "about what can be computed, not about what is delivered", "anchors": ["citadel_proto/src/proto/packet_processor/peer/group_broadcast.rs 689-730 LeaveRoom"]}
{"id": "C82", "title": "A re-key never ends in an error and leaves nothing behind", "statement": "However calls and messages interleave, no step of the re-key background task ends in an error, and whenever nothing is under way both endpoints are ready for the next re-key: toggle clear, role idle, no version declared beyond the usable one, same ratchets for the same versions.", "quantifier": "all schedules of re-key triggers and message deliveries, any number of rounds, absent crashes/timeouts", "why_tests_cant": "an error or a left-over toggle needs a rare interleaving of the trigger and the background task", "anchors": ["citadel_crypt/src/ratchets/ratchet_manager.rs RatchetManager::rekey", "citadel_crypt/src/ratchets/ratchet_manager.rs RatchetManager::trigger_rekey_with_payload", "citadel_crypt/src/endpoint_crypto_container.rs PeerSessionCrypto::update_sync_safe"]}
{"id": "C83", "title": "Re-keying comes to rest and never deadlocks", "statement": "However many re-keys are started, at most a fixed number of steps per started re-key can be made before everything is at rest again; as long as something is under way some task has a step to make; and from rest a re-key started by either endpoint can complete.", "quantifier": "all schedules, all states", "why_tests_cant": "termination is about unbounded executions", "anchors": ["citadel_crypt/src/ratchets/ratchet_manager.rs RatchetManager::trigger_rekey_with_payload", "citadel_crypt/src/ratchets/ratchet_manager.rs RatchetManager::rekey"]}
{"id": "C84", "title": "Groups of a running file transfer stay decryptable", "statement": "Every group of a file can be decrypted by the receiver when it arrives, however many re-keys complete between the start of the transfer and the arrival.", "quantifier": "all executions of the re-key protocol between the start of a transfer and the arrival of a group, all store sizes", "why_tests_cant": "Test transfers finish within a few re-keys; the loss needs as many completed re-keys during one transfer as the store holds ratchets", "anchors": ["citadel_proto/src/proto/session.rs:1475-1505", "citadel_proto/src/proto/session.rs:1584-1617", "citadel_proto/src/proto/packet_processor/primary_group_packet.rs:103-110", "citadel_crypt/src/toolset.rs"]}
{"id": "C85", "title": "Files do not block messages", "statement": "Once all packets of a connection have arrived, in any order, every message sent over it has been delivered, in the order of sending, whatever files were sent over the same connection before, after or in between.", "quantifier": "all sequences of requests, all arrival orders with repetitions", "why_tests_cant": "The ordered channel and the counters are each tested alone; that a file takes an id the receiver's channel waits for shows only when messages follow a file on a peer connection", "anchors": ["citadel_proto/src/proto/session.rs:1475", "citadel_proto/src/proto/session.rs:1579-1582", "citadel_proto/src/proto/session.rs:2005", "citadel_crypt/src/endpoint_crypto_container.rs:322-329", "citadel_crypt/src/ordered_channel.rs:62-91", "citadel_proto/src/proto/state_container/channels.rs:9-22"]}
{"id": "C86", "title": "Perfect secrecy mode: one ratchet per message", "statement": "In perfect-secrecy mode no two messages of an endpoint are encrypted with the same ratchet: each is encrypted with a newer version than the one before.", "quantifier": "all interleavings of the tasks of both endpoints and of the network, all numbers of messages", "why_tests_cant": "Tests count the delivered messages; which ratchet each was encrypted with is not observed, and the late proposal needs a proposal of the peer to complete between the version check and the sending", "anchors": ["citadel_crypt/src/messaging.rs:268-284", "citadel_crypt/src/ratchets/ratchet_manager.rs:574-606"]}
{"id": "C87", "title": "A file reported as received is the file that was sent", "statement": "In every execution of a file transfer, when the receiver reports ReceptionComplete the file it has stored equals the file of the sender, when the sender reports TransferComplete the receiver has stored the whole file, no handler panics or fails, and every execution ends.", "quantifier": "all files cut into any number of groups and waves, all first group ids, all interleavings of the sender loop, the two packet handlers and the backend", "why_tests_cant": "The tests transfer one file per session, for which the first group id is 0; the completion test compares the absolute id of a group with the number of groups and fails only for later files with several groups.", "anchors": ["citadel_proto/src/proto/state_container/inbound_transfer.rs: on_group_payload_received", "citadel_proto/src/proto/session.rs: process_outbound_file", "citadel_proto/src/proto/state_container/outbound_transfer.rs: on_wave_ack_received"]}
{"id": "C88", "title": "A file pushed to the remote encrypted file system can be pulled", "statement": "Pulling a file that was pushed with local encryption returns the file that was pushed.", "quantifier": "all files, all sizes of the groups of both directions, every local encryption which is correct and has a fixed growth", "why_tests_cant": "The tests push files of less than one group; the pieces of the pull agree with those of the push only if the file is one group or the sizes happen to fit.", "anchors": ["citadel_crypt/src/scramble/crypt_splitter.rs: par_scramble_encrypt_group", "citadel_proto/src/proto/packet_processor/file_packet.rs: REVFS_PULL", "citadel_proto/src/proto/state_container/inbound_transfer.rs: on_group_payload_received"]}
{"id": "C89", "title": "A file deleted after a pull was received", "statement": "When the holder of a remote file deletes it because of delete_on_pull, the puller has stored the whole file.", "quantifier": "all files, all interleavings of the transfer", "why_tests_cant": "The file is deleted when the last group is acknowledged to two thirds; the rest is usually delivered a moment later, only a broken connection at that moment loses the file.", "anchors": ["citadel_proto/src/proto/session.rs: process_outbound_file (post_close_hook)", "citadel_proto/src/proto/packet_processor/file_packet.rs: REVFS_PULL"]}
{"id": "C90", "title": "A client reads, writes and deletes their own files only", "statement": "File packets sent by one client never change, remove or reveal the stored files of another client.", "quantifier": "all sequences of file, group and remote-file-system packets of all clients and peers, all paths, all answers of the user", "why_tests_cant": "Tests use the shipped client, which puts its own id into the headers and metadata; no test sends a packet that names someone else.", "anchors": ["citadel_proto/src/proto/packet_processor/file_packet.rs: REVFS_PULL, REVFS_DELETE, FILE_HEADER", "citadel_proto/src/proto/packet_processor/raw_primary_packet.rs: check_proxy", "citadel_user/src/backend/file_io_backend.rs: stream_object_to_backend"]}
{"id": "C91", "title": "Received files stay in the directory of their client", "statement": "Whatever name or virtual path a sender chooses, the file and its metadata are created, read and deleted below the directory of the given client id, and the directories of different clients and kinds of transfers are disjoint.", "quantifier": "all strings as names and virtual paths, all client ids, all home directories, all file systems", "why_tests_cant": "Path traversal is a statement about all strings, with three different rules (component check, substring check, separator conversion); tests try a few well-known ones.", "anchors": ["citadel_user/src/backend/file_io_backend.rs: get_file_path, validate_file_transfer_name, revfs_delete", "citadel_user/src/misc.rs: validate_virtual_path", "citadel_user/src/directory_store.rs: setup_directory"]}
{"id": "C92", "title": "A file is written only if the user wants it", "statement": "A file sent by another party is written to disk only if the local user accepted it or requested it.", "quantifier": "all sequences of packets and user actions", "why_tests_cant": "The tests accept every transfer, and auto-accept is only exercised after a genuine pull.", "anchors": ["citadel_proto/src/proto/state_container/inbound_transfer.rs: on_file_header_received (is_revfs_pull)"]}
{"id": "C93", "title": "The remote file system is a map from paths to files", "statement": "After any sequence of stores, lookups, deletions and pulls, a client finds at a virtual path exactly the file they stored there last and did not delete, with its metadata, and deletions succeed exactly if there is a file.", "quantifier": "all sequences of operations of all clients, all paths in any notation", "why_tests_cant": "It needs all interleavings of operations on paths that alias each other; tests use one or two files.", "anchors": ["citadel_user/src/backend/file_io_backend.rs: stream_object_to_backend, revfs_get_file_info, revfs_delete, get_revfs_file_metadata_path"]}
{"id": "C94", "title": "The contents of a file come from the party that offered it", "statement": "Everything stored as the contents of a received file was sent by the party that offered the file.", "quantifier": "all sequences of packets of all peers and the server", "why_tests_cant": "A test would need a second malicious connection in the same session that sends groups with the object id of the first one.", "anchors": ["citadel_proto/src/proto/state_container/inbound_transfer.rs: on_group_header_received, on_group_payload_received (FileKey, GroupKey)"]}
{"id": "C95", "title": "Network readers-writer lock: a writer excludes everybody else", "statement": "While one endpoint has a write guard of the network readers-writer lock, the other endpoint has no guard, neither for reading nor for writing.", "quantifier": "all executions of both endpoints: all requests, times, releases and orders of packets", "why_tests_cant": "Violations need requests of different kinds that cross on the network; the tests use reads and writes in lock step.", "anchors": ["netbeam/src/sync/primitives/net_rwlock.rs: acquire_read, acquire_lock, yield_lock, net_rwlock_guard_drop_code, passive_background_handler"]}
{"id": "C96", "title": "Network readers-writer lock: guards show the latest value", "statement": "Whoever has a guard of the network readers-writer lock sees the value most recently written through a write guard at either endpoint.", "quantifier": "all executions of both endpoints, all values", "why_tests_cant": "It needs all interleavings of releases, requests and readers that enter through the local store.", "anchors": ["netbeam/src/sync/primitives/net_rwlock.rs: acquire_read, acquire_lock, yield_lock, net_rwlock_guard_drop_code, passive_background_handler"]}
{"id": "C97", "title": "Network readers-writer lock: guards do not panic", "statement": "Writing through a write guard and dropping a guard never panics.", "quantifier": "all executions of both endpoints", "why_tests_cant": "The panic needs a reader that lost a conflict against a writer and is granted the lock later.", "anchors": ["netbeam/src/sync/primitives/net_rwlock.rs: acquire_read, acquire_lock, yield_lock, net_rwlock_guard_drop_code, passive_background_handler", "netbeam/src/sync/primitives/net_rwlock.rs: LocalLockHolder"]}
{"id": "C98", "title": "Network readers-writer lock: nobody is left waiting", "statement": "Whenever no guard is held and no packet is on the way, nobody waits for the lock and both endpoints can acquire it.", "quantifier": "all executions of both endpoints", "why_tests_cant": "The lock is lost for ever only after certain orders of releases of readers at both endpoints.", "anchors": ["netbeam/src/sync/primitives/net_rwlock.rs: acquire_read, acquire_lock, yield_lock, net_rwlock_guard_drop_code, passive_background_handler"]}
{"id": "C99", "title": "Login: a password is needed", "statement": "When a server session becomes connected to an account that has a password, a session presented credentials made from a password a user entered, and their hash is the stored one. This also holds against an attacker who has stolen the long-term key of the account.", "quantifier": "all executions of any number of nodes, sessions and users with an attacker who controls the network and may steal keys of accounts", "why_tests_cant": "An attacker picks the order, the timing and the content of packets of several sessions at once; tests run honest logins.", "anchors": ["citadel_user/src/auth/proposed_credentials.rs: validate_credentials", "citadel_user/src/client_account.rs: validate_credentials", "citadel_proto/src/proto/packet_processor/register_packet.rs", "citadel_proto/src/proto/packet_processor/preconnect_packet.rs", "citadel_proto/src/proto/packet_processor/connect_packet.rs", "citadel_proto/src/proto/session.rs: handle_zero_state, begin_connect", "citadel_proto/src/proto/validation.rs"]}
{"id": "C100", "title": "Login: the server knows the client", "statement": "When a server session is connected to an account whose long-term key the attacker does not have, some session asked for this login under that key, received this session's key and presented the accepted credentials; no two server sessions accept the same client session.", "quantifier": "all executions of any number of nodes, sessions and users with an attacker who controls the network and may steal keys of accounts", "why_tests_cant": "An attacker picks the order, the timing and the content of packets of several sessions at once; tests run honest logins.", "anchors": ["citadel_proto/src/proto/packet_processor/register_packet.rs", "citadel_proto/src/proto/packet_processor/preconnect_packet.rs", "citadel_proto/src/proto/packet_processor/connect_packet.rs", "citadel_proto/src/proto/session.rs: handle_zero_state, begin_connect", "citadel_proto/src/proto/validation.rs"]}
{"id": "C101", "title": "Login: the client knows the server", "statement": "When a login session got its channel and the attacker does not have the long-term key of the account, a session that holds this key made the session key and accepted the credentials; it served no other client session.", "quantifier": "all executions of any number of nodes, sessions and users with an attacker who controls the network and may steal keys of accounts", "why_tests_cant": "An attacker picks the order, the timing and the content of packets of several sessions at once; tests run honest logins.", "anchors": ["citadel_proto/src/proto/packet_processor/register_packet.rs", "citadel_proto/src/proto/packet_processor/preconnect_packet.rs", "citadel_proto/src/proto/packet_processor/connect_packet.rs", "citadel_proto/src/proto/session.rs: handle_zero_state, begin_connect", "citadel_proto/src/proto/validation.rs"]}
{"id": "C102", "title": "Login: credentials go to the server only", "statement": "The credentials of a login session are only sent under a key that a session holding the account's long-term key made for this login, and that the attacker does not have.", "quantifier": "all executions of any number of nodes, sessions and users with an attacker who controls the network and may steal keys of accounts", "why_tests_cant": "An attacker picks the order, the timing and the content of packets of several sessions at once; tests run honest logins.", "anchors": ["citadel_proto/src/proto/packet_processor/register_packet.rs", "citadel_proto/src/proto/packet_processor/preconnect_packet.rs", "citadel_proto/src/proto/packet_processor/connect_packet.rs", "citadel_proto/src/proto/session.rs: handle_zero_state, begin_connect", "citadel_proto/src/proto/validation.rs"]}
{"id": "C103", "title": "Registration never replaces an account", "statement": "An account stays as it is until it is removed, whatever sessions a node takes part in.", "quantifier": "all executions of any number of nodes, sessions and users with an attacker who controls the network and may steal keys of accounts", "why_tests_cant": "An attacker picks the order, the timing and the content of packets of several sessions at once; tests run honest logins.", "anchors": ["citadel_user/src/account_manager.rs: register_impersonal_hyperlan_client_network_account, register_personal_hyperlan_server", "citadel_proto/src/proto/packet_processor/register_packet.rs", "citadel_proto/src/proto/packet_processor/preconnect_packet.rs", "citadel_proto/src/proto/packet_processor/connect_packet.rs", "citadel_proto/src/proto/session.rs: handle_zero_state, begin_connect", "citadel_proto/src/proto/validation.rs"]}
{"id": "C104", "title": "The registered password works", "statement": "After a registration, a login with the password that was entered at the registration is accepted.", "quantifier": "all names, passwords, hash functions and notions of white space", "why_tests_cant": "The failing passwords begin or end with white space, which tests do not use.", "anchors": ["citadel_user/src/auth/proposed_credentials.rs: new_register, new_connect", "citadel_user/src/client_account.rs: generate_connect_credentials"]}
{"id": "C105", "title": "Registration and login do not panic", "statement": "No sequence of packets makes a session panic during registration or login.", "quantifier": "all executions of any number of nodes, sessions and users with an attacker who controls the network and may steal keys of accounts", "why_tests_cant": "An attacker picks the order, the timing and the content of packets of several sessions at once; tests run honest logins.", "anchors": ["citadel_proto/src/proto/packet_processor/register_packet.rs", "citadel_proto/src/proto/packet_processor/preconnect_packet.rs", "citadel_proto/src/proto/packet_processor/connect_packet.rs", "citadel_proto/src/proto/session.rs: handle_zero_state, begin_connect", "citadel_proto/src/proto/validation.rs"]}
{"id": "C106", "title": "Login: a channel is named after its account", "statement": "The channel of a server session has the CID of the account that logged in.", "quantifier": "all executions of any number of nodes, sessions and users with an attacker who controls the network and may steal keys of accounts", "why_tests_cant": "An attacker picks the order, the timing and the content of packets of several sessions at once; tests run honest logins.", "anchors": ["citadel_proto/src/proto/packet_processor/register_packet.rs", "citadel_proto/src/proto/packet_processor/preconnect_packet.rs", "citadel_proto/src/proto/packet_processor/connect_packet.rs", "citadel_proto/src/proto/session.rs: handle_zero_state, begin_connect", "citadel_proto/src/proto/validation.rs"]}
{"id": "C107", "title": "One session per account", "statement": "A server never has two running sessions that are connected as the same account.", "quantifier": "all executions of a server with any number of connections and accounts: all orders of packets, suspended handlers, ends of sessions and times", "why_tests_cant": "It takes several connections for one account whose handlers are suspended and resumed in an unusual order; tests connect each account once.", "anchors": ["citadel_proto/src/proto/session_manager.rs: can_proceed_with_new_incoming_connection, upgrade_connection, clear_session, clear_provisional_session, execute_session_with_safe_shutdown", "citadel_proto/src/proto/packet_processor/preconnect_packet.rs", "citadel_proto/src/proto/packet_processor/connect_packet.rs", "citadel_proto/src/proto/session.rs"]}
{"id": "C108", "title": "A connected session uses its own keys", "statement": "The session crypto of an account is that of the handshake of the session that is connected as the account.", "quantifier": "all executions of a server with any number of connections and accounts: all orders of packets, suspended handlers, ends of sessions and times", "why_tests_cant": "It takes several connections for one account whose handlers are suspended and resumed in an unusual order; tests connect each account once.", "anchors": ["citadel_proto/src/proto/session_manager.rs: can_proceed_with_new_incoming_connection, upgrade_connection, clear_session, clear_provisional_session, execute_session_with_safe_shutdown", "citadel_proto/src/proto/packet_processor/preconnect_packet.rs", "citadel_proto/src/proto/packet_processor/connect_packet.rs", "citadel_proto/src/proto/session.rs"]}
{"id": "C109", "title": "The table of online clients is right", "statement": "A connected session is found under the CID of its account, and what is found under a CID is a session of that account that is not over.", "quantifier": "all executions of a server with any number of connections and accounts: all orders of packets, suspended handlers, ends of sessions and times", "why_tests_cant": "It takes several connections for one account whose handlers are suspended and resumed in an unusual order; tests connect each account once.", "anchors": ["citadel_proto/src/proto/session_manager.rs: can_proceed_with_new_incoming_connection, upgrade_connection, clear_session, clear_provisional_session, execute_session_with_safe_shutdown", "citadel_proto/src/proto/packet_processor/preconnect_packet.rs", "citadel_proto/src/proto/packet_processor/connect_packet.rs", "citadel_proto/src/proto/session.rs"]}
{"id": "C110", "title": "No lock-out", "statement": "When no session has to do with an account, a new connection may log in as the account.", "quantifier": "all executions of a server with any number of connections and accounts: all orders of packets, suspended handlers, ends of sessions and times", "why_tests_cant": "It takes several connections for one account whose handlers are suspended and resumed in an unusual order; tests connect each account once.", "anchors": ["citadel_proto/src/proto/session_manager.rs: can_proceed_with_new_incoming_connection, upgrade_connection, clear_session, clear_provisional_session, execute_session_with_safe_shutdown", "citadel_proto/src/proto/packet_processor/preconnect_packet.rs", "citadel_proto/src/proto/packet_processor/connect_packet.rs", "citadel_proto/src/proto/session.rs"]}
{"id": "C111", "title": "Hole punching: the two sockets belong together", "statement": "When both endpoints of a hole-punching attempt return a socket, each of the two is aimed at the other one, and packets between them can arrive.", "quantifier": "all executions of an attempt: every number of sockets on both sides, every order of the tasks, all losses, delays and repetitions of packets between the sockets", "why_tests_cant": "It takes several sockets per side that reach each other crosswise and packets lost in one direction; tests run on the loopback interface where the first answer wins.", "anchors": ["citadel_wire/src/udp_traversal/multi/mod.rs: drive", "citadel_wire/src/udp_traversal/linear/mod.rs: try_method, recovery_mode_generate_socket_by_remote_id", "citadel_wire/src/udp_traversal/linear/method3.rs: recv_until"]}
{"id": "C112", "title": "Hole punching: one winner, no panic", "statement": "Of the two endpoints at most one chooses a socket freely; the final candidate is submitted at most once and the branch marked unreachable is not reached.", "quantifier": "all executions of an attempt: every number of sockets on both sides, every order of the tasks, all losses, delays and repetitions of packets", "why_tests_cant": "Both endpoints have to succeed within the same round trip; the window is a few instructions wide.", "anchors": ["citadel_wire/src/udp_traversal/multi/mod.rs: drive", "citadel_wire/src/udp_traversal/linear/mod.rs: try_method, recovery_mode_generate_socket_by_remote_id", "citadel_wire/src/udp_traversal/linear/method3.rs: recv_until"]}
{"id": "C113", "title": "Hole punching: an endpoint that is told to use a socket can use it", "statement": "An endpoint that the winner tells to use one of its sockets can return this socket, whatever happened before, without any further packet.", "quantifier": "all reachable states of an attempt, every number of sockets on both sides", "why_tests_cant": "The state is reached through particular losses and orders of packets, and the failure is that nothing happens any more.", "anchors": ["citadel_wire/src/udp_traversal/multi/mod.rs: drive", "citadel_wire/src/udp_traversal/linear/mod.rs: try_method, recovery_mode_generate_socket_by_remote_id", "citadel_wire/src/udp_traversal/linear/method3.rs: recv_until"]}
{"id": "C114", "title": "Hole punching: success of one endpoint is success of both", "statement": "When one endpoint has won or returned a socket, the other one can still return the socket that belongs to it.", "quantifier": "all reachable states of an attempt, every number of sockets on both sides", "why_tests_cant": "One endpoint has to give up while the answer of the other one is under way; tests do not let punchers time out at a chosen moment.", "anchors": ["citadel_wire/src/udp_traversal/multi/mod.rs: drive", "citadel_wire/src/udp_traversal/linear/mod.rs: try_method, recovery_mode_generate_socket_by_remote_id", "citadel_wire/src/udp_traversal/linear/method3.rs: recv_until"]}
{"id": "C115", "title": "Stores: a cid or key is read back as the one written", "statement": "Writing a cid to a column of the SQL database and reading it gives the same cid, in every dialect, and no two of the keys that the Redis store builds from cids, names and keys chosen by users are the same text.", "quantifier": "all 64-bit cids, all integers of the column, all names and keys of any length and content", "why_tests_cant": "There are 2^64 cids and infinitely many names; a collision would need particular digits or separators.", "anchors": ["citadel_user/src/backend/sql_backend.rs: u64_into_i64, i64_into_u64, try_get_cid_from_row, gen_query!", "citadel_user/src/backend/redis_backend.rs: get_byte_map_key, get_peer_username_key, get_peer_cid_key, get_cid_to_username_key, get_username_key"]}
{"id": "C116", "title": "Stores: a value of the byte map is the one stored last", "statement": "After any sequence of operations the look-ups of the byte map answer with the value stored last for the session, peer, key and sub key, and with nothing if it was removed, its account was deleted or nothing was stored.", "quantifier": "all sequences of operations on an empty store, all slots, for SQL every order in which the database may return rows", "why_tests_cant": "The tests store the same bytes twice, and an embedded database happens to return rows in one order.", "anchors": ["citadel_user/src/backend/sql_backend.rs: get_byte_map_value, store_byte_map_value, get_byte_map_values_by_key", "citadel_user/src/backend/redis_backend.rs: get_byte_map_value, store_byte_map_value", "citadel_user/src/backend/memory.rs: get_byte_map_value, store_byte_map_value"]}
{"id": "C117", "title": "Stores: nothing of a deleted account is left", "statement": "After the deletion of an account the store holds no row, value or entry of the account, no account has it as a peer, and everything else is unchanged.", "quantifier": "all states of the SQL tables, all histories of a server for memory and Redis", "why_tests_cant": "Tests that delete an account look for the account and not for what it owned, and do not create it again.", "anchors": ["citadel_user/src/backend/sql_backend.rs: delete_cnac_by_cid", "citadel_user/src/backend/redis_backend.rs: delete_cnac_by_cid", "citadel_user/src/backend/memory.rs: delete_cnac_by_cid"]}
{"id": "C118", "title": "Stores: the peers of an account are those it was registered with", "statement": "After any sequence of operations the look-ups of peers answer with exactly the peers that the account was registered with and not deregistered from since, under the names they were registered with.", "quantifier": "all sequences of operations on an empty store, all pairs of cids", "why_tests_cant": "The failing sequences register twice, synchronize an empty list or name an account that does not exist; tests register once.", "anchors": ["citadel_user/src/backend/sql_backend.rs: register_p2p_as_server, hyperlan_peer_exists, synchronize_hyperlan_peer_list_as_client", "citadel_user/src/backend/redis_backend.rs: register_p2p_as_server, deregister_p2p_as_server", "citadel_user/src/backend/memory.rs: register_p2p_as_server, deregister_p2p_as_server"]}
{"id": "C119", "title": "Stores: a question about many peers is answered like one about each", "statement": "hyperlan_peers_are_mutuals and get_hyperlan_peers answer for every cid of the list what hyperlan_peer_exists and get_hyperlan_peer_by_cid answer for it alone.", "quantifier": "all sequences of operations, all lists of cids, every order in which the database may return rows", "why_tests_cant": "A wrong answer needs duplicate rows together with an unlucky order of rows, cids that agree as floating point numbers, or a list with one stranger in it.", "anchors": ["citadel_user/src/backend/sql_backend.rs: hyperlan_peers_are_mutuals, get_hyperlan_peers", "citadel_user/src/backend/redis_backend.rs: hyperlan_peers_are_mutuals, get_hyperlan_peers", "citadel_user/src/backend/memory.rs: hyperlan_peers_are_mutuals, get_hyperlan_peers"]}
{"id": "C120", "title": "Stores: the files hold what the memory holds", "statement": "A node that is restarted on its directory has the same accounts, lists of peers and values as before.", "quantifier": "all sequences of operations, all accounts", "why_tests_cant": "Tests check the store that is running; a difference shows after a restart only.", "anchors": ["citadel_user/src/backend/file_io_backend.rs: save_cnac_by_cid, delete_cnac_by_cid, deregister_p2p_as_server", "citadel_user/src/account_loader.rs: load_cnac_files"]}
{"id": "C121", "title": "NAT: the next mapping is among the predicted addresses", "statement": "If a NAT follows a rule for addresses and ports that the classification accepts, then from any three mappings the external address of the socket that is opened next is among the predicted ones.", "quantifier": "all rules (constant shift, counting with any base and stride, one address, a pool of addresses), all triples of observed mappings in any order, all internal addresses", "why_tests_cant": "The prediction fails for ports below 1024, for NATs that count down or are shared, and for coincidences between internal and external ports; tests have three hand-written triples.", "anchors": ["citadel_wire/src/standard/nat_identification.rs: NatType::new, get_ip_translation, get_port_translation, predict, average_delta, wrapping_port_add"]}
{"id": "C122", "title": "Hole punching: every address at which the peer may be reached is tried", "statement": "The candidates of a socket are the predicted addresses, the observed ones, and the address of the peer's socket in the local network and on the local host, restricted to the version of IP of the socket, and no others.", "quantifier": "all NAT types, all lists of internal and observed addresses, all lists of sockets", "why_tests_cant": "Tests look at one set on the local host, where every set contains the local address anyway.", "anchors": ["citadel_wire/src/udp_traversal/hole_punch_config.rs: HolePunchConfig::new, into_iter, AddrBand::next", "citadel_wire/src/standard/nat_identification.rs: predict", "citadel_wire/src/udp_traversal/multi/mod.rs: DualStackUdpHolePuncher::new"]}
{"id": "C123", "title": "Hole punching: the peer cannot make the set-up panic or the candidates many", "statement": "Whatever NAT type and addresses the peer sends, the set-up of a hole punch does not panic and the number of candidates is bounded.", "quantifier": "all NAT types and lists of addresses a peer can send, with and without overflow checks", "why_tests_cant": "A hostile NAT type is never made by NatType::new, which is the only source in the tests.", "anchors": ["citadel_wire/src/standard/nat_identification.rs: predict", "citadel_wire/src/udp_traversal/hole_punch_config.rs: HolePunchConfig::new", "citadel_wire/src/udp_traversal/udp_hole_puncher.rs: driver_inner, get_optimal_bind_socket"]}
{"id": "C124", "title": "NAT: direct traversal is announced only if the mappings can be predicted", "statement": "A node is said to be reachable directly exactly if its NAT was identified and its mappings are predicted; two nodes are said to need a relay exactly if neither is.", "quantifier": "all NAT types, all lists of answers of STUN servers, all external addresses", "why_tests_cant": "A failed identification needs servers that do not answer; the unrelated networks need a NAT with several uplinks.", "anchors": ["citadel_wire/src/standard/nat_identification.rs: traversal_type_required, stun_compatible, identify, get_nat_type, offline, get_ip_translation"]}
{"id": "C125", "title": "Callbacks: results reach their subscription", "statement": "Provided tickets of subscriptions are distinct, a subscription gets exactly the results that carry its ticket (and its session, if it names one), in order, from its registration until it is dropped. In every run each result is placed exactly once, in one channel or with the kernel, and only in a channel it concerns.", "quantifier": "all sequences of registrations, drops, failed sends, results and polls, all orders of iteration of the map", "why_tests_cant": "The order of a HashMap is random per process, so the recipient of an ambiguous result differs from run to run, and a test uses a few tickets.", "anchors": ["citadel_proto/src/kernel/kernel_communicator.rs: search_for_value, register_stream, remove_listener, maybe_notify, on_message_received, Drop, poll_next", "citadel_proto/src/proto/remote.rs: send_callback_subscription_custom_ticket", "citadel_proto/src/proto/node_result.rs: callback_key"]}
{"id": "C126", "title": "Callbacks: the failure of a request reaches the caller", "statement": "Whenever the node reports a failure for a request, the subscription of the request gets it, so that the call of the SDK ends.", "quantifier": "all requests, tickets, sessions, calls of the SDK and interleavings with other subscriptions", "why_tests_cant": "The wait has no limit of time, and tests make requests that succeed.", "anchors": ["citadel_proto/src/proto/node.rs: outbound_kernel_request_handler, send_error", "citadel_proto/src/proto/node_request.rs: session_cid", "citadel_proto/src/proto/node_result.rs: callback_key, into_result", "citadel_sdk/src/remote_ext.rs"]}
{"id": "C127", "title": "Callbacks: a registration does not disturb other subscriptions", "statement": "register_stream either fails and leaves every listener in place, or adds a listener; the drop of a subscription ends only that subscription.", "quantifier": "all sequences of registrations and drops, all keys", "why_tests_cant": "Needs two registrations under one key, which random tickets make rare, and then the silence of the first.", "anchors": ["citadel_proto/src/kernel/kernel_communicator.rs: register_stream, insert, remove_listener, Drop"]}
{"id": "C128", "title": "SDK: a call ends at an error, and succeeds only on its answer", "statement": "A call of the SDK ends with an error at every result that reports one, and returns a success only on a result of the kind it asked for that carries its ticket and its session.", "quantifier": "all calls, all results, all runs", "why_tests_cant": "There are 18 calls and 18 kinds of results; tests follow the intended pairs.", "anchors": ["citadel_sdk/src/remote_ext.rs: register, connect, get_local_group_peers, get_local_group_mutual_peers, sessions, send_file_with_custom_opts, remote_encrypted_virtual_filesystem_pull, remote_encrypted_virtual_filesystem_delete, connect_to_peer_custom, register_to_peer, deregister, disconnect, create_group_with_options, list_owned_groups, list_sessions, rekey", "citadel_proto/src/proto/node_result.rs: into_result"]}
{"id": "C129", "title": "Executor: results keep being handed over", "statement": "A result in the queue of the executor is always handed over in the end, whatever the handlers of the kernel in progress wait for, and never more handlers run at once than the limit.", "quantifier": "all limits, all handlers, all sequences of results", "why_tests_cant": "The default is no limit; with a limit the deadlock needs as many handlers waiting at the same moment.", "anchors": ["citadel_proto/src/kernel/kernel_executor.rs: kernel_inner_loop", "citadel_proto/src/kernel/mod.rs: with_max_concurrency"]}
{"id": "C130", "title": "Request channels: a response goes to the call whose request it answers", "statement": "A call of a request and response channel returns a value only if a holder of the request that carries the payload of that call responded with that value. What a call returned is final; a response to a request without a callback is refused.", "quantifier": "all capacities, all interleavings of calls, cancellations, receipts, responses and drops", "why_tests_cant": "Mixing up the numbers needs many calls in flight together with cancellations and repeated responses.", "anchors": ["netbeam/src/sync/tracked_callback_channel.rs: send, try_reply, recv", "netbeam/src/sync/callback_channel.rs: send, recv"]}
{"id": "C131", "title": "Request channels: a call whose request cannot be answered any more ends", "statement": "A call waits only while its request is in the channel or held by a receiver, and a call that has ended leaves nothing behind.", "quantifier": "all capacities, all interleavings of calls, cancellations, receipts, responses and drops", "why_tests_cant": "A test answers its requests; the wait without end begins when one is dropped.", "anchors": ["netbeam/src/sync/tracked_callback_channel.rs: send, try_reply", "netbeam/src/sync/callback_channel.rs: send"]}
{"id": "C132", "title": "Synchronised start: an end that runs has the payload of the other, and conversely", "statement": "When an end of a synchronised start runs, it runs with the payload of the other end, and the other end has received its payload; while the connection holds both ends can always be brought to run.", "quantifier": "all payloads, clocks, delays and interleavings, with or without loss of the connection", "why_tests_cant": "A test sees the interleavings and clocks of one machine.", "anchors": ["netbeam/src/sync/sync_start.rs: synchronize", "netbeam/src/reliable_conn.rs: recv_until_serialized", "netbeam/src/sync/network_application.rs: register, forward_packet"]}
{"id": "C133", "title": "Synchronised start: the ends start together", "statement": "Both ends of a synchronised start run at the same moment up to the time of local steps, or neither runs; none waits without end.", "quantifier": "all clocks, delays, losses of the connection and times named by the peer", "why_tests_cant": "Tests run both ends on one machine with one clock and an unbroken connection.", "anchors": ["netbeam/src/sync/sync_start.rs: synchronize", "netbeam/src/time_tracker.rs: get_global_time_ns"]}
{"id": "C134", "title": "Timers of a session do not bring it down", "statement": "No sequence of registrations and expiries of timers makes the timer task of a session panic (which would end the session).", "quantifier": "all sequences of registrations of groups, all results of the timer functions, all orders of expiry", "why_tests_cant": "The collision of keys needs transfers in both directions between two peers with group ids in a certain relation, and shows a minute later.", "anchors": ["citadel_proto/src/proto/session_queue_handler.rs: insert_ordinary", "citadel_proto/src/proto/session_queue_handler.rs: poll_purge", "citadel_proto/src/proto/session.rs: 1808"]}
{"id": "C135", "title": "Every timer runs its own function in time", "statement": "At a deadline the function of the timer runs that the deadline belongs to, not before its time, and every timer keeps a deadline until it is complete.", "quantifier": "all sequences of registrations, results and expiries", "why_tests_cant": "Needs the map of functions and the queue of deadlines to be compared over every interleaving.", "anchors": ["citadel_proto/src/proto/session_queue_handler.rs: insert_reserved", "citadel_proto/src/proto/session_queue_handler.rs: poll_purge"]}
{"id": "C136", "title": "A silent peer is noticed", "statement": "If nothing arrives any more from the other end of a session, the keep alive checks end the session within a bounded time.", "quantifier": "all moments at which the silence begins, all delays, clocks and timeouts", "why_tests_cant": "The checks run every fifteen minutes of real time, and the gaps lie in states that follow a late packet or precede the first one.", "anchors": ["citadel_proto/src/proto/state_container/monitoring.rs: on_keep_alive_received", "citadel_proto/src/proto/state_container/monitoring.rs: keep_alive_subsystem_timed_out", "citadel_proto/src/proto/session.rs: KEEP_ALIVE_CHECKER"]}
{"id": "C137", "title": "A peer that is alive is not dropped", "statement": "As long as both ends live and packets arrive, the keep alive subsystem does not end the session, however idle it is.", "quantifier": "all timeouts the caller may choose, all clock differences and delays, sessions of any length", "why_tests_cant": "Needs hours of idle time and machines with different clocks.", "anchors": ["citadel_proto/src/proto/packet_processor/keep_alive_packet.rs: process_keep_alive", "citadel_proto/src/proto/state_container/monitoring.rs: on_keep_alive_received", "citadel_proto/src/proto/node.rs: 510"]}
{"id": "C138", "title": "Frames are read as they were written", "statement": "Every packet written to the primary stream is read at the other end byte by byte and in order, however the transport cuts the stream, and a stream that ends early gives a prefix of the packets.", "quantifier": "all lists of packets of all lengths, all ways to cut the stream into chunks, all cuts", "why_tests_cant": "The number of ways to cut a stream is exponential, and the limits (64 MB, 4 GB) are beyond what tests send.", "anchors": ["citadel_proto/src/proto/misc/direct_frame_writer.rs: write_packet", "citadel_proto/src/proto/misc/mod.rs: primary_stream_codec_builder", "citadel_proto/src/proto/outbound_sender.rs: body_len"]}
{"id": "C139", "title": "Header obfuscation is transparent", "statement": "For every combination of settings the two ends accept, each end is handed exactly the packets that the other end sent, in order; settings that do not fit are refused.", "quantifier": "all keys, settings, packets with a whole header, interleavings of sending and receiving at both ends", "why_tests_cant": "Needs the race between the first packet of the listener and the key packet, and all pairs of settings.", "anchors": ["citadel_proto/src/proto/packet.rs: HeaderObfuscator", "citadel_proto/src/proto/packet.rs: apply_cipher", "citadel_proto/src/proto/session.rs: execute_inbound_stream", "citadel_proto/src/proto/peer/p2p_conn_handler.rs: handle_p2p_stream"]}
{"id": "C140", "title": "The outbound loop flushes what it writes", "statement": "On a transport without errors: a flush barrier is acknowledged only when everything queued before it is at the socket; when the loop waits everything taken is at the socket, in the order in which it was queued; everything queued gets there; and the loop reaches its yield point within 33 steps, however fast packets are queued.", "quantifier": "all queues, all schedules of producers, transport and loop", "why_tests_cant": "Depends on the schedule of producers and the buffering of the transport.", "anchors": ["citadel_proto/src/proto/session.rs: outbound_stream", "citadel_proto/src/proto/misc/direct_frame_writer.rs: write_packet", "citadel_proto/src/proto/outbound_sender.rs: OutboundPacket"]}
{"id": "C141", "title": "The first packet is read without loss", "statement": "Reading the first packet of a connection takes exactly this packet from the stream; every byte behind it stays for the next reader.", "quantifier": "all packets, all ways to cut the stream into chunks", "why_tests_cant": "Whether bytes of the next packet arrive in the same read depends on timing.", "anchors": ["citadel_proto/src/proto/misc/mod.rs: read_one_packet_as_framed", "citadel_proto/src/proto/node.rs: native_connect"]}
{"id": "C142", "title": "A channel delivers what it accepted", "statement": "An item for which send_item returned Ok is received, once and in order, by the other end as long as the other end reads; closing one half of an end does not affect the other half.", "quantifier": "all interleavings of sending, receiving, dropping and the tasks of both ends", "why_tests_cant": "The loss needs a send between two statements of a background task.", "anchors": ["netbeam/src/sync/channel/bi_channel.rs: send_item", "netbeam/src/sync/channel/bi_channel.rs: process_packet", "netbeam/src/sync/channel/bi_channel.rs: drop"]}
{"id": "C143", "title": "Closing a channel comes to its end", "statement": "When both ends have dropped their receive halves, the tasks that close the channel end.", "quantifier": "all interleavings of both ends and their tasks", "why_tests_cant": "A task that waits for ever is not visible to a test that drops the channel and ends.", "anchors": ["netbeam/src/sync/channel/bi_channel.rs: drop"]}
{"id": "C144", "title": "Group kernel: the result is that of the user's function", "statement": "The kernel for groups calls the function of the user at most once, with the channel of the group; it ends when the function ends, with its result; if there is no channel it ends with an error.", "quantifier": "all orders of events, of the function and of the acceptor", "why_tests_cant": "The tests run with a feature that ends the acceptor; refusals depend on the server.", "anchors": ["citadel_sdk/src/prefabs/client/broadcast.rs: on_c2s_channel_received", "citadel_sdk/src/prefabs/client/broadcast.rs: on_node_event_received"]}
{"id": "C145", "title": "Group kernel: requests to register are answered", "statement": "A request to register that reaches the node is answered if the owner accepts registrations, once, and only if it is meant for this node; otherwise it is handed to the inner kernel.", "quantifier": "all orders of events, all times at which requests arrive", "why_tests_cant": "Depends on when requests arrive relative to the start of the kernel.", "anchors": ["citadel_sdk/src/prefabs/client/broadcast.rs: on_c2s_channel_received", "citadel_sdk/src/prefabs/client/broadcast.rs: on_node_event_received", "citadel_sdk/src/responses.rs: peer_register"]}
{"id": "C146", "title": "Group kernel: who joins finds the group", "statement": "A client that joins finds the group if it exists at any time before the client gives up; the wait is bounded.", "quantifier": "all times at which the group can appear", "why_tests_cant": "Needs a group that is created within a certain window of time.", "anchors": ["citadel_sdk/src/prefabs/client/broadcast.rs: on_c2s_channel_received"]}
{"id": "C147", "title": "Packet ids count up from the last reset", "statement": "The id given to an outgoing packet is the number of ids given out since the last reset of the counters; the container reports that it was used exactly if an id was given out or accepted since.", "quantifier": "all histories of sending, receiving and resetting", "why_tests_cant": "Needs arbitrary histories with resets between.", "anchors": ["citadel_pqcrypto/src/replay_attack_container.rs: get_next_pid", "citadel_pqcrypto/src/replay_attack_container.rs: has_tracked_packets", "citadel_pqcrypto/src/lib.rs: has_verified_packets"]}
{"id": "C148", "title": "A file that is sent in order is stored as it was sent", "statement": "A file offered under an object id that is not in use, whose groups and waves arrive in order, is written with exactly the data sent, in order: at its last group if it was accepted before, else when it is accepted; if it is declined nothing is written. A file under a plain name is then found in the directory of the client with exactly these data, unless a directory of that name or a file in place of the directory of the client is in the way.", "quantifier": "for all states of the host, all object ids, parties, kinds, all numbers of groups and waves and all contents; accepted before or after", "why_tests_cant": "The tests send a few files of fixed sizes between fresh sessions, and accept them at once", "anchors": ["citadel_proto/src/proto/state_container/inbound_transfer.rs:on_file_header_received", "citadel_user/src/backend/file_io_backend.rs:stream_object_to_backend"]}
{"id": "C149", "title": "Every peer of the list is tried and its result reaches the user once", "statement": "The kernel that connects to a list of peers starts for every list for which the backend answers; every peer has one task, no peer has two results, each result tells what happened to that peer's task, and as long as the user keeps the receiver of results all finished tasks have delivered theirs; the failure of one peer does not keep another peer from being connected; the kernel succeeds exactly if the function of the user does.", "quantifier": "for all lists of peers, all orders in which the tasks run, fail or succeed, all times at which the user drops the receiver or returns", "why_tests_cant": "The tests use at most three peers that all succeed, and read all results before they return", "anchors": ["citadel_sdk/src/prefabs/client/peer_connection.rs:on_c2s_channel_received", "citadel_sdk/src/prefabs/client/peer_connection.rs:construct"]}
{"id": "C150", "title": "A file offered by a peer reaches the receiver of that peer", "statement": "With the kernel that connects to a list of peers, a file handle in the receiver of a peer is for a file which that peer offered; a file offered by a connected peer reaches the receiver of that peer; a file offered by the server is given to the user too; the receiver of a peer ends when the connection to the peer does.", "quantifier": "for all lists of different peers, all runs of the kernel, all packets with file headers of all parties", "why_tests_cant": "The tests have one peer that sends one file, with the source named truthfully", "anchors": ["citadel_sdk/src/prefabs/client/peer_connection.rs:on_node_event_received", "citadel_proto/src/proto/packet_processor/file_packet.rs:process_file_packet", "citadel_proto/src/proto/state_container/inbound_transfer.rs:on_file_header_received"]}
{"id": "C151", "title": "The kernel for one connection does what its settings say, once", "statement": "Settings are built exactly if what they need was given, and hold what was set last; the kernel makes the calls these settings ask for (registration before the login, both to the given address with the same name and password), connects once and calls the function of the user at most once, and succeeds only if that function did; events after the connection and all file handles reach the user in order.", "quantifier": "for all sequences of calls of the builder, all addresses, all runs of the kernel, all events", "why_tests_cant": "The tests use three fixed sequences of the builder, connect once, and never look at events that come early", "anchors": ["citadel_sdk/src/prefabs/client/mod.rs:ServerConnectionSettingsBuilder", "citadel_sdk/src/prefabs/client/single_connection.rs:SingleClientServerConnectionKernel"]}
{"id": "C152", "title": "Stores: the answer tells whether the operation was done", "statement": "A store answers Ok exactly if the operation can be done, which is when the accounts it is about exist (and, to separate two accounts, when each is a peer of the other); an operation that is answered with an error changes nothing.", "quantifier": "for all states of the store and all operations, for the four stores", "why_tests_cant": "Tests call the operations for accounts that exist; nobody looks at the store after an error", "anchors": ["citadel_user/src/backend/memory.rs", "citadel_user/src/backend/file_io_backend.rs", "citadel_user/src/backend/sql_backend.rs", "citadel_user/src/backend/redis_backend.rs"]}
{"id": "C153", "title": "Members of a hierarchy are where the owner put them", "statement": "A member of the group for whom no assignment is under way holds exactly the position of the rank it was given last, below the root that was drawn last; a member's message is read by the owner and, among the ranked members, by exactly those at or above its rank.", "quantifier": "for all sequences of joins, promotions, demotions, kicks, departures and deliveries in any order between the two kinds of packets, all ranks, all correct primitives", "why_tests_cant": "Tests run one promotion and one demotion with all packets delivered at once", "anchors": ["citadel_proto/src/proto/peer/group_cgka/hierarchy.rs:promote", "citadel_proto/src/proto/peer/group_cgka/hierarchy.rs:demote", "citadel_proto/src/proto/peer/group_cgka/hierarchy.rs:apply_hierarchy_assignment", "citadel_proto/src/proto/state_container/group_hierarchy_outbound.rs"]}
{"id": "C154", "title": "A demotion takes the position away for good", "statement": "Members who were given no position at or above the sender's below the root in force cannot, putting together all they were ever sent, compute the text of a message to superiors, even knowing all other roots and all flat group keys; in particular a demoted member cannot read its former subtree's messages sent below the new root.", "quantifier": "for all histories of the group, all coalitions, all senders and positions; attacker as in symbolic cryptography", "why_tests_cant": "The test only asks whether the demoted client's own decrypt call fails; it says nothing about what can be computed from kept secrets", "anchors": ["citadel_proto/src/proto/peer/group_cgka/hierarchy.rs:demote", "citadel_treekem/src/hierarchy_member.rs"]}
{"id": "C155", "title": "A kicked member reads nothing sent afterwards", "statement": "After a member was kicked it cannot read any message sent in the group afterwards, as the comment at the kick promises.", "quantifier": "for all histories and all messages sent after the kick", "why_tests_cant": "The kick is tested in flat groups only", "anchors": ["citadel_proto/src/proto/state_container/rekey_and_groups.rs:Kick", "citadel_proto/src/proto/peer/group_cgka/mod.rs:remove_member_by_cid", "citadel_proto/src/proto/peer/group_cgka/hierarchy.rs"]}
{"id": "C156", "title": "Positions come from the owner and go to the one they are for", "statement": "A client takes up a position only if the owner assigned it, only the member with a rank is given the position of that rank, and no packet of another member can end a member's session.", "quantifier": "for all members, all packets, all key packages", "why_tests_cant": "Tests deliver only honest packets", "anchors": ["citadel_proto/src/proto/peer/group_cgka/hierarchy.rs:apply_hierarchy_assignment", "citadel_proto/src/proto/peer/group_cgka/hierarchy.rs:assignment_for_joiner", "citadel_proto/src/proto/packet_processor/peer/group_broadcast.rs:HierarchyAssign"]}
{"id": "C157", "title": "In a group for all, all members read", "statement": "In a group with the policy BroadcastAudit every member of the group in the same epoch reads every message, whether it has a rank or not.", "quantifier": "for all histories, senders and readers", "why_tests_cant": "Tests give a rank to every member", "anchors": ["citadel_proto/src/proto/peer/group_cgka/hierarchy.rs:flat_key_for_policy", "citadel_proto/src/proto/peer/group_cgka/mod.rs:encrypt_message", "citadel_proto/src/proto/peer/group_cgka/mod.rs:decrypt_message"]}
{"id": "C158", "title": "The owner stays at the root", "statement": "Whatever ranks the owner gives, it keeps the root of the hierarchy and its session.", "quantifier": "for all ranks, also ones for the owner itself", "why_tests_cant": "No test gives a rank to the owner", "anchors": ["citadel_proto/src/proto/peer/group_cgka/hierarchy.rs:promote", "citadel_proto/src/proto/peer/group_cgka/hierarchy.rs:demote", "citadel_proto/src/proto/peer/group_cgka/hierarchy.rs:apply_hierarchy_assignment"]}
{"id": "C159", "title": "Two browsers with the same token connect", "statement": "Two attempts of establish_serverless_connection with the same token take opposite roles, find each other, and unless a deadline comes both return a connection to the other.", "quantifier": "for all identity hashes and all interleavings of polls, requests, replies and events", "why_tests_cant": "Tests need two browsers and a signaling service, and see one interleaving", "anchors": ["citadel_proto/src/proto/misc/serverless.rs:establish_serverless_connection", "citadel_proto/src/proto/misc/serverless.rs:poll_for_peer", "citadel_proto/src/proto/misc/serverless.rs:alpha_flow", "citadel_proto/src/proto/misc/serverless.rs:beta_flow", "citadel_proto/src/proto/misc/signaling.rs:determine_is_server"]}
{"id": "C160", "title": "A serverless data channel has one server end and one client end", "statement": "However many attempts use a room, and whatever earlier ones left in it: the two ends of an open data channel name each other, one as the server and one as the client, and no attempt is the other end of two data channels.", "quantifier": "for all numbers of attempts, all hashes, all interleavings, all timeouts", "why_tests_cant": "Tests run one pair in a fresh room", "anchors": ["citadel_proto/src/proto/misc/serverless.rs:alpha_flow", "citadel_proto/src/proto/misc/serverless.rs:beta_flow", "citadel_proto/src/proto/misc/serverless.rs:establish_serverless_connection"]}
{"id": "C161", "title": "A greeting says that its sender is there", "statement": "An attempt takes another for its peer only if the other is still waiting in the room.", "quantifier": "for all histories of the room, all orders in which a map is walked through", "why_tests_cant": "Tests start with a fresh room", "anchors": ["citadel_proto/src/proto/misc/serverless.rs:poll_for_peer", "citadel_proto/src/proto/misc/signaling_firebase.rs:list_children"]}
{"id": "C162", "title": "An answer answers the offer of the peer", "statement": "Two attempts that found each other get a data channel or an error, also if earlier attempts with the token failed.", "quantifier": "for all histories of the room and all continuations", "why_tests_cant": "Tests start with a fresh room", "anchors": ["citadel_proto/src/proto/misc/serverless.rs:poll_for_key", "citadel_proto/src/proto/misc/serverless.rs:alpha_flow", "citadel_proto/src/proto/misc/serverless.rs:beta_flow"]}
{"id": "C163", "title": "A pair that connects leaves others alone", "statement": "When a pair has connected and deletes the room, others that wait in it can still be found.", "quantifier": "for all continuations", "why_tests_cant": "Tests have two browsers", "anchors": ["citadel_proto/src/proto/misc/serverless.rs:establish_serverless_connection", "citadel_proto/src/proto/misc/serverless.rs:poll_for_peer", "citadel_proto/src/proto/misc/signaling_firebase.rs:delete_room"]}
{"id": "C164", "title": "A serverless attempt ends", "statement": "Every attempt whose page stays open ends: with a connection, or with an error when its deadline has come; and if one of two returns a connection, so does the other.", "quantifier": "for all interleavings of replies and events", "why_tests_cant": "The event comes before the reply only if the service is slower than WebRTC", "anchors": ["citadel_proto/src/proto/misc/serverless.rs:beta_flow", "citadel_proto/src/proto/misc/wasm_rtc.rs:wait_for_remote_datachannel", "citadel_proto/src/proto/misc/wasm_rtc.rs:wait_for_datachannel_open"]}
{"id": "C165", "title": "Forms of errors are read in one way", "statement": "The derive macro accepts a form exactly if it is text without braces, doubled braces and {} in some order, and counts its {}; a form can be read so in one way only.", "quantifier": "for all forms", "why_tests_cant": "The tests look at two forms of the registry", "anchors": ["citadel_io_macros/src/lib.rs:count_placeholders", "citadel_io_macros/src/lib.rs:derive_error_registry"]}
{"id": "C166", "title": "Filling a form", "statement": "Showing an accepted form with arguments puts the i-th argument in the place of the i-th {} and braces for doubled braces, never looks into an argument, and never panics, for any text.", "quantifier": "for all forms, arguments and texts", "why_tests_cant": "Escapes, missing arguments and multi-byte characters do not occur in the tests", "anchors": ["citadel_io/src/error/mod.rs:render"]}
{"id": "C167", "title": "Errors show their message", "statement": "An error whose form was accepted and that has as many arguments as its form has slots is shown as the form, filled; and the codes of the registry are different.", "quantifier": "for all forms and arguments; for the whole registry", "why_tests_cant": "The tests show four of 326 errors, none with an escape", "anchors": ["citadel_io/src/error/mod.rs:Display for NetworkError", "citadel_io/src/error/mod.rs:from_parts", "citadel_io/src/error/code.rs:ErrorCode"]}
{"id": "C168", "title": "Errors through io::Error", "statement": "An error that is turned into an io::Error and back keeps its message after a prefix; its code is replaced.", "quantifier": "for all errors", "why_tests_cant": "No test turns an error there and back", "anchors": ["citadel_io/src/error/mod.rs:From<std::io::Error> for NetworkError", "citadel_io/src/error/mod.rs:From<NetworkError> for std::io::Error"]}
{"id": "C169", "title": "A hole punching result is backed by the peer", "statement": "A puncher returns a result with id j and initial address a only if it sent a Syn to a, and puncher j, of the other endpoint, received that Syn and answered it, whatever the network does.", "quantifier": "for all numbers of punchers, schedules and network behaviours", "why_tests_cant": "Tests punch on one host, without a hostile network", "anchors": ["citadel_wire/src/udp_traversal/linear/method3.rs:recv_until", "citadel_wire/src/udp_traversal/linear/method3.rs:send_packet_barrage"]}
{"id": "C170", "title": "The address of a hole punching result", "statement": "The address that a result says to send to is the address where the peer's puncher is seen.", "quantifier": "for all schedules and network behaviours", "why_tests_cant": "Tests have no relay", "anchors": ["citadel_wire/src/udp_traversal/linear/method3.rs:recv_until"]}
{"id": "C171", "title": "Recovery finds the peer", "statement": "If a puncher has a result with puncher j, then j has noted the puncher's address under its id, so that recovery mode finds it; j answers one puncher only.", "quantifier": "for all schedules and network behaviours", "why_tests_cant": "An asymmetric failure needs particular interleavings and losses", "anchors": ["citadel_wire/src/udp_traversal/linear/method3.rs:observed_addrs_on_syn", "citadel_wire/src/udp_traversal/linear/mod.rs:recovery_mode_generate_socket_by_remote_id"]}
{"id": "C172", "title": "Both punchers have a result", "statement": "When a puncher has a result with another one that has not failed, the other one can still get a result with it.", "quantifier": "for all schedules", "why_tests_cant": "The answer has to overtake the Syn", "anchors": ["citadel_wire/src/udp_traversal/linear/method3.rs:recv_until"]}
{"id": "C173", "title": "Check packets", "statement": "A Check that is sent to an address is recognised by the puncher there.", "quantifier": "for all runs", "why_tests_cant": "Encryption is off in the tests (localhost-testing), so that the packet opens there", "anchors": ["citadel_wire/src/udp_traversal/linear/method3.rs:NatPacket::Check", "citadel_wire/src/udp_traversal/linear/encrypted_config_container.rs:new"]}
{"id": "C174", "title": "Unreachable endpoints are dropped", "statement": "An endpoint that the network says is unreachable, or whose address is of the wrong kind, is taken out of the set; when none is left, the barrage fails.", "quantifier": "for all runs", "why_tests_cant": "Tests have no unreachable endpoints", "anchors": ["citadel_wire/src/udp_traversal/linear/method3.rs:send_packet_barrage"]}
{"id": "C175", "title": "One barrage at a time and silence at the end", "statement": "The two tasks of a puncher are never in a round at the same time, and a puncher that has its result sends nothing more. The Syn goes to each address at most twice, and to each of the puncher's endpoints just twice if the sends work and no answer comes.", "quantifier": "for all schedules", "why_tests_cant": "The overlap is a race of two tasks", "anchors": ["citadel_wire/src/udp_traversal/linear/method3.rs:UdpWrapper", "citadel_wire/src/udp_traversal/linear/method3.rs:send_packet_barrage"]}
{"id": "C176", "title": "The bytes of a native WebSocket", "statement": "What is read of the native WebSocket stream, what it has buffered and what is to come are the bytes of the messages in their order; a read gets no more than it has room for, and one that has to wait is woken.", "quantifier": "for all sequences of messages, control frames, errors and waits, and all sizes of the readers' buffers", "why_tests_cant": "Buffer sizes and message boundaries of the tests are a few", "anchors": ["citadel_proto/src/proto/misc/native_websocket.rs:poll_read", "citadel_proto/src/proto/misc/native_websocket.rs:poll_write"]}
{"id": "C177", "title": "The end of a native WebSocket", "statement": "A read with room that gets no bytes means that the peer has closed the connection, and by then everything before the close was read.", "quantifier": "for all sequences of messages and all buffer sizes", "why_tests_cant": "Tests never send an empty frame", "anchors": ["citadel_proto/src/proto/misc/native_websocket.rs:poll_read"]}
{"id": "C178", "title": "The bytes of a browser's channel", "statement": "What is read in the browser and what is buffered are the bytes of the binary messages in order; a reader never waits while there are bytes, an error or a close it does not know of; it reads the end only after the close and after all bytes; writes fail after the close or an error and are one message otherwise.", "quantifier": "for all interleavings of callbacks and reads", "why_tests_cant": "Lost wake-ups depend on the order of callback and poll", "anchors": ["citadel_proto/src/proto/misc/wasm_stream.rs:poll_read_from_state", "citadel_proto/src/proto/misc/wasm_stream.rs:check_write_state", "citadel_proto/src/proto/misc/wasm_stream.rs:WasmWebSocketStream", "citadel_proto/src/proto/misc/wasm_stream.rs:WasmDataChannelStream"]}
{"id": "C179", "title": "Errors and text in the browser", "statement": "A connection that breaks down with an error is not read as one that was closed, and the browser reads the same of a list of messages as a native node does.", "quantifier": "for all interleavings of callbacks and reads", "why_tests_cant": "The browser tests need a broken network", "anchors": ["citadel_proto/src/proto/misc/wasm_stream.rs:poll_read_from_state", "citadel_proto/src/proto/misc/native_websocket.rs:poll_read"]}
{"id": "C180", "title": "Packets over messages", "statement": "Packets written with length prefixes in pieces of any sizes, one message each, and read with buffers of any sizes arrive as they were written, or some of the first of them while not everything is read.", "quantifier": "for all packets, all cuts into writes, all buffer sizes and all interleavings", "why_tests_cant": "Cuts are unbounded", "anchors": ["citadel_proto/src/proto/misc/native_websocket.rs:poll_read", "citadel_proto/src/proto/misc/native_websocket.rs:poll_write", "citadel_proto/src/proto/misc/wasm_stream.rs:poll_read_from_state", "citadel_proto/src/proto/misc/mod.rs:safe_split_stream"]}
{"id": "C181", "title": "Values are read as they were written", "statement": "What type_to_bytes writes is read back as the same value by both readers, also if other bytes follow, and the limit refuses none of it; no encoding of a value is the beginning of the encoding of another of the same type.", "quantifier": "for all types built of integers, booleans, options, strings, structures, enumerations and sequences, all values and all following bytes", "why_tests_cant": "Types and values are unbounded; the tests have one structure", "anchors": ["citadel_user/src/serialization.rs:type_to_bytes", "citadel_user/src/serialization.rs:bytes_to_type", "citadel_user/src/serialization.rs:deserialize_from_owned_vector", "citadel_user/src/serialization.rs:limited_options"]}
{"id": "C182", "title": "The limit changes nothing that is read", "statement": "Each reader accepts just the inputs that begin with the encoding of a value, and gives that value; with the limit the same is read as without, on every input.", "quantifier": "for all types and all inputs, also hostile ones", "why_tests_cant": "The inputs are all byte strings", "anchors": ["citadel_user/src/serialization.rs:limited_options", "citadel_user/src/serialization.rs:bytes_to_type", "citadel_user/src/serialization.rs:deserialize_from_owned_vector"]}
{"id": "C183", "title": "No memory for lengths that are not there", "statement": "Reading takes memory in proportion to the input whatever lengths it claims, and a length that is larger than the input is refused without an allocation.", "quantifier": "for all types whose sequences have elements of at least a byte, and all inputs", "why_tests_cant": "The tests only see that an error is returned, not what was allocated before", "anchors": ["citadel_user/src/serialization.rs:limited_options"]}
{"id": "C184", "title": "What the limit is needed for", "statement": "Without the limit a slice is read with memory in proportion to the input; through std::io::Read eight bytes make the reader allocate any amount.", "quantifier": "for all types and inputs; for all amounts below 2^64", "why_tests_cant": "Allocating exabytes cannot be tested", "anchors": ["citadel_user/src/serialization.rs:limited_options", "citadel_user/src/serialization.rs:deserialize_in_place", "netbeam/src/reliable_conn.rs:recv_serialized"]}
{"id": "C185", "title": "Time in proportion to the input", "statement": "Reading begins no more elements of sequences than the input has bytes, but one for each level of nesting.", "quantifier": "for all types and inputs", "why_tests_cant": "Inputs are unbounded", "anchors": ["citadel_user/src/serialization.rs:bytes_to_type"]}
{"id": "C186", "title": "The central server does not know the keys of peers", "statement": "No key of a virtual connection of two peers can be computed by the server that relays their exchange, whatever it sends them.", "quantifier": "for all behaviours of the relay, all passwords, all runs", "why_tests_cant": "The relay may send anything at any time", "anchors": ["citadel_proto/src/proto/packet_processor/peer/peer_cmd_packet.rs:Stage0", "citadel_proto/src/proto/packet_processor/peer/peer_cmd_packet.rs:Stage1", "citadel_proto/src/proto/packet_processor/peer/peer_cmd_packet.rs:Stage2", "citadel_proto/src/proto/state_container/virtual_connections.rs:create_virtual_connection"]}
{"id": "C187", "title": "A connection of peers is shared with the peer", "statement": "When a client makes a virtual connection under a password the relay does not know, the peer took part in the exchange with the same password.", "quantifier": "for all behaviours of the relay and all runs", "why_tests_cant": "Replays and reflections of messages are unbounded", "anchors": ["citadel_proto/src/proto/packet_processor/peer/peer_cmd_packet.rs:Stage1", "citadel_proto/src/proto/packet_processor/peer/peer_cmd_packet.rs:Stage2"]}
{"id": "C188", "title": "No connection of peers without consent", "statement": "A client makes a virtual connection only if its user has asked for it or accepted it.", "quantifier": "for all behaviours of the relay and all runs", "why_tests_cant": "Absence of an event in all runs", "anchors": ["citadel_proto/src/proto/packet_processor/peer/peer_cmd_packet.rs:Stage0", "citadel_proto/src/proto/state_container/mod.rs:get_session_password", "citadel_proto/src/proto/state_container/virtual_connections.rs:create_virtual_connection"]}
{"id": "C189", "title": "No signal makes a client panic", "statement": "No sequence of signals of the server makes the key exchange of peers panic.", "quantifier": "for all behaviours of the relay and all runs", "why_tests_cant": "The space of sequences is unbounded", "anchors": ["citadel_proto/src/proto/state_container/virtual_connections.rs:create_virtual_connection", "citadel_proto/src/proto/packet_processor/peer/peer_cmd_packet.rs:Stage2"]}
{"id": "C190", "title": "Both ends of a connection of peers agree", "statement": "When nothing is under way, either both peers have an active virtual connection, with the same key and id, or neither has.", "quantifier": "for all asks, answers, passwords and orders of signals", "why_tests_cant": "All interleavings of two clients and the server", "anchors": ["citadel_proto/src/proto/packet_processor/peer/peer_cmd_packet.rs:Kex", "citadel_proto/src/proto/packet_processor/peer/peer_cmd_packet.rs:PostConnect", "citadel_proto/src/proto/packet_processor/peer/server/post_connect.rs:handle_response_phase_post_connect"]}
{"id": "C191", "title": "Simultaneous requests make one connection", "statement": "When both users ask for a connection with the same password and signals stay in order, both ends come to rest with one and the same connection; with different passwords none is made.", "quantifier": "for all cids and passwords, all times of the asks, all interleavings in which queues stay in order", "why_tests_cant": "All interleavings of two clients and the server", "anchors": ["citadel_proto/src/proto/packet_processor/peer/peer_cmd_packet.rs:952", "citadel_proto/src/proto/packet_processor/peer/peer_cmd_packet.rs:Stage0", "citadel_proto/src/proto/session_manager.rs:1279"]}
{"id": "C192", "title": "Every connection made reaches the user", "statement": "The channel of every virtual connection made is handed to the user when hole punching has ended.", "quantifier": "for all runs", "why_tests_cant": "All interleavings with the hole punching", "anchors": ["citadel_proto/src/proto/misc/native_io_platform.rs:99", "citadel_proto/src/proto/peer/p2p_conn_handler.rs:attempt_simultaneous_hole_punch", "citadel_proto/src/proto/packet_processor/peer/peer_cmd_packet.rs:hole_punch_cancel_tx"]}
{"id": "C193", "title": "Connection ids name connections", "statement": "Two virtual connections of a pair of peers have the same id exactly if they have the same key, and no end uses an id twice.", "quantifier": "for all asks, answers, passwords and orders of signals", "why_tests_cant": "All interleavings of two clients and the server", "anchors": ["citadel_proto/src/proto/packet_processor/peer/peer_cmd_packet.rs:p2p_connection_id"]}
{"id": "C194", "title": "Both peers keep the same direct stream", "statement": "When several direct streams between two peers come up, in any order at either peer, both peers end up using the same one, and every other stream is told to stop.", "quantifier": "for all cids, numbers of streams and orders in which they come up at the two peers", "why_tests_cant": "Orders of arrival at two machines; needs simultaneous connections in both directions", "anchors": ["citadel_proto/src/proto/state_container/virtual_connections.rs:insert_direct_p2p_connection", "citadel_proto/src/proto/peer/p2p_conn_handler.rs:p2p_stopper"]}
{"id": "C195", "title": "Packets are tried with ratchets of the newest connection", "statement": "A packet of a peer is decrypted with a ratchet of the version it names of the newest connection with that peer, and packets under way when a connection goes can still be read until the next one is made.", "quantifier": "for all runs of a client", "why_tests_cant": "Packets under way across the end of a connection, a re-key and a reconnect", "anchors": ["citadel_proto/src/proto/packet_processor/primary_group_packet.rs:get_orientation_safe_ratchet", "citadel_proto/src/proto/state_container/virtual_connections.rs:create_virtual_connection"]}
{"id": "C196", "title": "Streams of older connections do not end newer ones", "statement": "The end of a stream, a task or a command that belongs to an older connection, and a stream that was replaced, do not take a newer connection or its stream away.", "quantifier": "for all runs of a client", "why_tests_cant": "Needs the end of an old stream after a reconnect, or a race between the stopper and the reader", "anchors": ["citadel_proto/src/proto/peer/p2p_conn_handler.rs:handle_p2p_stream", "citadel_proto/src/proto/misc/wasm_p2p.rs:on_datachannel_established"]}
{"id": "C197", "title": "The kernel is told once that a connection is gone", "statement": "The kernel gets exactly one Disconnect event for a connection with a peer, whatever the order of the notifier, the error handler, the server and the commands.", "quantifier": "for all runs of a client", "why_tests_cant": "Four senders race with each other", "anchors": ["citadel_proto/src/proto/disconnect_tracker.rs:try_p2p_disconnect", "citadel_proto/src/proto/session.rs:handle_session_terminating_error", "citadel_proto/src/proto/peer/p2p_conn_handler.rs:handle_p2p_stream"]}
{"id": "C198", "title": "The end of a connection is told to the kernel", "statement": "When a connection with a direct stream is gone and all tasks have run, the kernel has been told, also after a reconnect.", "quantifier": "for all runs of a client", "why_tests_cant": "Depends on when the task of the connection before runs", "anchors": ["citadel_proto/src/proto/peer/p2p_conn_handler.rs:handle_p2p_stream", "citadel_proto/src/proto/disconnect_tracker.rs:clear_p2p_peer"]}
{"id": "C199", "title": "The notifier speaks the truth", "statement": "When the notifier tells the kernel and the server that a connection is gone, that connection was made and there is none any more; it says so at most once for each connection.", "quantifier": "for all runs of a client in which connection ids differ", "why_tests_cant": "All orders of tasks, reconnects and signals", "anchors": ["citadel_proto/src/proto/peer/p2p_conn_handler.rs:handle_p2p_stream", "citadel_proto/src/proto/state_container/mod.rs:drop"]}
{"id": "C200", "title": "A Disconnect signal has a cause", "statement": "A client tells the server that a connection ends only if its channel was dropped or the connection is gone; an attempt that is refused because a connection exists does not disturb that one.", "quantifier": "for all runs of a client", "why_tests_cant": "Needs simultaneous key exchanges and the drop of the refused channel", "anchors": ["citadel_proto/src/proto/state_container/virtual_connections.rs:create_virtual_connection", "citadel_proto/src/proto/session.rs:dispatch_peer_command", "citadel_proto/src/proto/peer/channel.rs:drop"]}
{"id": "C201", "title": "Disconnect signals do not go round for ever", "statement": "The number of Disconnect signals that the server and two clients handle is bounded by three times the number of streams, dropped channels and connection attempts, though the server answers each and each removal may send another.", "quantifier": "for all runs of two clients and the server", "why_tests_cant": "A bound over all interleavings", "anchors": ["citadel_proto/src/proto/packet_processor/peer/peer_cmd_packet.rs:process_signal_command_as_server", "citadel_proto/src/proto/session_manager.rs:disconnect_virtual_conn"]}
{"id": "C202", "title": "The end of an older connection does not end a newer one", "statement": "Signals about a connection that ended do not end the connection that the same peers made afterwards.", "quantifier": "for all runs of two clients and the server", "why_tests_cant": "Needs a reconnect while signals of the connection before are under way", "anchors": ["citadel_proto/src/proto/packet_processor/peer/peer_cmd_packet.rs:process_peer_cmd", "citadel_proto/src/proto/disconnect_tracker.rs:DisconnectToken"]}
{"id": "C203", "title": "The server learns of the end of a connection", "statement": "When a connection with a direct stream is gone and all tasks have run, the server has been told, so that it can tell the other peer.", "quantifier": "for all runs of a client", "why_tests_cant": "Depends on which of two senders is first", "anchors": ["citadel_proto/src/proto/peer/p2p_conn_handler.rs:handle_p2p_stream", "citadel_proto/src/proto/session.rs:handle_session_terminating_error"]}
{"id": "C204", "title": "The channel of a group carries the signals of its time", "statement": "What comes out of the stream of a group channel that is read is exactly what arrived for the user about the group between the opening of the channel and the end of the membership, in order and once, the end included.", "quantifier": "for all runs of a client, the owner and the server, and all channels", "why_tests_cant": "Signals around the opening and the end, and several channels of one key", "anchors": ["citadel_proto/src/proto/peer/group_channel.rs:GroupChannelRecvHalf", "citadel_proto/src/proto/packet_processor/peer/group_broadcast.rs:forward_signal", "citadel_proto/src/proto/state_container/rekey_and_groups.rs:setup_group_channel_endpoints"]}
{"id": "C205", "title": "One channel of a group at a time", "statement": "While a channel of a group is registered no second one is opened, so that the session does not end with an error for it; the registered channel is the newest one.", "quantifier": "for all runs of a client, the owner and the server", "why_tests_cant": "Needs crossing of kicks, invitations and late Welcomes", "anchors": ["citadel_proto/src/proto/peer/group_channel.rs:GroupChannelRecvHalf", "citadel_proto/src/proto/packet_processor/peer/group_broadcast.rs:forward_signal", "citadel_proto/src/proto/state_container/rekey_and_groups.rs:setup_group_channel_endpoints"]}
{"id": "C206", "title": "An old channel does not touch the group created anew", "statement": "Dropping or using a channel of a group that ended has no effect on the group that the owner creates later under the same key.", "quantifier": "for all runs", "why_tests_cant": "Needs a kept handle over two lives of a group", "anchors": ["citadel_proto/src/proto/peer/group_channel.rs:GroupChannelRecvHalf", "citadel_proto/src/proto/packet_processor/peer/group_broadcast.rs:forward_signal", "citadel_proto/src/proto/state_container/rekey_and_groups.rs:setup_group_channel_endpoints"]}
{"id": "C207", "title": "Who drops the channel leaves the group", "statement": "When the receiving half of a group channel is dropped, the client is no longer a member once all requests are served.", "quantifier": "for all runs, all sizes of the queue", "why_tests_cant": "Needs a full queue", "anchors": ["citadel_proto/src/proto/peer/group_channel.rs:GroupChannelRecvHalf", "citadel_proto/src/proto/packet_processor/peer/group_broadcast.rs:forward_signal", "citadel_proto/src/proto/state_container/rekey_and_groups.rs:setup_group_channel_endpoints"]}
{"id": "C208", "title": "An open channel means a membership", "statement": "When the signals under way have arrived and a channel of a group is registered, the client is a member of the group at the server.", "quantifier": "for all runs", "why_tests_cant": "Needs the loss of the owner or a late Welcome", "anchors": ["citadel_proto/src/proto/peer/group_channel.rs:GroupChannelRecvHalf", "citadel_proto/src/proto/packet_processor/peer/group_broadcast.rs:forward_signal", "citadel_proto/src/proto/state_container/rekey_and_groups.rs:setup_group_channel_endpoints"]}
{"id": "C209", "title": "A member gets a channel", "statement": "A client that became a member of a group has a channel once nothing is on the way.", "quantifier": "for all runs, in all ways to become a member", "why_tests_cant": "Needs all ways of joining, and joining again", "anchors": ["citadel_proto/src/proto/peer/group_channel.rs:GroupChannelRecvHalf", "citadel_proto/src/proto/packet_processor/peer/group_broadcast.rs:forward_signal", "citadel_proto/src/proto/state_container/rekey_and_groups.rs:setup_group_channel_endpoints", "citadel_proto/src/proto/packet_processor/peer/group_broadcast.rs:cgka_joiner_publish_key_package"]}
{"id": "C210", "title": "Hole-punch packets come through, all and in order", "statement": "While a connection with a peer and its first ratchet are there and the pipe of the hole puncher is read from, the pipe gets every packet of the connection that arrives, in order and once; likewise the pipe of the session itself, early packets included. Both ends agree on the pipe.", "quantifier": "for all runs, any number of connections with any peers, all packets", "why_tests_cant": "Interleavings of several connections and pipes", "anchors": ["citadel_proto/src/proto/peer/hole_punch_compat_sink_stream.rs:ReliableOrderedCompatStream", "citadel_proto/src/proto/packet_processor/hole_punch.rs:process_hole_punch", "citadel_proto/src/proto/packet_processor/primary_group_packet.rs:get_resp_target_cid_from_header"]}
{"id": "C211", "title": "A pipe carries packets of its own connection only", "statement": "What a pipe gets are packets of the connection and the peer that it was made for, in order and none twice, also when connections with the peer end and are made again.", "quantifier": "for all runs and packets", "why_tests_cant": "Needs packets of an older connection under way", "anchors": ["citadel_proto/src/proto/peer/hole_punch_compat_sink_stream.rs:ReliableOrderedCompatStream", "citadel_proto/src/proto/packet_processor/hole_punch.rs:process_hole_punch", "citadel_proto/src/proto/packet_processor/primary_group_packet.rs:get_resp_target_cid_from_header", "citadel_proto/src/proto/packet_processor/primary_group_packet.rs:get_orientation_safe_ratchet"]}
{"id": "C212", "title": "Hole-punch packets before the pipe are kept", "statement": "A hole-punch packet that arrives before its pipe is registered is kept and drained into the pipe, in order.", "quantifier": "for all runs", "why_tests_cant": "Depends on the order of arrival", "anchors": ["citadel_proto/src/proto/peer/hole_punch_compat_sink_stream.rs:ReliableOrderedCompatStream", "citadel_proto/src/proto/packet_processor/hole_punch.rs:process_hole_punch", "citadel_proto/src/proto/packet_processor/primary_group_packet.rs:get_resp_target_cid_from_header", "citadel_proto/src/proto/state_container/mod.rs:pending_hole_punch_packets"]}
{"id": "C213", "title": "What is kept for hole punching is bounded", "statement": "The packets kept for pipes that do not exist are bounded, and the entry of a pipe goes with its connection.", "quantifier": "for all runs and numbers of packets", "why_tests_cant": "Needs long runs", "anchors": ["citadel_proto/src/proto/peer/hole_punch_compat_sink_stream.rs:ReliableOrderedCompatStream", "citadel_proto/src/proto/packet_processor/hole_punch.rs:process_hole_punch", "citadel_proto/src/proto/packet_processor/primary_group_packet.rs:get_resp_target_cid_from_header", "citadel_proto/src/proto/state_container/mod.rs:hole_puncher_pipes"]}
{"id": "C214", "title": "Channel: what comes out was handed to it, in order", "statement": "In every run, the messages a program gets from the ordered channel of a connection are the beginning of the list of messages handed to it, and those it gets from the unordered channel are among the messages handed to that one, in order and each at most once, whatever polls, drops, closings and removals happen between.", "quantifier": "all connection types, all runs of deliveries, polls, drops, openings, closings, deactivations and removals, all messages", "why_tests_cant": "The interleavings of delivery, polling, removal and dropping are without bound.", "anchors": ["citadel_proto/src/proto/peer/channel.rs:236-310", "citadel_proto/src/proto/peer/channel.rs:366-391", "citadel_proto/src/proto/state_container/channels.rs:26-104"]}
{"id": "C215", "title": "Channel: messages handed over before the end are read", "statement": "A message that was handed to the ordered channel of a connection before the connection ended is still given to a program that polls until the end.", "quantifier": "all runs of deliveries, polls and ends, all messages", "why_tests_cant": "A test that reads as fast as messages come never sees the flag go down with messages waiting.", "anchors": ["citadel_proto/src/proto/peer/channel.rs:298-310", "citadel_proto/src/proto/state_container/mod.rs:377-379", "citadel_proto/src/proto/session_manager.rs:614-616"]}
{"id": "C216", "title": "Channel: the end is final", "statement": "After a program saw the end of an ordered or unordered channel, every later poll gives the end again; after the removal of the connection every poll of either gives the end.", "quantifier": "all runs, all positions of the end", "why_tests_cant": "What may follow the end is an unbounded sequence of events.", "anchors": ["citadel_proto/src/proto/peer/channel.rs:298-310", "citadel_proto/src/proto/state_container/mod.rs:377-379"]}
{"id": "C217", "title": "Channel: dropping one half", "statement": "Dropping or closing the unordered channel has no effect on what is seen of the ordered one; between peers, dropping the ordered half ends the unordered channel and asks the node once to disconnect; between client and server no command is sent; each half sends at most one command.", "quantifier": "all runs of both channels, both connection types", "why_tests_cant": "Independence of the two channels is a statement about all pairs of runs.", "anchors": ["citadel_proto/src/proto/peer/channel.rs:312-358", "citadel_proto/src/proto/peer/channel.rs:366-391", "citadel_proto/src/proto/state_container/channels.rs:41-104"]}
{"id": "C218", "title": "WebRTC adaptor: a packet that fits is given", "statement": "recv of the WebRTC adaptor with a buffer at least as long as the packet that waits writes the packet into the buffer and returns its length; it reports the end only when nothing waits and the channel is closed.", "quantifier": "all runs, all packets, all buffer lengths", "why_tests_cant": "The packet and buffer lengths are without bound; a test with equal lengths passes.", "anchors": ["citadel_proto/src/proto/peer/channel.rs:436-447"]}
{"id": "C219", "title": "Internal service: bytes and packets keep their order", "statement": "In every run, the bytes the service of a client has read are the beginning of the bytes this client sent, however reads cut them up, and the packets sent to the client are the beginning of the list of writes of its service, one packet for each write.", "quantifier": "all runs of any number of clients, all packets, read sizes and orders of the three futures", "why_tests_cant": "Read sizes, packet boundaries, empty packets and the order of the select branches combine without bound.", "anchors": ["citadel_sdk/src/prefabs/shared/internal_service.rs:58-115", "citadel_sdk/src/prefabs/shared/internal_service.rs:123-154"]}
{"id": "C220", "title": "Internal service: nothing on its way is lost at the end", "statement": "What a service wrote before it returned is sent to the client, and what a client sent before it left can be read by the service.", "quantifier": "all runs of services with ends", "why_tests_cant": "Whether the last packets are lost depends on the order in which futures are polled.", "anchors": ["citadel_sdk/src/prefabs/shared/internal_service.rs:99-115", "citadel_sdk/src/prefabs/shared/internal_service.rs:124-144"]}
{"id": "C221", "title": "Internal service: clients of a server do not concern each other", "statement": "What a client and its service see does not depend on the other clients of the server, whatever they do.", "quantifier": "all runs of any number of clients", "why_tests_cant": "Independence is a statement about all pairs of runs.", "anchors": ["citadel_sdk/src/prefabs/shared/internal_service.rs:99-115", "citadel_sdk/src/prefabs/server/internal_service.rs:79-103", "citadel_proto/src/proto/remote.rs:214-217", "citadel_proto/src/proto/node.rs:652-654"]}
{"id": "C222", "title": "Datagrams: a message of an unordered channel is from the other end of its connection", "statement": "Every message that the program gets from the unordered channel of a connection was sealed by the node at the other end of that connection.", "quantifier": "all tables of connections, all datagrams on all sockets, all runs", "why_tests_cant": "An attacker chooses header fields freely; the tests have honest nodes only.", "anchors": ["citadel_proto/src/proto/session.rs:2260-2317", "citadel_proto/src/proto/packet_processor/udp_packet.rs:47-86", "citadel_proto/src/proto/packet_processor/primary_group_packet.rs:565-571", "citadel_proto/src/proto/packet_crafter.rs:1771-1802"]}
{"id": "C223", "title": "Datagrams: a node seals only what its program wrote", "statement": "What a node hands to the UDP sender of a connection, to be sealed with the keys of that connection, is exactly what its program wrote on the unordered channel of the connection.", "quantifier": "all tables of connections, all datagrams on all sockets, all runs", "why_tests_cant": "It takes a datagram that no honest node makes.", "anchors": ["citadel_proto/src/proto/packet_processor/raw_primary_packet.rs:208-297", "citadel_proto/src/proto/outbound_sender.rs:180-184", "citadel_proto/src/proto/misc/native_io_udp.rs:193-225"]}
{"id": "C224", "title": "No datagram or packet makes a node panic when it is for somebody else", "statement": "Whatever the header of a datagram or packet says, deciding whether to send it on does not panic.", "quantifier": "all tables of connections, all headers", "why_tests_cant": "It takes a connection without a direct stream and a packet that no honest node sends there.", "anchors": ["citadel_proto/src/proto/packet_processor/raw_primary_packet.rs:261-274", "citadel_proto/src/proto/state_container/virtual_connections.rs:111", "citadel_proto/src/proto/state_container/virtual_connections.rs:290"]}
{"id": "C225", "title": "Datagrams without a valid seal do nothing", "statement": "A datagram that is not sealed under the keys of its connection has no effect on the node; one that is sealed and in place is given to the program; the UDP task is ended only by a sealed datagram whose channel is gone.", "quantifier": "all tables of connections, all datagrams", "why_tests_cant": "The forged datagrams are without bound.", "anchors": ["citadel_proto/src/proto/session.rs:2260-2317", "citadel_proto/src/proto/packet_processor/udp_packet.rs:47-86", "citadel_proto/src/proto/state_container/channels.rs:26-39"]}
{"id": "C226", "title": "Unordered channels: there is one, handed out once", "statement": "At most one UDP task runs for a peer; it is that of the registered channel, which was handed to the program; no channel is handed out twice and no key exchange gives two; dropping the channel or removing the connection ends its task.", "quantifier": "all runs of key exchanges, streams, loaders, drops, failures and disconnects", "why_tests_cant": "The orders of the events are without bound.", "anchors": ["citadel_proto/src/proto/misc/native_io_udp.rs:18-165", "citadel_proto/src/proto/state_container/channels.rs:41-104", "citadel_proto/src/proto/peer/channel.rs:311-360", "citadel_proto/src/proto/session.rs:2170-2196"]}
{"id": "C227", "title": "Unordered channels: the program learns of the end", "statement": "When the UDP task of a channel has ended, the receiving half of the program ends as well.", "quantifier": "all runs", "why_tests_cant": "The error of a socket at any time.", "anchors": ["citadel_proto/src/proto/misc/native_io_udp.rs:140-192", "citadel_proto/src/proto/peer/channel.rs:297-309"]}
{"id": "C228", "title": "Unordered channels: one that works goes on to work", "statement": "A channel that works goes on to work until its socket fails, the connection ends or a channel of the connection is dropped; neither other key exchanges, nor other streams, nor the drop of channels of older connections end it.", "quantifier": "all reachable states and all continuations", "why_tests_cant": "It takes a race of streams or of connections.", "anchors": ["citadel_proto/src/proto/peer/p2p_conn_handler.rs:212-300", "citadel_proto/src/proto/state_container/virtual_connections.rs:48-128", "citadel_proto/src/proto/misc/native_io_udp.rs:94-125", "citadel_proto/src/proto/session.rs:2170-2196"]}
{"id": "C229", "title": "Unordered channels: a connection gets its own", "statement": "The channel that the program gets with a connection belongs to this connection, and it gets it when the stream of the connection comes.", "quantifier": "all runs, all ids", "why_tests_cant": "It takes a loader that runs late, or two exchanges at the same time.", "anchors": ["citadel_proto/src/proto/misc/native_io_udp.rs:94-125", "citadel_proto/src/proto/packet_processor/peer/peer_cmd_packet.rs:333-350", "citadel_proto/src/proto/packet_processor/peer/peer_cmd_packet.rs:493-502", "citadel_proto/src/proto/state_container/virtual_connections.rs:296-312"]}
{"id": "C230", "title": "What is sent of a source is the source, cut as announced", "statement": "Whatever a source gives, whatever fails and whenever it is stopped, the groups registered for sending are the consecutive pieces of the source from its beginning, with consecutive group ids; and if nothing fails and the source is as long as it said, all of them are sent, as many as were announced.", "quantifier": "All sources, lengths, sizes of groups and orders of reading, encrypting, sending, accepting, asking and stopping.", "why_tests_cant": "Tests send one file at one pace; here the reader, the encryption task, the channel of five groups and the receiver interleave in all ways.", "anchors": ["citadel_crypt/src/scramble/streaming_crypt_scrambler.rs:195-430", "citadel_proto/src/proto/session.rs:1440-1443", "citadel_proto/src/proto/session.rs:1697-1893"]}
{"id": "C231", "title": "Whoever sends a source learns when it was not sent wholly", "statement": "If a transfer ends without all bytes of the announced length having been sent, an error is reported to the kernel.", "quantifier": "All sources, failures and stops.", "why_tests_cant": "Sources that shrink, encryption that fails and a stopper dropped while the channel is full do not occur in tests.", "anchors": ["citadel_crypt/src/scramble/streaming_crypt_scrambler.rs:195-430", "citadel_proto/src/proto/session.rs:1440-1443", "citadel_proto/src/proto/session.rs:1697-1893"]}
{"id": "C232", "title": "The hook of a transfer is executed only when everything was sent", "statement": "If the hook at the end of a transfer is executed (it deletes the file that was to be deleted on pull), then every piece of the announced length was sent.", "quantifier": "All sources, failures, stops and orders of events.", "why_tests_cant": "The hook of a failed transfer is only seen when a read or an encryption fails in the middle.", "anchors": ["citadel_crypt/src/scramble/streaming_crypt_scrambler.rs:195-430", "citadel_proto/src/proto/session.rs:1440-1443", "citadel_proto/src/proto/session.rs:1697-1893", "citadel_proto/src/proto/packet_processor/file_packet.rs:270-300"]}
{"id": "C233", "title": "Every size of groups is accepted or refused", "statement": "For every requested size of groups, opening a source either refuses the size with an error, or announces the least number of groups of this size that hold the source.", "quantifier": "All sizes, lengths and sources.", "why_tests_cant": "The builder of the SDK replaces zero, so that tests never pass it through NodeRequest::SendObject.", "anchors": ["citadel_crypt/src/scramble/streaming_crypt_scrambler.rs:218-234", "citadel_proto/src/proto/node_request.rs:70-80"]}
{"id": "C234", "title": "A source is read no faster than the receiver asks", "statement": "At any time at most six groups more than were sent have been read from the source, nothing is sent before the receiver accepts, and at most one group for each time the receiver asked, and one.", "quantifier": "All runs of all transfers.", "why_tests_cant": "The bound is over all interleavings of reader, channel and receiver, for sources of any length.", "anchors": ["citadel_crypt/src/scramble/streaming_crypt_scrambler.rs:195-430", "citadel_proto/src/proto/session.rs:1440-1443", "citadel_proto/src/proto/session.rs:1697-1893", "citadel_proto/src/proto/state_container/outbound_transfer.rs:82-105"]}
{"id": "C235", "title": "A client that requires verified certificates is connected to nobody else", "statement": "With require_cert_verification set, the client ends up with a transport only if whoever is at the other end holds a certificate, under the client's roots, for the server that was meant.", "quantifier": "every first packet, every set of names the other end holds certificates for", "why_tests_cant": "An attacker that answers in place of the server is not part of any test; the first packet of every tested server is honest.", "anchors": ["citadel_proto/src/proto/misc/native_connect.rs:31-101", "citadel_proto/src/proto/misc/native_upgrade.rs:119-167", "citadel_proto/src/proto/misc/native_config.rs", "citadel_proto/src/proto/misc/native_io.rs:14-45"]}
{"id": "C236", "title": "An honest server is reached in each of its modes", "statement": "Under the default policy the client is connected to a server of every mode that holds the certificate of its configured domain; under the strict policy to every such server with a domain and to none that signed for itself; a configured domain is always verified.", "quantifier": "every mode, every domain, every set of names, both policies", "why_tests_cant": "Tests take one domain and one certificate per mode; the pairs of policy and mode are not all run.", "anchors": ["citadel_proto/src/proto/misc/native_connect.rs:31-101", "citadel_proto/src/proto/misc/native_upgrade.rs:119-167", "citadel_proto/src/proto/misc/native_config.rs", "citadel_proto/src/proto/misc/native_io.rs:14-45"]}
{"id": "C237", "title": "An attempt that fails does not end the listener", "statement": "Whatever the connecting sides do, the listener of the server goes on accepting.", "quantifier": "every kind of listener, every state, every continuation", "why_tests_cant": "Tests connect well-behaved clients; a client that resets between accept and the first packet is a matter of timing.", "anchors": ["citadel_proto/src/proto/misc/net.rs:158-759", "citadel_wire/src/standard/quic.rs:134-151", "citadel_proto/src/proto/node.rs:320-373"]}
{"id": "C238", "title": "Attempts do not wait for each other", "statement": "An attempt that has arrived and completes its own handshake is handed to the node whatever the other attempts do or leave undone.", "quantifier": "every kind of listener, every history of other attempts", "why_tests_cant": "A client that stops in the middle of its handshake is not in the tests, and no finite wait shows that others are never served.", "anchors": ["citadel_proto/src/proto/misc/net.rs:158-759", "citadel_wire/src/standard/quic.rs:134-151", "citadel_proto/src/proto/node.rs:320-373"]}
{"id": "C239", "title": "The node gets attempts that succeeded, and each of them once", "statement": "Every stream handed to the node belongs to an attempt that arrived and whose handshake succeeded, no attempt is handed over twice, and the redirecting listener hands over nothing.", "quantifier": "every kind of listener, every interleaving", "why_tests_cant": "The interleavings of accepts, handshakes and polls cannot be enumerated by runs.", "anchors": ["citadel_proto/src/proto/misc/net.rs:158-759", "citadel_wire/src/standard/quic.rs:134-151", "citadel_proto/src/proto/node.rs:320-373"]}
{"id": "C240", "title": "Every packet is worked on once, in turn, and no more at a time than the limit", "statement": "Each packet that arrived at a session is waiting, being worked on, done or given up, and only one of these; packets are begun in the order of arrival; at most INBOUND_CONCURRENCY_LIMIT are worked on at once; a hole punch that ended got the packet it waited for.", "quantifier": "every limit, every interleaving of arrivals, polls, returns and time limits", "why_tests_cant": "The order in which concurrent handlers return is up to the scheduler.", "anchors": ["citadel_proto/src/proto/session.rs:1075-1120", "citadel_proto/src/lib.rs:274-278", "citadel_proto/src/proto/packet_processor/peer/peer_cmd_packet.rs:738-757", "citadel_proto/src/proto/packet_processor/peer/peer_cmd_packet.rs:917-936", "citadel_proto/src/proto/packet_processor/peer/peer_cmd_packet.rs:1023-1038", "citadel_proto/src/proto/misc/native_io_platform.rs:99-160", "citadel_proto/src/proto/misc/wasm_p2p.rs:12-215"]}
{"id": "C241", "title": "Whatever arrives at a session is worked on in the end", "statement": "No packets of peers keep a session from working on the packets that come after them.", "quantifier": "every limit, every arrival, every continuation", "why_tests_cant": "Needs as many hole punches at a time as the limit of 64, and that nothing ever happens again cannot be seen in a run.", "anchors": ["citadel_proto/src/proto/session.rs:1075-1120", "citadel_proto/src/lib.rs:274-278", "citadel_proto/src/proto/packet_processor/peer/peer_cmd_packet.rs:738-757", "citadel_proto/src/proto/packet_processor/peer/peer_cmd_packet.rs:917-936", "citadel_proto/src/proto/packet_processor/peer/peer_cmd_packet.rs:1023-1038", "citadel_proto/src/proto/misc/native_io_platform.rs:99-160", "citadel_proto/src/proto/misc/wasm_p2p.rs:12-215"]}
{"id": "C242", "title": "With time limits no session is stuck for ever", "statement": "On nodes whose hole punches have time limits, from every state the session can bring every packet that arrived to an end.", "quantifier": "every limit above zero, every reachable state", "why_tests_cant": "The states with all slots taken are not reached by tests.", "anchors": ["citadel_proto/src/proto/session.rs:1075-1120", "citadel_proto/src/lib.rs:274-278", "citadel_proto/src/proto/packet_processor/peer/peer_cmd_packet.rs:738-757", "citadel_proto/src/proto/packet_processor/peer/peer_cmd_packet.rs:917-936", "citadel_proto/src/proto/packet_processor/peer/peer_cmd_packet.rs:1023-1038", "citadel_proto/src/proto/misc/native_io_platform.rs:99-160", "citadel_proto/src/proto/misc/wasm_p2p.rs:12-215"]}
{"id": "C243", "title": "A hole punch whose packets have arrived is not given up", "statement": "If the packet of the other side that a hole punch waits for has arrived, the session passes it on before it gives the hole punch up.", "quantifier": "every limit, every interleaving", "why_tests_cant": "Needs as many simultaneous hole punches as the limit.", "anchors": ["citadel_proto/src/proto/session.rs:1075-1120", "citadel_proto/src/lib.rs:274-278", "citadel_proto/src/proto/packet_processor/peer/peer_cmd_packet.rs:738-757", "citadel_proto/src/proto/packet_processor/peer/peer_cmd_packet.rs:917-936", "citadel_proto/src/proto/packet_processor/peer/peer_cmd_packet.rs:1023-1038", "citadel_proto/src/proto/misc/native_io_platform.rs:99-160", "citadel_proto/src/proto/misc/wasm_p2p.rs:12-215"]}
{"id": "C244", "title": "A browser gives a peer channel to its kernel once", "statement": "In a hole punch between two browsers each end gives its channel to the kernel at most once, just when its hole punch is over, and what is over does not change any more.", "quantifier": "every interleaving of the steps of both ends, every choice of failing steps", "why_tests_cant": "Interleavings and failures of browser interfaces cannot be enumerated by tests.", "anchors": ["citadel_proto/src/proto/misc/wasm_p2p.rs:12-104", "citadel_proto/src/proto/misc/wasm_p2p.rs:111-215", "citadel_proto/src/proto/misc/wasm_p2p.rs:254-318", "citadel_proto/src/proto/misc/wasm_rtc.rs:63-295", "citadel_proto/src/proto/packet_processor/peer/peer_cmd_packet.rs:700-757", "citadel_proto/src/proto/packet_processor/peer/peer_cmd_packet.rs:890-936", "citadel_proto/src/proto/packet_processor/peer/peer_cmd_packet.rs:1023-1038", "citadel_proto/src/proto/packet_processor/peer/peer_cmd_packet.rs:1793-1815"]}
{"id": "C245", "title": "Whatever becomes of WebRTC, both browsers get their channel", "statement": "Whether the hole punch between two browsers succeeds or fails, each end comes to give its channel (direct or relayed) to the kernel.", "quantifier": "every interleaving of the steps of both ends, every choice of failing steps", "why_tests_cant": "The failure is a wait without end, which depends on the order of a signal and a registration, or on a failing peer.", "anchors": ["citadel_proto/src/proto/misc/wasm_p2p.rs:12-104", "citadel_proto/src/proto/misc/wasm_p2p.rs:111-215", "citadel_proto/src/proto/misc/wasm_p2p.rs:254-318", "citadel_proto/src/proto/misc/wasm_rtc.rs:63-295", "citadel_proto/src/proto/packet_processor/peer/peer_cmd_packet.rs:700-757", "citadel_proto/src/proto/packet_processor/peer/peer_cmd_packet.rs:890-936", "citadel_proto/src/proto/packet_processor/peer/peer_cmd_packet.rs:1023-1038", "citadel_proto/src/proto/packet_processor/peer/peer_cmd_packet.rs:1793-1815"]}
{"id": "C246", "title": "Two browsers agree whether their connection is direct", "statement": "Of the two ends of a connection between browsers it is never the case that one has ended with a direct connection and the other with the relayed one.", "quantifier": "every interleaving of the steps of both ends, every choice of failing steps", "why_tests_cant": "Needs an error of the data channel at one end just after it has opened at the other.", "anchors": ["citadel_proto/src/proto/misc/wasm_p2p.rs:12-104", "citadel_proto/src/proto/misc/wasm_p2p.rs:111-215", "citadel_proto/src/proto/misc/wasm_p2p.rs:254-318", "citadel_proto/src/proto/misc/wasm_rtc.rs:63-295", "citadel_proto/src/proto/packet_processor/peer/peer_cmd_packet.rs:700-757", "citadel_proto/src/proto/packet_processor/peer/peer_cmd_packet.rs:890-936", "citadel_proto/src/proto/packet_processor/peer/peer_cmd_packet.rs:1023-1038", "citadel_proto/src/proto/packet_processor/peer/peer_cmd_packet.rs:1793-1815"]}
{"id": "C247", "title": "A direct connection between browsers was made by both", "statement": "An end has a direct connection only after the initiator has made its offer and the responder its answer; only answers wait at the initiator, and only offers at the responder.", "quantifier": "every interleaving of the steps of both ends, every choice of failing steps", "why_tests_cant": "A statement about all interleavings.", "anchors": ["citadel_proto/src/proto/misc/wasm_p2p.rs:12-104", "citadel_proto/src/proto/misc/wasm_p2p.rs:111-215", "citadel_proto/src/proto/misc/wasm_p2p.rs:254-318", "citadel_proto/src/proto/misc/wasm_rtc.rs:63-295", "citadel_proto/src/proto/packet_processor/peer/peer_cmd_packet.rs:700-757", "citadel_proto/src/proto/packet_processor/peer/peer_cmd_packet.rs:890-936", "citadel_proto/src/proto/packet_processor/peer/peer_cmd_packet.rs:1023-1038", "citadel_proto/src/proto/packet_processor/peer/peer_cmd_packet.rs:1793-1815"]}
{"id": "C248", "title": "Tuned costs were measured to take the minimum", "statement": "When the tuner of the password hash returns settings, a hash with just these settings was measured to take at least the minimum asked for, and the settings do not change any more.", "quantifier": "every machine (time or failure of each hash in each round), every minimum, every amount of memory to begin with", "why_tests_cant": "A test sees one machine.", "anchors": ["citadel_crypt/src/argon/autotuner.rs:68-162", "citadel_crypt/src/argon/argon_container.rs:328-332"]}
{"id": "C249", "title": "Memory is tuned first, then the least number of passes", "statement": "The memory returned is the one begun with or the first step below one that took half of the minimum in one pass; one pass with it took less than half of the minimum, and each lower number of passes, from two on, less than the minimum.", "quantifier": "every machine, every minimum, every amount of memory to begin with", "why_tests_cant": "A test sees one machine.", "anchors": ["citadel_crypt/src/argon/autotuner.rs:68-162", "citadel_crypt/src/argon/argon_container.rs:328-332"]}
{"id": "C250", "title": "Each minimum leads to settings", "statement": "For each minimum the tuner ends and returns settings.", "quantifier": "every machine, every minimum", "why_tests_cant": "Tests use one minimum of 500 ms; small minima and slow machines are not tried.", "anchors": ["citadel_crypt/src/argon/autotuner.rs:68-162", "citadel_crypt/src/argon/argon_container.rs:328-332"]}
{"id": "C251", "title": "The memory of tuned settings is within what is free", "statement": "The tuner tries and returns no more memory than the machine has free (documented: memory cost is automatically capped at available system memory).", "quantifier": "every machine, every minimum, every amount of free memory", "why_tests_cant": "Needs a machine with little free memory.", "anchors": ["citadel_crypt/src/argon/autotuner.rs:68-162", "citadel_crypt/src/argon/argon_container.rs:328-332"]}
{"id": "C252", "title": "A window of a buffer is a buffer", "statement": "Each window that InPlaceBuffer::new accepts obeys what ciphers ask of a buffer: what it shows is as long as it says, and reading, writing, extending and truncating it do not panic and do what they do to a vector.", "quantifier": "all buffers, windows, and sequences of operations", "why_tests_cant": "All uses in the tests are windows of the whole buffer.", "anchors": ["citadel_pqcrypto/src/bytes_in_place.rs:42-89", "citadel_pqcrypto/src/lib.rs:713-738", "citadel_pqcrypto/src/lib.rs:741-781", "citadel_pqcrypto/src/lib.rs:788-830"]}
{"id": "C253", "title": "What is encrypted in a window is decrypted in it", "statement": "Encryption in place, in any accepted window, followed by decryption in place gives the bytes back.", "quantifier": "all ciphers that keep lengths and decrypt what they encrypt, all buffers and windows", "why_tests_cant": "All uses in the tests are windows of the whole buffer.", "anchors": ["citadel_pqcrypto/src/bytes_in_place.rs:42-89", "citadel_pqcrypto/src/lib.rs:713-738", "citadel_pqcrypto/src/lib.rs:741-781", "citadel_pqcrypto/src/lib.rs:788-830"]}
{"id": "C254", "title": "Encryption in place agrees with encryption of a copy", "statement": "encrypt_in_place and decrypt_in_place give just the bytes of encrypt and decrypt, for any bytes, without panics; a packet that is protected in place is validated to its payload, and what is validated was opened with a fresh counter.", "quantifier": "all ciphers, all bytes, all capacities", "why_tests_cant": "All bytes and lengths.", "anchors": ["citadel_pqcrypto/src/bytes_in_place.rs:42-89", "citadel_pqcrypto/src/lib.rs:713-738", "citadel_pqcrypto/src/lib.rs:741-781", "citadel_pqcrypto/src/lib.rs:788-830"]}
{"id": "C255", "title": "A failure in place leaves the packet as it was", "statement": "When protecting or validating a packet in place fails, the buffer holds what it held before.", "quantifier": "all keys, packets and header lengths", "why_tests_cant": "Tests do not look at the buffer after an error.", "anchors": ["citadel_pqcrypto/src/bytes_in_place.rs:42-89", "citadel_pqcrypto/src/lib.rs:713-738", "citadel_pqcrypto/src/lib.rs:741-781", "citadel_pqcrypto/src/lib.rs:788-830"]}
{"id": "C256", "title": "The kernel writes only to buffers that are there", "statement": "The kernel never writes a datagram to the buffer of a slot that was freed or that the thread reads from at that time.", "quantifier": "all numbers of slots, all orders of completions, steps of the thread, failures and the drop of the receiver", "why_tests_cant": "A datagram must come between the drop of the slots and that of the ring; the write to freed memory is not seen by a test.", "anchors": ["citadel_io/src/standard/udp_io_uring.rs:150-243", "citadel_io/src/standard/udp_io_uring.rs:48-85"]}
{"id": "C257", "title": "The receiver gets what the kernel took, in its order", "statement": "What the receiver is given is a prefix of what the kernel completed, each once and in its order; while the receiver is there the rest is in the queues.", "quantifier": "all runs", "why_tests_cant": "All interleavings of completions with the steps of the thread.", "anchors": ["citadel_io/src/standard/udp_io_uring.rs:150-243", "citadel_io/src/standard/udp_io_uring.rs:48-85"]}
{"id": "C258", "title": "No slot is lost and the submission queue is never full", "statement": "Before the ring is dropped each slot is at just one place: submission queue, kernel, completion queue or work; the submission queue always has room for a slot that is submitted again.", "quantifier": "all runs", "why_tests_cant": "All interleavings of completions with the steps of the thread.", "anchors": ["citadel_io/src/standard/udp_io_uring.rs:150-243", "citadel_io/src/standard/udp_io_uring.rs:48-85"]}
{"id": "C259", "title": "When the receive loop ends", "statement": "After the receiver is dropped the loop ends from every state, without anything from the kernel; while it is there and the ring works, the loop is left just after an error was handed on.", "quantifier": "all runs", "why_tests_cant": "All states in which the receiver is dropped.", "anchors": ["citadel_io/src/standard/udp_io_uring.rs:150-243", "citadel_io/src/standard/udp_io_uring.rs:48-85"]}
{"id": "C260", "title": "Threads that confirm packets at the same time lose no confirmation", "statement": "In every order in which threads read the clock and store it, the atomic holds the largest time that was stored, and never goes back.", "quantifier": "all interleavings of any number of threads", "why_tests_cant": "The loss needs a thread that is late between its read and its store.", "anchors": ["citadel_proto/src/proto/state_subcontainers/meta_expiry_container.rs:33-63"]}
{"id": "C261", "title": "The meta expiry is just more than a minute of silence", "statement": "The state says expired just when more than 60 seconds passed since it was made and since each stored confirmation.", "quantifier": "all interleavings, clocks below 2^64 ns", "why_tests_cant": "Tests do not wait for a minute, nor at its edge.", "anchors": ["citadel_proto/src/proto/state_subcontainers/meta_expiry_container.rs:33-63"]}
{"id": "C262", "title": "The rate of a transfer is the bytes of a sample over the time since the last", "statement": "When time has passed between two samples, the transfer rate is the bytes of the second over that time.", "quantifier": "all samples", "why_tests_cant": "The test has samples just one second apart and takes the change of the bytes for the rate.", "anchors": ["citadel_proto/src/proto/transfer_stats.rs:25-66"]}
{"id": "C263", "title": "The total of a transfer is the sum of its samples", "statement": "The total is the sum of the bytes of all samples added, up to the wrap of 64 bits, and in the range of isize.", "quantifier": "all sequences of samples", "why_tests_cant": "All sequences, also those that wrap.", "anchors": ["citadel_proto/src/proto/transfer_stats.rs:25-66"]}
