{
 "claims": [
  {
   "property": "C01",
   "status": "proved",
   "theorems": [
    "Verif.Replay.C01_accept_at_most_once"
   ],
   "note": "Two acceptances of the same id in any history are separated by a reset."
  },
  {
   "property": "C02",
   "status": "proved",
   "theorems": [
    "Verif.Replay.C02_accept_iff",
    "Verif.Replay.C02_reordering_within_window_lossless"
   ],
   "note": "Exact acceptance criterion after any history, plus lossless bounded reordering."
  },
  {
   "property": "C03",
   "status": "proved",
   "theorems": [
    "Verif.Replay.C03_memory_bounded",
    "Verif.Replay.C03_1025_reached"
   ],
   "note": "1025 always, 1024 unless u64::MAX is received; the 1025 case is reached."
  },
  {
   "property": "C04",
   "status": "proved",
   "theorems": [
    "Verif.Packet.C04_accepted_among_sent",
    "Verif.Packet.C04_rejected_changes_nothing",
    "Verif.Packet.C04_genuine_accepted"
   ],
   "note": "AEAD authenticity is the hypothesis Unforged (no delivered ciphertext opens unless the sender produced it)."
  },
  {
   "property": "C05",
   "status": "proved",
   "theorems": [
    "Verif.Toolset.C05_lookup_is_committed_ratchet",
    "Verif.Toolset.C05_lookup_range"
   ],
   "note": ""
  },
  {
   "property": "C06",
   "status": "proved",
   "theorems": [
    "Verif.Toolset.C06_update_gate",
    "Verif.Toolset.C06_deregister_gate"
   ],
   "note": ""
  },
  {
   "property": "C07",
   "status": "proved",
   "theorems": [
    "Verif.Toolset.C07_static_constant",
    "Verif.Toolset.C07_never_empty",
    "Verif.Toolset.C07_memory_bounded"
   ],
   "note": ""
  },
  {
   "property": "C08",
   "status": "proved",
   "theorems": [
    "Verif.Ordered.C08_output_is_numbered_prefix",
    "Verif.Ordered.C08_output_grows",
    "Verif.Ordered.C08_honest_output"
   ],
   "note": ""
  },
  {
   "property": "C09",
   "status": "proved",
   "theorems": [
    "Verif.Ordered.C09_everything_deliverable_is_delivered",
    "Verif.Ordered.C09_counterexample_after_wraparound"
   ],
   "note": "Holds until the 64-bit counter wraps; the counterexample shows the behaviour after 2^64 messages."
  },
  {
   "property": "C10",
   "status": "proved",
   "theorems": [
    "Verif.Toggle.C10_answer_exact",
    "Verif.Toggle.C10_questions_exact",
    "Verif.Toggle.C10_one_winner",
    "Verif.Toggle.C10_guard_lowers"
   ],
   "note": ""
  },
  {
   "property": "C11",
   "status": "proved",
   "theorems": [
    "Verif.Splitter.C11_coordinates_invertible",
    "Verif.Splitter.C11_coordinates_distinct",
    "Verif.Splitter.C11_position_in_wave"
   ],
   "note": ""
  },
  {
   "property": "C12",
   "status": "partial",
   "theorems": [
    "Verif.Splitter.C12_reassembly_partial",
    "Verif.Splitter.C12_symmetric_partial",
    "Verif.Splitter.C12_sender_accepts",
    "Verif.Splitter.C12_counterexample_hybrid"
   ],
   "note": "Proved for every cipher whose full waves are exactly 14 packets, hence all symmetric algorithms and every length, order and duplication; false for hybrid encryption at whole-wave lengths (counterexample)."
  },
  {
   "property": "C13",
   "status": "partial",
   "theorems": [
    "Verif.Splitter.C13_file_transfer_partial",
    "Verif.Splitter.C13_refreshed",
    "Verif.Splitter.C13_counterexample",
    "Verif.Splitter.C13_counterexample_preencrypted"
   ],
   "note": "False: multiples of 7032 bytes and full-size pre-encrypted groups are rejected (counterexamples); proved for all other lengths."
  },
  {
   "property": "C14",
   "status": "proved",
   "theorems": [
    "Verif.Splitter.C14_repeat_changes_nothing",
    "Verif.Splitter.C14_counts_each_once",
    "Verif.Splitter.C14_finishes_once"
   ],
   "note": ""
  },
  {
   "property": "C15",
   "status": "partial",
   "theorems": [
    "Verif.Splitter.C15_reported_are_missing_partial",
    "Verif.Splitter.C15_exact_partial",
    "Verif.Splitter.C15_missing_count",
    "Verif.Splitter.C15_counterexample_first",
    "Verif.Splitter.C15_counterexample_recent"
   ],
   "note": "The wave report is false before wave 0 and relative to the most recent rather than the highest wave (counterexamples); proved: no panic, all reported waves are missing, exact relative to the most recent wave once wave 0 is there, packet count exact."
  },
  {
   "property": "C16",
   "status": "partial",
   "theorems": [
    "Verif.Splitter.C16_complete_iff_all_acked_partial",
    "Verif.Splitter.C16_receiver_acks_once",
    "Verif.Splitter.C16_end_to_end_partial",
    "Verif.Splitter.C16_file_transfer_consistent",
    "Verif.Splitter.C16_counterexample_repeated",
    "Verif.Splitter.C16_counterexample_multiple"
   ],
   "note": "False for repeated acknowledgements and for pre-encrypted transfers of whole waves (counterexamples); proved when no wave is acknowledged twice, which receivers guarantee."
  },
  {
   "property": "C17",
   "status": "proved",
   "theorems": [
    "Verif.SecPacket.C17_roundtrip",
    "Verif.SecPacket.C17_write_succeeds",
    "Verif.SecPacket.C17_overflow_panics"
   ],
   "note": "Full round trip for every build that succeeds; writing succeeds whenever header + payload + 4 < 2^32 and panics beyond when an extension is written (C17_overflow_panics)."
  },
  {
   "property": "C18",
   "status": "proved",
   "theorems": [
    "Verif.SecPacket.C18_extract_in_bounds"
   ],
   "note": "All byte strings."
  },
  {
   "property": "C19",
   "status": "proved",
   "theorems": [
    "Verif.Layered.C19_roundtrip",
    "Verif.Layered.C19_session",
    "Verif.Layered.C19_layers_used",
    "Verif.Layered.C19_refused"
   ],
   "note": "At most 256 layers (a security level is a u8). Validation requires the anti-replay check to accept; C19_session shows it does for fresh endpoints."
  },
  {
   "property": "C20",
   "status": "proved",
   "theorems": [
    "Verif.Types.C20_roundtrip",
    "Verif.Types.C20_decode_sound",
    "Verif.Types.C20_injective",
    "Verif.Types.C20_security_level"
   ],
   "note": ""
  },
  {
   "property": "C21",
   "status": "proved",
   "theorems": [
    "Verif.TreeMath.C21_children",
    "Verif.TreeMath.C21_parent",
    "Verif.TreeMath.C21_root",
    "Verif.TreeMath.C21_direct_path",
    "Verif.TreeMath.C21_path_length",
    "Verif.TreeMath.C21_path_is_ancestors",
    "Verif.TreeMath.C21_root_covers",
    "Verif.TreeMath.C21_u32"
   ],
   "note": "For every n>=1: every non-root node's parent is inside the tree, is an inner node, and has the node as one of its two children (the sibling being the other); children of inner nodes are inside, distinct and have that node as parent; the root is inside and nobody's child; direct paths ascend by parents, stay inside, end at the root, are logarithmic, and are exactly the ancestors. On u32 (n <= 2^31, the bound of the index type) no function panics, overflows or loops and all agree with the natural-number versions."
  },
  {
   "property": "C22",
   "status": "proved",
   "theorems": [
    "Verif.TreeMath.C22_copath_covers",
    "Verif.TreeMath.C22_copath_excludes",
    "Verif.TreeMath.C22_copath_inside"
   ],
   "note": "For every n and leaf: each other leaf lies below exactly one position of the co-path, the leaf itself below none, and co-path subtrees stay inside the tree. C21_u32 carries it to u32."
  },
  {
   "property": "C23",
   "status": "partial",
   "theorems": [
    "Verif.TreeKem.C23_resolution_partial",
    "Verif.TreeKem.C23_counterexample"
   ],
   "note": "Proved for every tree a group reaches by any history. Missing, and false: trees as taken from a Welcome without checks (counterexample: an unmerged leaf outside the tree)."
  },
  {
   "property": "C24",
   "status": "proved",
   "theorems": [
    "Verif.TreeKem.C24_agreement",
    "Verif.TreeKem.C24_no_failure",
    "Verif.TreeKem.C24_members",
    "Verif.TreeKem.C24_epoch"
   ],
   "note": "All histories of updates, joins and removals by any member, all primitives that satisfy the round trip laws, leaf counts below 2^31; also that no operation fails or panics at anyone and that members are the occupied leaves."
  },
  {
   "property": "C25",
   "status": "proved",
   "theorems": [
    "Verif.TreeKem.C25_removed_member",
    "Verif.TreeKem.C25_later_messages",
    "Verif.TreeKem.C25_members_know"
   ],
   "note": "Symbolic cryptography on the functions proved correct in C24. The attacker reads everything sent and the whole state of its leaves; its leaf follows the protocol while it is a member. Holds for epoch, encryption, confirmation and membership secrets and for messages."
  },
  {
   "property": "C26",
   "status": "proved",
   "theorems": [
    "Verif.TreeKem.C26_joining_member",
    "Verif.TreeKem.C26_earlier_messages"
   ],
   "note": "As C25. The init secret of the epoch right before the join is handed to the joiner by design and is not one of the secrets claimed."
  },
  {
   "property": "C27",
   "status": "partial",
   "theorems": [
    "Verif.TreeKem.C27_generations",
    "Verif.TreeKem.C27_no_reuse_partial",
    "Verif.TreeKem.C27_epoch_bound",
    "Verif.TreeKem.C27_counterexample",
    "Verif.GroupCgka.C27_counterexample_replay"
   ],
   "note": "Generations count up, messages open in their epoch at every member and nowhere else, no reuse for up to 2^32 messages per member and epoch. Missing, and false: beyond that the u32 generation wraps and key and nonce repeat (counterexample)."
  },
  {
   "property": "C28",
   "status": "partial",
   "theorems": [
    "Verif.GroupCgka.C28_gate_partial",
    "Verif.GroupCgka.C28_in_order_partial",
    "Verif.GroupCgka.C28_missed_is_final_partial",
    "Verif.GroupCgka.C28_counterexample"
   ],
   "note": "Proved for the gate: commits for other epochs change nothing, applied epochs are consecutive and increasing. False when the relay announces a commit under another epoch: the epoch is not part of what the commit authenticates."
  },
  {
   "property": "C29",
   "status": "proved",
   "theorems": [
    "Verif.Hierarchy.C29_superior_reads",
    "Verif.Hierarchy.C29_not_superior",
    "Verif.Hierarchy.C29_member_reads",
    "Verif.Hierarchy.C29_assignment",
    "Verif.Hierarchy.C29_secrecy"
   ],
   "note": "isAncestorOf, node derivation, sealing and opening of messages and assignments as in the code; readers on lawful primitives, non-readers by symbolic (Dolev-Yao) derivability against any coalition"
  },
  {
   "property": "C30",
   "status": "proved",
   "theorems": [
    "Verif.Hierarchy.C30_only_ancestors",
    "Verif.Hierarchy.C30_stepwise",
    "Verif.Hierarchy.C30_self",
    "Verif.Hierarchy.C30_delegation",
    "Verif.Hierarchy.C30_one_way"
   ],
   "note": "for all primitives; one-wayness symbolically against any coalition"
  },
  {
   "property": "C31",
   "status": "partial",
   "theorems": [
    "Verif.Roster.C31_counterexample_self_accept",
    "Verif.Roster.C31_owner_consent_partial"
   ],
   "note": "False: a requester can accept itself (counterexample); proved when only the owner or invited peers accept."
  },
  {
   "property": "C32",
   "status": "partial",
   "theorems": [
    "Verif.Roster.C32_counterexample_forged_header",
    "Verif.Roster.C32_owner_only_partial"
   ],
   "note": "False: the owner check trusts the packet header (counterexample in every state); proved for honest headers."
  },
  {
   "property": "C33",
   "status": "partial",
   "theorems": [
    "Verif.Roster.C33_counterexample_outsider",
    "Verif.Roster.C33_recipients_exact_partial"
   ],
   "note": "Non-members can send (counterexample); proved: recipients are exactly the other active members."
  },
  {
   "property": "C34",
   "status": "partial",
   "theorems": [
    "Verif.Rekey.C34_coop_partial",
    "Verif.Rekey.C34_coop_is_preemptive",
    "Verif.Rekey.C34_coop_points",
    "Verif.Rekey.C34_counterexample_preemptive",
    "Verif.Rekey.C34_counterexample_preemptive_small"
   ],
   "note": "Proved for cooperative scheduling (a task runs up to its next await; blocking closures run beside it), toolset of at least 3 ratchets (the code keeps 6 or 32). False under a preemptive (multi-threaded) executor: two committed ratchets for version 2 that differ. Timeouts excluded."
  },
  {
   "property": "C35",
   "status": "partial",
   "theorems": [
    "Verif.Rekey.C35_peer_holds_partial",
    "Verif.Rekey.C35_same_key_partial",
    "Verif.Rekey.C35_in_flight_partial",
    "Verif.Rekey.C35_wire_is_channel_partial",
    "Verif.Rekey.C35_counterexample_two"
   ],
   "note": "Cooperative scheduling: the peer holds the sender's usable version with the same key (at least 3 ratchets); every packet on the wire, answers included, can be opened until it is delivered (at least 4 ratchets), and the wires are invisible to the protocol. Missing: a preemptive scheduler, packets that keep an older ratchet, overtaking packets. False with a toolset of 2."
  },
  {
   "property": "C36",
   "status": "partial",
   "theorems": [
    "Verif.Rekey.C36_monotone",
    "Verif.Rekey.C36_monotone_coop",
    "Verif.Rekey.C36_close_partial"
   ],
   "note": "Monotone: any scheduler, any state. Distance at most one: cooperative scheduling."
  },
  {
   "property": "C37",
   "status": "partial",
   "theorems": [
    "Verif.Messenger.C37_in_order",
    "Verif.Messenger.C37_all_arrive",
    "Verif.Messenger.C37_never_stuck_partial",
    "Verif.Messenger.C37_queue_drains_partial",
    "Verif.Messenger.C37_coop_is_run",
    "Verif.Messenger.C37_counterexample_failure",
    "Verif.Messenger.C37_counterexample_stuck",
    "Verif.Messenger.C37_counterexample_spins"
   ],
   "note": "Order, no duplicates and completeness at rest hold for all schedules of several threads. That waiting messages are always followed by an attempt to send them is proved for one thread only and is false for several threads (a wake-up gets lost); a failed call stalls the stream for good; the background task busy-waits during a re-key. Outcomes of trigger_rekey_with_payload are arbitrary."
  },
  {
   "property": "C38",
   "status": "proved",
   "theorems": [
    "Verif.Disconnect.C38_p2p_at_most_once",
    "Verif.Disconnect.C38_c2s_at_most_once",
    "Verif.Disconnect.C38_first_is_announced"
   ],
   "note": "All interleavings of the tracker calls; clear_session modelled as two separately locked steps."
  },
  {
   "property": "C39",
   "status": "partial",
   "theorems": [
    "Verif.Queue.C39_counterexample_task_lost",
    "Verif.Queue.C39_counterexample_crash",
    "Verif.Queue.C39_no_overwrite_partial"
   ],
   "note": "False in general: two ordinary tasks can get one ticket, one task is lost and the worker panics (both proved). Proved for group indices that do not decrease per peer."
  },
  {
   "property": "C40",
   "status": "proved",
   "theorems": [
    "Verif.NetSelect.C40_one_winner",
    "Verif.NetSelect.C40_global_failure",
    "Verif.NetSelect.C40_terminates"
   ],
   "note": "All schedules of completions and deliveries; FIFO channels trusted; stream errors left out."
  },
  {
   "property": "C41",
   "status": "partial",
   "theorems": [
    "Verif.NetTryJoin.C41_joint_success_partial",
    "Verif.NetTryJoin.C41_terminates",
    "Verif.NetTryJoin.C41_counterexample_success_despite_failure",
    "Verif.NetTryJoin.C41_counterexample_success_despite_failure'"
   ],
   "note": "Second half false of the code: a side keeps its own success although the peer failed (counterexamples). First half and termination proved."
  },
  {
   "property": "C42",
   "status": "proved",
   "theorems": [
    "Verif.NetMutex.C42_mutual_exclusion"
   ],
   "note": "All schedules and request times; FIFO channels and the local tokio mutex trusted; cancelled lock futures and Halt left out."
  },
  {
   "property": "C43",
   "status": "proved",
   "theorems": [
    "Verif.NetMutex.C43_latest_value"
   ],
   "note": "All schedules and values."
  },
  {
   "property": "C44",
   "status": "partial",
   "theorems": [
    "Verif.NetMutex.C44_counterexample_stuck_forever",
    "Verif.NetMutex.C44_reacquire_partial",
    "Verif.NetMutex.C44_quiescent_cases_partial",
    "Verif.NetMutex.C44_waiter_served_partial",
    "Verif.NetMutex.C44_handlers_survive"
   ],
   "note": "False of the code: after a contended round a release can be lost and the mutex is stuck for every continuation. Proved for executions without simultaneous requests; quiescent states classified; waiters in non-stuck states are served."
  },
  {
   "property": "C45",
   "status": "proved",
   "theorems": [
    "Verif.Multiplex.C45_ids_strictly_increase"
   ],
   "note": "Two honest endpoints, all interleavings including cancelled opens, any number of pre-reserved ids; 64-bit wrap-around excluded."
  },
  {
   "property": "C46",
   "status": "proved",
   "theorems": [
    "Verif.Mutuals.C46_symmetric",
    "Verif.Mutuals.C46_registration_effective"
   ],
   "note": ""
  },
  {
   "property": "C47",
   "status": "partial",
   "theorems": [
    "Verif.Mutuals.C47_counterexample_duplicate",
    "Verif.Mutuals.C47_exact",
    "Verif.Mutuals.C47_removed_partial"
   ],
   "note": "False when the same pair was registered twice (counterexample); proved: one deregistration removes exactly one entry, hence everything if registered once."
  },
  {
   "property": "C48",
   "status": "proved",
   "theorems": [
    "Verif.Types.C48_compare_is_equality"
   ],
   "note": ""
  },
  {
   "property": "C49",
   "status": "proved",
   "theorems": [
    "Verif.Types.C49_check_iff",
    "Verif.Types.C49_counterexample_characters",
    "Verif.Types.C49_default_iff"
   ],
   "note": "Lengths are UTF-8 byte counts, as in the code; the counterexample shows that the documented character counts are not what is checked."
  },
  {
   "property": "C50",
   "status": "proved",
   "theorems": [
    "Verif.Packet.C50_nonces_distinct"
   ],
   "note": ""
  },
  {
   "property": "C51",
   "status": "partial",
   "theorems": [
    "Verif.Packet.C51_at_most_once_per_period_partial",
    "Verif.Packet.C51_counterexample_across_reset"
   ],
   "note": "False of the code: the counters of the static auxiliary ratchet are reset at every session start while its keys stay (counterexample). Proved: at most once per period between resets, and always genuine."
  },
  {
   "property": "C52",
   "status": "partial",
   "theorems": [
    "Verif.Multiplex.C52_counterexample_after_cancel",
    "Verif.Multiplex.C52_ids_agree_partial"
   ],
   "note": "False after a cancelled open (counterexample proved); proved for histories without cancellation."
  },
  {
   "property": "C53",
   "status": "partial",
   "theorems": [
    "Verif.Multiplex.C53_counterexample_id_reuse",
    "Verif.Multiplex.C53_counterexample_crash",
    "Verif.Multiplex.C53_increasing_proposals_safe_partial"
   ],
   "note": "False: a proposed closed id is reopened and a proposed open id panics, from every such state; proved for increasing proposals."
  },
  {
   "property": "C54",
   "status": "partial",
   "theorems": [
    "Verif.Mutuals.C54_counterexample_concurrent",
    "Verif.Mutuals.C54_symmetric_partial"
   ],
   "note": "False for two opposite deregistrations interleaved with a registration (counterexample); proved when no two opposite deregistrations overlap."
  },
  {
   "property": "C55",
   "status": "partial",
   "theorems": [
    "Verif.PeerSignals.C55_counterexample_delete_any",
    "Verif.PeerSignals.C55_own_account_partial"
   ],
   "note": "False: the server trusts the cid in the packet header (counterexample in every state); proved for honest headers."
  },
  {
   "property": "C56",
   "status": "partial",
   "theorems": [
    "Verif.PeerSignals.C56_counterexample_uninvited",
    "Verif.PeerSignals.C56_consent_partial"
   ],
   "note": "False: an uninvited third client can answer (counterexample); proved when clients answer only invitations addressed to them."
  },
  {
   "property": "C57",
   "status": "partial",
   "theorems": [
    "Verif.PeerSignals.C57_counterexample_stale_posting",
    "Verif.PeerSignals.C57_reported_removed_partial"
   ],
   "note": "False with a stale posting (counterexample); proved without outstanding posting."
  },
  {
   "property": "C58",
   "status": "partial",
   "theorems": [
    "Verif.PeerSignals.C58_counterexample_self_answer",
    "Verif.PeerSignals.C58_blocked_forever",
    "Verif.PeerSignals.C58_never_blocked_partial"
   ],
   "note": "False: answering one's own request deadlocks the store for good (counterexample); proved when clients answer only invitations addressed to them."
  },
  {
   "property": "C59",
   "status": "partial",
   "theorems": [
    "Verif.Roster.C59_counterexample_outsider_key",
    "Verif.Roster.C59_counterexample_leave",
    "Verif.Roster.C59_counterexample_recreate",
    "Verif.Roster.C59_key_holders_are_members_partial"
   ],
   "note": "False: key packages of outsiders are accepted, leaving does not re-key, a recreated group keeps old leaves (three counterexamples); proved for disciplined histories."
  },
  {
   "property": "C60",
   "status": "partial",
   "theorems": [
    "Verif.SecPacket.C60_partitions_are_separate_partial",
    "Verif.SecPacket.C60_counterexample_wrapping"
   ],
   "note": "Holds with overflow checks, or below 4 GiB; without overflow checks the windows overlap above 4 GiB (counterexample)."
  },
  {
   "property": "C61",
   "status": "proved",
   "theorems": [
    "Verif.Layered.C61_local_roundtrip"
   ],
   "note": "At most 256 layers."
  },
  {
   "property": "C62",
   "status": "partial",
   "theorems": [
    "Verif.KeyStore.C62_counterexample",
    "Verif.KeyStore.C62_local_decrypt_partial"
   ],
   "note": "False of the code: the peer opens locally encrypted contents with ordinary decryption (hybrid: with its copy of the sender's AES key), proved for every session. Partial: the owner restores them and the peer's local_decrypt refuses them."
  },
  {
   "property": "C63",
   "status": "proved",
   "theorems": [
    "Verif.KeyStore.C63_sessions_agree"
   ],
   "note": "Induction over re-keys and layers; KEM, AEAD, signatures assumed correct."
  },
  {
   "property": "C64",
   "status": "partial",
   "theorems": [
    "Verif.KeyStore.C64_counterexample_bob",
    "Verif.KeyStore.C64_counterexample_alice",
    "Verif.KeyStore.C64_hostile_transfer_partial"
   ],
   "note": "False of the code in two mixed-up cases (counterexamples for every previous chain); partial: every other transfer is handled without panic and accepted signatures are valid."
  },
  {
   "property": "C65",
   "status": "proved",
   "theorems": [
    "Verif.Hybrid.C65_roundtrip"
   ],
   "note": "Primitives assumed correct; lengths below 2^64."
  },
  {
   "property": "C66",
   "status": "proved",
   "theorems": [
    "Verif.Hybrid.C66_hostile_input"
   ],
   "note": "No assumption on the primitives."
  },
  {
   "property": "C67",
   "status": "proved",
   "theorems": [
    "Verif.KeyStore.C67_passwords_bind",
    "Verif.KeyStore.C67_raw_keys_do_not_bind"
   ],
   "note": "Equal keys give equal password lists or an explicit collision among the named hash evaluations. Raw pre-shared keys at the low-level interface are only concatenated (C67_raw_keys_do_not_bind)."
  },
  {
   "property": "C68",
   "status": "partial",
   "theorems": [
    "Verif.Splitter.C68_no_panic_partial",
    "Verif.Splitter.C68_counterexample",
    "Verif.Splitter.C68_counterexample_wide"
   ],
   "note": "False for descriptions that disagree with the port range (counterexamples); proved for descriptions of the sender's shape."
  },
  {
   "property": "C69",
   "status": "partial",
   "theorems": [
    "Verif.Splitter.C69_finished_is_complete_partial",
    "Verif.Splitter.C69_symmetric_partial",
    "Verif.Splitter.C69_counterexample",
    "Verif.Splitter.C69_counterexample_undecrypted"
   ],
   "note": "False for hostile descriptions (counterexamples); proved when a wave of ciphertext cannot decrypt to more than a wave of plaintext, in particular for honest descriptions and any packets."
  },
  {
   "property": "C70",
   "status": "partial",
   "theorems": [
    "Verif.Splitter.C70_windows_genuine_partial",
    "Verif.Splitter.C70_counterexample"
   ],
   "note": "False: exchanging wave ids in headers exchanges parts of the file (counterexample for all ciphers and files of three or more waves); proved: every window of a finished group is some wave the sender encrypted."
  },
  {
   "property": "C71",
   "status": "partial",
   "theorems": [
    "Verif.GroupCgka.C71_messages_partial",
    "Verif.GroupCgka.C71_commits_partial",
    "Verif.GroupCgka.C71_counterexample",
    "Verif.GroupCgka.C71_counterexample_welcome"
   ],
   "note": "False: a key package or Welcome that does not deserialize, or that reaches a client that is not the owner or has no entry, ends the session. Proved for messages and for commits of other epochs."
  },
  {
   "property": "C72",
   "status": "proved",
   "theorems": [
    "Verif.GroupCgka.C72_no_failure",
    "Verif.GroupCgka.C72_agreement",
    "Verif.GroupCgka.C72_catch_up",
    "Verif.GroupCgka.C72_settles"
   ],
   "note": "Server lets each client in once and the owner does not kick itself (Proper); epochs below 2^64 and fewer than 2^31 leaves."
  },
  {
   "property": "C73",
   "status": "partial",
   "theorems": [
    "Verif.GroupCgka.C73_faithful_partial",
    "Verif.GroupCgka.C73_counterexample"
   ],
   "note": "False: key packages are not authenticated end to end, so the relay gets in with its own key. Proved for a faithful relay."
  },
  {
   "property": "C74",
   "status": "partial",
   "theorems": [
    "Verif.GroupCgka.C74_counterexample",
    "Verif.TreeKem.C25_removed_member"
   ],
   "note": "False: path.leaf_index is not tied to the sender. C25 is the version for members that follow the protocol."
  },
  {
   "property": "C75",
   "status": "partial",
   "theorems": [
    "Verif.GroupCgka.C75_no_entry_partial",
    "Verif.GroupCgka.C75_counterexample",
    "Verif.GroupCgka.C75_counterexample_replay"
   ],
   "note": "False: a forged or replayed Welcome replaces the state, and with a replay message keys repeat (C27). Proved only for clients that have not published a key package."
  },
  {
   "property": "C76",
   "status": "partial",
   "theorems": [
    "Verif.GroupCgka.C76_one_leaf_partial",
    "Verif.GroupCgka.C76_faithful_partial",
    "Verif.GroupCgka.C76_counterexample"
   ],
   "note": "False when two leaves carry the cid. Proved for one leaf, and for all executions with a faithful relay."
  },
  {
   "property": "C77",
   "status": "partial",
   "theorems": [
    "Verif.TreeKem.C77_committer_partial",
    "Verif.TreeKem.C77_counterexample"
   ],
   "note": "False for members that do not commit (all but the owner): the leaf secret they joined with opens every epoch since. Proved for the committer."
  },
  {
   "property": "C78",
   "status": "partial",
   "theorems": [
    "Verif.GroupCgka.C78_first_join_partial",
    "Verif.GroupCgka.C78_counterexample",
    "Verif.GroupCgka.C78_counterexample_race"
   ],
   "note": "False: the entry of the first membership is never removed, so no second key package is published; let in again before the removal is relayed, the client's session ends. Proved for the first time."
  },
  {
   "property": "C79",
   "status": "partial",
   "theorems": [
    "Verif.GroupCgka.C79_joined_partial",
    "Verif.GroupCgka.C79_counterexample"
   ],
   "note": "False while the key package is under way. Proved for a client that has joined, faithful relay, for all later times."
  },
  {
   "property": "C80",
   "status": "partial",
   "theorems": [
    "Verif.GroupCgka.C80_same_epoch_partial",
    "Verif.GroupCgka.C80_counterexample",
    "Verif.GroupCgka.C80_counterexample_general"
   ],
   "note": "False across a commit: the message is dropped silently. Proved within an epoch."
  },
  {
   "property": "C81",
   "status": "partial",
   "theorems": [
    "Verif.GroupCgka.C81_counterexample",
    "Verif.TreeKem.C25_removed_member"
   ],
   "note": "False: LeaveRoom does not rekey. What holds is C76/C79 after a kick (C25 for the keys)."
  },
  {
   "property": "C82",
   "status": "partial",
   "theorems": [
    "Verif.Rekey.C82_no_error_partial",
    "Verif.Rekey.C82_error_is_seen",
    "Verif.Rekey.C82_ready_partial",
    "Verif.Rekey.C82_counterexample_stuck",
    "Verif.Rekey.C82_counterexample_error"
   ],
   "note": "Proved for cooperative scheduling. Under a preemptive executor a version barrier error and a stuck toggle are reachable (counterexamples)."
  },
  {
   "property": "C83",
   "status": "partial",
   "theorems": [
    "Verif.Rekey.C83_terminates",
    "Verif.Rekey.C83_terminates_coop",
    "Verif.Rekey.C83_no_deadlock",
    "Verif.Rekey.C83_comes_to_rest",
    "Verif.Rekey.C83_recovers_partial",
    "Verif.Rekey.C83_rekeys_partial"
   ],
   "note": "Termination bound and absence of deadlock hold for both schedulers, from any state; a ready pair re-keys: cooperative scheduling."
  },
  {
   "property": "C84",
   "status": "partial",
   "theorems": [
    "Verif.Rekey.C84_held_partial",
    "Verif.Rekey.C84_gone_for_good",
    "Verif.Rekey.C84_counterexample_small",
    "Verif.Rekey.C84_counterexample_large"
   ],
   "note": "Any scheduler, any state: a ratchet is held until the newest version is maxR - 1 above it, and never comes back once dropped. False for longer transfers: after 5 (31) re-keys during a transfer its groups can no longer be decrypted with a store of 6 (32)."
  },
  {
   "property": "C85",
   "status": "partial",
   "theorems": [
    "Verif.GroupIds.C85_server",
    "Verif.GroupIds.C85_peer_partial",
    "Verif.GroupIds.C85_counterexample_peer"
   ],
   "note": "Proved for connections to the server, and for peer connections without files. False otherwise: after the first file sent to a peer no later message is ever delivered, whatever arrives (counterexample for all continuations)."
  },
  {
   "property": "C86",
   "status": "partial",
   "theorems": [
    "Verif.Rekey.C86_non_initiator_partial",
    "Verif.Rekey.C86_initiator_partial",
    "Verif.Rekey.C86_counterexample"
   ],
   "note": "Cooperative scheduling: the non-initiator's messages use strictly increasing versions; the initiator uses a version at most twice, and it does use one twice when its proposal leaves after the peer's round has completed (counterexample)."
  },
  {
   "property": "C87",
   "status": "partial",
   "theorems": [
    "Verif.Transfer.C87_stored_when_reported",
    "Verif.Transfer.C87_received_is_complete_partial",
    "Verif.Transfer.C87_exact",
    "Verif.Transfer.C87_sender_complete",
    "Verif.Transfer.C87_no_error",
    "Verif.Transfer.C87_terminates",
    "Verif.Transfer.C87_at_the_end",
    "Verif.Transfer.C87_empty_never",
    "Verif.Transfer.C87_cut_flatten",
    "Verif.Transfer.C87_cut_length",
    "Verif.Transfer.C87_cut_sizes",
    "Verif.Transfer.C87_second_file_truncated",
    "Verif.Transfer.C87_counterexample"
   ],
   "note": "Exact: the receiver stores max 1 (n - start) groups; whole file iff start = 0 or n = 1. Sender's report, absence of errors and termination proved for all files."
  },
  {
   "property": "C88",
   "status": "partial",
   "theorems": [
    "Verif.Transfer.C88_round_trip_partial",
    "Verif.Transfer.C88_exact",
    "Verif.Transfer.C88_default_sizes",
    "Verif.Transfer.C88_counterexample"
   ],
   "note": "Exact condition on the sizes proved; with the default sizes only files of up to one group minus the growth come back."
  },
  {
   "property": "C89",
   "status": "partial",
   "theorems": [
    "Verif.Transfer.C89_all_but_last_group",
    "Verif.Transfer.C89_deleted_was_received_partial",
    "Verif.Transfer.C89_truncated_is_kept",
    "Verif.Transfer.C89_counterexample"
   ],
   "note": "Proved if the last group is one wave; otherwise everything but the last group."
  },
  {
   "property": "C90",
   "status": "partial",
   "theorems": [
    "Verif.FileStore.C90_isolation_partial",
    "Verif.FileStore.C90_reply_partial",
    "Verif.FileStore.C90_p2p_requests",
    "Verif.FileStore.C90_counterexample"
   ],
   "note": "False for clients of a server (C90_counterexample: the owner id is taken from the header or the metadata, which the sender chooses). Proved: isolation for any trace of packets that name the client they act for, including what a pull reveals; between peers the requests need no such hypothesis."
  },
  {
   "property": "C91",
   "status": "proved",
   "theorems": [
    "Verif.FileStore.C91_virtual_contained",
    "Verif.FileStore.C91_plain_contained",
    "Verif.FileStore.C91_areas_disjoint",
    "Verif.FileStore.C91_store_frame",
    "Verif.FileStore.C91_lookup_frame",
    "Verif.FileStore.C91_delete_frame"
   ],
   "note": "All names, virtual paths, ids and file systems; Unix paths without symbolic links."
  },
  {
   "property": "C92",
   "status": "partial",
   "theorems": [
    "Verif.FileStore.C92_consent_partial",
    "Verif.FileStore.C92_counterexample"
   ],
   "note": "False (C92_counterexample: a file header that claims a local encryption level is accepted without any request). Proved: any file without such a claim is written only after the user accepted this very file."
  },
  {
   "property": "C93",
   "status": "partial",
   "theorems": [
    "Verif.FileStore.C93_map_partial",
    "Verif.FileStore.C93_counterexample",
    "Verif.FileStore.C93_lookup_blocks",
    "Verif.FileStore.C93_written"
   ],
   "note": "False for paths with a component that ends in .vxe (C93_counterexample: they alias the metadata files). Proved: refinement to a map for all traces of all other paths; a store is specified by its reported success (lookups create directories that block later stores, C93_lookup_blocks)."
  },
  {
   "property": "C94",
   "status": "partial",
   "theorems": [
    "Verif.FileStore.C94_data_of_offerer_partial",
    "Verif.FileStore.C94_counterexample"
   ],
   "note": "False (C94_counterexample: files are keyed by the object id only, any peer or the server can add groups to the file of another). Proved: if the accepted packets with the same object id come from the same party."
  },
  {
   "property": "C95",
   "status": "partial",
   "theorems": [
    "Verif.NetRwLock.C95_exclusion_partial",
    "Verif.NetRwLock.C95_counterexample"
   ],
   "note": "False in general: a requester that loses a conflict against the other kind keeps the holder of that kind (the undo test compares equal kinds), so a write guard and a read guard coexist (C95_counterexample). Proved for all executions in which the endpoints never wait for locks of different kinds at the same time, with any number of crossed requests of the same kind and local readers."
  },
  {
   "property": "C96",
   "status": "partial",
   "theorems": [
    "Verif.NetRwLock.C96_latest_value_partial",
    "Verif.NetRwLock.C96_counterexample"
   ],
   "note": "False in general: a write guard over a Read holder leaves the holder in the store, and a local reader enters while the other endpoint writes (C96_counterexample). Proved for all executions in which the endpoints never wait for locks of different kinds at the same time."
  },
  {
   "property": "C97",
   "status": "partial",
   "theorems": [
    "Verif.NetRwLock.C97_no_panic_partial",
    "Verif.NetRwLock.C97_counterexample"
   ],
   "note": "False in general: a read guard over a Write holder panics when dropped (C97_counterexample). Proved for all executions in which the endpoints never wait for locks of different kinds at the same time."
  },
  {
   "property": "C98",
   "status": "partial",
   "theorems": [
    "Verif.NetRwLock.C98_at_rest_partial",
    "Verif.NetRwLock.C98_reacquire_partial",
    "Verif.NetRwLock.C98_counterexample_stuck_forever",
    "Verif.NetRwLock.C98_counterexample_waiter"
   ],
   "note": "False in general: a reader that entered while the lock was lent and leaves after the other endpoint releases into an endpoint that ignores it; proved stuck for every continuation (C98_counterexample_stuck_forever). Crossed writes leave a waiter at rest (C98_counterexample_waiter). Proved for executions in which only readers wait at the same time and no local reader uses a lent lock."
  },
  {
   "property": "C99",
   "status": "partial",
   "theorems": [
    "Verif.Login.C99_password_needed_partial",
    "Verif.Login.C99_counterexample_disabled_credentials"
   ],
   "note": "False when the attacker has the long-term key: credentials of the variant Disabled pass validate_credentials for accounts with a password. Proved for accounts whose long-term key the attacker does not have: the presented hash matches and was made from what a user entered."
  },
  {
   "property": "C100",
   "status": "proved",
   "theorems": [
    "Verif.Login.C100_client_authenticated"
   ],
   "note": "For every execution; injective agreement."
  },
  {
   "property": "C101",
   "status": "partial",
   "theorems": [
    "Verif.Login.C101_server_authenticated_partial",
    "Verif.Login.C101_counterexample_fake_server"
   ],
   "note": "False: handlers do not check the role, so a login session can be made to register an account for the attacker and to answer the attacker's SYN, and the attacker plays the server's part. Proved for sessions to which no SYN was delivered."
  },
  {
   "property": "C102",
   "status": "partial",
   "theorems": [
    "Verif.Login.C102_credentials_to_server_only_partial",
    "Verif.Login.C102_counterexample_fake_server"
   ],
   "note": "False by the same attack. Proved for sessions to which no SYN was delivered."
  },
  {
   "property": "C103",
   "status": "partial",
   "theorems": [
    "Verif.Login.C103_no_overwrite_partial",
    "Verif.Login.C103_counterexample_client_overwrites"
   ],
   "note": "False for clients: a finished registration overwrites a local account of the same user name. Proved for everything a node does otherwise."
  },
  {
   "property": "C104",
   "status": "partial",
   "theorems": [
    "Verif.Login.C104_password_works_partial",
    "Verif.Login.C104_exactly_trimmed",
    "Verif.Login.C104_transient_works",
    "Verif.Login.C104_counterexample_blank"
   ],
   "note": "Registration trims the password and login does not. Proved for passwords without white space around them, that exactly the trimmed password works if hashing does not collide, and that connections without password work."
  },
  {
   "property": "C105",
   "status": "partial",
   "theorems": [
    "Verif.Login.C105_no_panic_partial",
    "Verif.Login.C105_counterexample_two_syns",
    "Verif.Login.C105_counterexample_two_stage0",
    "Verif.Login.C105_counterexample_local_account"
   ],
   "note": "False in three ways (SYNs for two accounts, two STAGE0s, a SYN for the local account of CID 0). Proved for sessions that get at most one SYN or SYN-ACK, at most one STAGE0 or SUCCESS, and no SYN for CID 0."
  },
  {
   "property": "C106",
   "status": "partial",
   "theorems": [
    "Verif.Login.C106_channel_name_partial",
    "Verif.Login.C106_counterexample_foreign_name"
   ],
   "note": "False: the server takes the CID in the header of the client's STAGE0. Proved for accounts whose long-term key the attacker does not have (honest clients)."
  },
  {
   "property": "C107",
   "status": "partial",
   "theorems": [
    "Verif.Sessions.C107_one_per_account_partial",
    "Verif.Sessions.C107_one_session_partial",
    "Verif.Sessions.C107_counterexample"
   ],
   "note": "Proved when no SYN waits for the end of an earlier session, and, for one account, when some do but no other SYN for the account is let through meanwhile. In general false: C107_counterexample."
  },
  {
   "property": "C108",
   "status": "partial",
   "theorems": [
    "Verif.Sessions.C108_own_keys_partial",
    "Verif.Sessions.C108_keys_partial",
    "Verif.Sessions.C108_counterexample"
   ],
   "note": "As C107. In general false: C108_counterexample."
  },
  {
   "property": "C109",
   "status": "partial",
   "theorems": [
    "Verif.Sessions.C109_reachable_partial",
    "Verif.Sessions.C109_found_partial",
    "Verif.Sessions.C109_none_stale_partial",
    "Verif.Sessions.C109_counterexample_unreachable",
    "Verif.Sessions.C109_counterexample_stale",
    "Verif.Sessions.C109_counterexample_panic"
   ],
   "note": "Reachability as C107; no stale entries when no client reports a failure after its login and no logged in session panics. In general false, both ways."
  },
  {
   "property": "C110",
   "status": "partial",
   "theorems": [
    "Verif.Sessions.C110_let_through_partial",
    "Verif.Sessions.C110_let_through_later_partial",
    "Verif.Sessions.C110_login_partial",
    "Verif.Sessions.C110_counterexample_reservation",
    "Verif.Sessions.C110_counterexample_locked_out"
   ],
   "note": "Proved, with the whole login, when no client reports a failure after its login, no logged in session panics and there is no reservation of the last 30 seconds. In general false: an account can be locked for 30 seconds by anybody, and forever after a FAILURE packet of its owner."
  },
  {
   "property": "C111",
   "status": "partial",
   "theorems": [
    "Verif.HolePunch.C111_one_side_agrees",
    "Verif.HolePunch.C111_agree_partial",
    "Verif.HolePunch.C111_single_agree",
    "Verif.HolePunch.C111_reached",
    "Verif.HolePunch.C111_counterexample"
   ],
   "note": "For every number of sockets one of the two endpoints sends to the socket the other one uses, and sockets lead to punchers that can be reached. Proved in full when no puncher can be reached by two punchers of the peer (so for one socket per side). In general false: the poller takes any socket aimed at the right puncher of the peer, whichever local puncher it belongs to."
  },
  {
   "property": "C112",
   "status": "proved",
   "theorems": [
    "Verif.HolePunch.C112_no_panic",
    "Verif.HolePunch.C112_candidate_once",
    "Verif.HolePunch.C112_one_winner",
    "Verif.HolePunch.C112_poller_stays"
   ],
   "note": ""
  },
  {
   "property": "C113",
   "status": "partial",
   "theorems": [
    "Verif.HolePunch.C113_told_can_return_partial",
    "Verif.HolePunch.C113_counterexample",
    "Verif.HolePunch.C113_counterexample_cannot"
   ],
   "note": "Proved when no puncher can be reached by two punchers of the peer. In general false: the commanded puncher may have ended with another peer, its socket is thrown away, and both endpoints wait for ever."
  },
  {
   "property": "C114",
   "status": "partial",
   "theorems": [
    "Verif.HolePunch.C114_loser_can_follow_partial",
    "Verif.HolePunch.C114_counterexample",
    "Verif.HolePunch.C114_counterexample_early_end"
   ],
   "note": "Proved (both return, with matching sockets) when no puncher can be reached by two, while the loser's reader runs and no failure was noted. In general false: a loser whose punchers have all failed stops reading and is never told, while the winner returns; a winner whose peer is too quick drops its own success."
  },
  {
   "property": "C115",
   "status": "proved",
   "theorems": [
    "Verif.Backends.C115_sql_cid",
    "Verif.Backends.C115_sql_bigint",
    "Verif.Backends.C115_redis_keys"
   ],
   "note": "Encodings of cids in both kinds of columns and all eight kinds of Redis keys, for all arguments."
  },
  {
   "property": "C116",
   "status": "partial",
   "theorems": [
    "Verif.Backends.C116_memory",
    "Verif.Backends.C116_redis_partial",
    "Verif.Backends.C116_sql_partial",
    "Verif.Backends.C116_counterexample_sql",
    "Verif.Backends.C116_counterexample_sql_history"
   ],
   "note": "Memory: proved for all histories in which accounts are created under fresh cids. Redis: proved as long as accounts are emptied before they are deleted (see C117). SQL: proved for every possible answer as long as no value is overwritten; overwriting adds a second row and the old value stays a possible answer (counterexample)."
  },
  {
   "property": "C117",
   "status": "partial",
   "theorems": [
    "Verif.Backends.C117_sql",
    "Verif.Backends.C117_memory",
    "Verif.Backends.C117_redis_peers_partial",
    "Verif.Backends.C117_counterexample_redis"
   ],
   "note": "SQL: proved for all states of the tables. Memory: proved for the histories of a server. Redis: the lists of peers are proved to be complete; the byte map of the account (its mailbox too) stays, and the next account of the same name reads it (counterexample for every store)."
  },
  {
   "property": "C118",
   "status": "partial",
   "theorems": [
    "Verif.Backends.C118_sql_partial",
    "Verif.Backends.C118_redis_partial",
    "Verif.Backends.C118_redis_list_partial",
    "Verif.Backends.C118_memory_partial",
    "Verif.Backends.C118_counterexample_sql_twice",
    "Verif.Backends.C118_counterexample_sql_sync",
    "Verif.Backends.C118_counterexample_redis_half",
    "Verif.Backends.C118_counterexample_redis_sync"
   ],
   "note": "Proved for histories without duplicate registrations and empty or nameless lists (SQL, all operations), for the histories of a server (Redis, with the list of peers) and those without duplicate registrations (memory). Counterexamples: SQL counts duplicate rows and reports that no one is registered, and ignores an empty list; Redis writes half a registration when the first account is missing, and drops peers without a name. Not shown: the order of the list of peers in Redis, which the code leaves open too."
  },
  {
   "property": "C119",
   "status": "partial",
   "theorems": [
    "Verif.Backends.C119_sql_partial",
    "Verif.Backends.C119_redis_partial",
    "Verif.Backends.C119_memory_partial",
    "Verif.Backends.C119_counterexample_sql_limit",
    "Verif.Backends.C119_counterexample_mysql"
   ],
   "note": "Proved for the same histories; SQL for exact comparisons. Counterexamples: duplicate rows use up the LIMIT; MySQL compares a string with a BIGINT as floating point numbers, so that another peer may be returned. Redis is shown to answer with an error as soon as one cid of the list is not a peer."
  },
  {
   "property": "C120",
   "status": "partial",
   "theorems": [
    "Verif.Backends.C120_restart_partial",
    "Verif.Backends.C120_counterexample_delete",
    "Verif.Backends.C120_counterexample_again",
    "Verif.Backends.C120_counterexample_dereg"
   ],
   "note": "Proved for the histories of a server without duplicate registrations in which only accounts without peers are deleted. Counterexamples: the file of a peer of a deleted account is not rewritten; a deregistration that fails half-way changes only the memory."
  },
  {
   "property": "C121",
   "status": "partial",
   "theorems": [
    "Verif.NatPred.C121_next_mapping_is_tried_partial",
    "Verif.NatPred.C121_ports_in_any_order",
    "Verif.NatPred.C121_no_privileged_port",
    "Verif.NatPred.C121_counterexample_low_port",
    "Verif.NatPred.C121_counterexample_coincidence",
    "Verif.NatPred.C121_counterexample_busy_nat",
    "Verif.NatPred.C121_counterexample_descending",
    "Verif.NatPred.C121_counterexample_address_depends_on_order"
   ],
   "note": "NATs that shift by a constant, count up with a stride of at most five, have one address or take those of a network in turn; from three consecutive mappings in any order the next three are covered, for external ports from 1024 on. Counterexamples: ports below 1024, counting NATs that look like a shift, NATs shared with others, counting down, addresses that depend on the order of the answers."
  },
  {
   "property": "C122",
   "status": "partial",
   "theorems": [
    "Verif.NatPred.C122_candidates",
    "Verif.NatPred.C122_no_band_twice",
    "Verif.NatPred.C122_socket_pings_its_version",
    "Verif.NatPred.C122_observed_address_is_pinged",
    "Verif.NatPred.C122_internal_address_partial",
    "Verif.NatPred.C122_counterexample_local_network",
    "Verif.NatPred.C122_counterexample_same_port"
   ],
   "note": "The candidates are characterised exactly; every socket pings those of its version; the local-network address only without a translation of ports. Counterexamples: local network behind a NAT that translates ports, and the socket's own address when a band has the same port."
  },
  {
   "property": "C123",
   "status": "partial",
   "theorems": [
    "Verif.NatPred.C123_honest_prediction_bounded",
    "Verif.NatPred.C123_honest_lengths_agree",
    "Verif.NatPred.C123_counterexample_panic_by_number",
    "Verif.NatPred.C123_counterexample_panic_by_overflow",
    "Verif.NatPred.C123_counterexample_many_candidates",
    "Verif.NatPred.C123_counterexample_any_target"
   ],
   "note": "Holds for NAT types that nodes find out themselves. A peer can send a number of addresses that panics, an average that overflows or gives more than a thousand million ports, and any addresses as targets."
  },
  {
   "property": "C124",
   "status": "partial",
   "theorems": [
    "Verif.NatPred.C124_turn_iff_no_prediction",
    "Verif.NatPred.C124_relay_iff",
    "Verif.NatPred.C124_identified_partial",
    "Verif.NatPred.C124_counterexample_no_answer",
    "Verif.NatPred.C124_counterexample_one_server",
    "Verif.NatPred.C124_counterexample_two_servers",
    "Verif.NatPred.C124_counterexample_networks"
   ],
   "note": "The announcement agrees with the prediction. Counterexamples: identification that failed, one failing server, two servers, addresses in unrelated networks."
  },
  {
   "property": "C125",
   "status": "proved",
   "theorems": [
    "Verif.Callbacks.C125_stream_exact",
    "Verif.Callbacks.C125_exactly_once",
    "Verif.Callbacks.C125_only_concerned",
    "Verif.Callbacks.C125_in_order",
    "Verif.Callbacks.C125_poll",
    "Verif.Callbacks.C125_no_answer_missed",
    "Verif.Callbacks.C125_failed_send",
    "Verif.Callbacks.C125_counterexample_same_ticket",
    "Verif.Callbacks.C125_counterexample_dropped_unread",
    "Verif.Callbacks.C125_names"
   ],
   "note": "For distinct tickets, the exact stream of each subscription; for all tickets, conservation, relevance and order. Counterexamples: with equal tickets the order of the map decides; results unread at the drop are lost."
  },
  {
   "property": "C126",
   "status": "partial",
   "theorems": [
    "Verif.Callbacks.C126_error_reaches_partial",
    "Verif.Callbacks.C126_error_with_session_partial",
    "Verif.Callbacks.C126_counterexample_report_unmatched",
    "Verif.Callbacks.C126_counterexample_error_lost",
    "Verif.Callbacks.C126_counterexample_report_to_kernel",
    "Verif.Callbacks.C126_counterexample_calls"
   ],
   "note": "Holds for requests that name no session. False for all others: send_error reports without a session, which a subscription that names one does not take, so the call waits for ever."
  },
  {
   "property": "C127",
   "status": "partial",
   "theorems": [
    "Verif.Callbacks.C127_fresh_registration_partial",
    "Verif.Callbacks.C127_second_registration_refused",
    "Verif.Callbacks.C127_drop_is_local_partial",
    "Verif.Callbacks.C127_counterexample_silenced"
   ],
   "note": "Holds for tickets not used before. A registration under a key in use is refused but has already replaced the listener, which gets nothing more."
  },
  {
   "property": "C128",
   "status": "partial",
   "theorems": [
    "Verif.Callbacks.C128_errors_end_partial",
    "Verif.Callbacks.C128_success_is_answered",
    "Verif.Callbacks.C128_success_kinds",
    "Verif.Callbacks.C128_success_exactly",
    "Verif.Callbacks.C128_refusal_ends",
    "Verif.Callbacks.C128_answered",
    "Verif.Callbacks.C128_counterexample_errors_ignored",
    "Verif.Callbacks.C128_counterexample_refused_group",
    "Verif.Callbacks.C128_error_exactly"
   ],
   "note": "Holds for 16 of the 18 calls. create_group and rekey wait on at every error; create_group also when the server refuses the group. The results at which each call succeeds, and those at which it fails, are characterised exactly."
  },
  {
   "property": "C129",
   "status": "partial",
   "theorems": [
    "Verif.Callbacks.C129_unlimited_takes_partial",
    "Verif.Callbacks.C129_below_limit_takes_partial",
    "Verif.Callbacks.C129_limit_kept",
    "Verif.Callbacks.C129_counterexample_deadlock",
    "Verif.Callbacks.C129_counterexample_one_handler"
   ],
   "note": "Holds without a limit, or below it. With a limit of n, n handlers that await an answer stop the executor for good."
  },
  {
   "property": "C130",
   "status": "proved",
   "theorems": [
    "Verif.CallChan.C130_tracked_own_response",
    "Verif.CallChan.C130_plain_own_response",
    "Verif.CallChan.C130_requests_intact",
    "Verif.CallChan.C130_response_final",
    "Verif.CallChan.C130_no_callback_refused"
   ],
   "note": "Both channels, all runs."
  },
  {
   "property": "C131",
   "status": "partial",
   "theorems": [
    "Verif.CallChan.C131_plain_waits_for_live",
    "Verif.CallChan.C131_plain_all_end",
    "Verif.CallChan.C131_tracked_answerable_partial",
    "Verif.CallChan.C131_tracked_no_slot_left_partial",
    "Verif.CallChan.C131_counterexample_waits_for_ever",
    "Verif.CallChan.C131_counterexample_map_grows"
   ],
   "note": "Proved for the plain channel; false for the tracked channel: a call whose request was dropped waits for ever, and calls given up leave their sender in the map."
  },
  {
   "property": "C132",
   "status": "proved",
   "theorems": [
    "Verif.SyncStart.C132_exchange",
    "Verif.SyncStart.C132_both_can_run"
   ],
   "note": "All clocks and all interleavings."
  },
  {
   "property": "C133",
   "status": "partial",
   "theorems": [
    "Verif.SyncStart.C133_not_before_partial",
    "Verif.SyncStart.C133_start_times_partial",
    "Verif.SyncStart.C133_same_moment_partial",
    "Verif.SyncStart.C133_counterexample_clocks",
    "Verif.SyncStart.C133_counterexample_peer_delays",
    "Verif.SyncStart.C133_counterexample_clock_back",
    "Verif.SyncStart.C133_counterexample_waits_for_ever",
    "Verif.SyncStart.C133_counterexample_one_runs"
   ],
   "note": "Proved: no end starts before the agreed time by its own clock; exact start times for steady clocks and a prompt run, equal for equal clocks. False in general: clock difference, peer that names a far time, clock set back, loss of the connection."
  },
  {
   "property": "C134",
   "status": "partial",
   "theorems": [
    "Verif.Timers.C134_no_panic_partial",
    "Verif.Timers.C134_counterexample_panic",
    "Verif.Timers.C134_counterexample_honest"
   ],
   "note": "Proved for group ids that never decrease per cid. Not true in general: the key of a timer is group id + 10 + a counter, and between peers the groups sent and the groups received are registered under the same cid, so two live timers may get one key; the second expiry then unwraps None."
  },
  {
   "property": "C135",
   "status": "partial",
   "theorems": [
    "Verif.Timers.C135_own_function_partial",
    "Verif.Timers.C135_not_early_partial",
    "Verif.Timers.C135_counterexample_overwritten"
   ],
   "note": "Proved for group ids that never decrease per cid; otherwise a timer may be overwritten and never run."
  },
  {
   "property": "C136",
   "status": "partial",
   "theorems": [
    "Verif.KeepAlive.C136_silence_detected_partial",
    "Verif.KeepAlive.C136_counterexample_never_heard",
    "Verif.KeepAlive.C136_counterexample_after_late"
   ],
   "note": "Proved for an end that has a keep alive on record. An end without one (before the first, or after a late one) never notices."
  },
  {
   "property": "C137",
   "status": "partial",
   "theorems": [
    "Verif.KeepAlive.C137_live_kept_partial",
    "Verif.KeepAlive.C137_counterexample_short_timeout",
    "Verif.KeepAlive.C137_counterexample_clocks"
   ],
   "note": "Proved for timeouts of at least two intervals and delays, and clock differences below the timeout. Every other timeout below 15 minutes ends an idle session, and so does a clock difference above the timeout."
  },
  {
   "property": "C138",
   "status": "partial",
   "theorems": [
    "Verif.Wire.C138_frames_partial",
    "Verif.Wire.C138_cut_partial",
    "Verif.Wire.C138_split_same",
    "Verif.Wire.C138_counterexample_large",
    "Verif.Wire.C138_counterexample_truncated"
   ],
   "note": "Proved for bodies of at most 64 MB, every chunking and every cut. Counterexamples: the writer has no limit; a body above 64 MB ends the connection of the reader, a body of 4 GB or more has its length cut to 32 bits and its payload is read as packets."
  },
  {
   "property": "C139",
   "status": "partial",
   "theorems": [
    "Verif.Wire.C139_roundtrip_partial",
    "Verif.Wire.C139_stream_partial",
    "Verif.Wire.C139_counterexample_no_comparison",
    "Verif.Wire.C139_counterexample_settings",
    "Verif.Wire.C139_counterexample_early"
   ],
   "note": "Proved for compatible settings, both directions, every interleaving, if a server without the key waits for the first packet. Counterexamples: the listener sends first; a pre-shared key at the server and another setting at the client are not refused (the comparison of keys is unreachable) and headers are garbled."
  },
  {
   "property": "C140",
   "status": "proved",
   "theorems": [
    "Verif.Wire.C140_barrier",
    "Verif.Wire.C140_idle",
    "Verif.Wire.C140_progress",
    "Verif.Wire.C140_yields"
   ],
   "note": "Barrier, order, progress and the bound on the steps between two yields, for all schedules of producers, transport and reader; write errors (which end the session) are outside the model."
  },
  {
   "property": "C141",
   "status": "partial",
   "theorems": [
    "Verif.Wire.C141_handover_partial",
    "Verif.Wire.C141_counterexample_lost"
   ],
   "note": "Proved if the chunks that hold the first packet hold nothing else. Counterexample: what arrives in the same chunk is dropped with the buffer of the codec. That the server waits for the client is not part of the model."
  },
  {
   "property": "C142",
   "status": "partial",
   "theorems": [
    "Verif.BiChan.C142_delivered_partial",
    "Verif.BiChan.C142_counterexample_lost",
    "Verif.BiChan.C142_counterexample_refused"
   ],
   "note": "Proved: what is received is a prefix of what was accepted, and equals what was accepted before Halt. Refuted: an item accepted between Halt and the flag is lost; dropping the receive half stops the send half."
  },
  {
   "property": "C143",
   "status": "partial",
   "theorems": [
    "Verif.BiChan.C143_closes_partial",
    "Verif.BiChan.C143_counterexample_unread"
   ],
   "note": "Proved: closing ends if one end has read the Halt of the other before it drops its half. Refuted: otherwise both tasks wait for ever."
  },
  {
   "property": "C144",
   "status": "partial",
   "theorems": [
    "Verif.Broadcast.C144_result_partial",
    "Verif.Broadcast.C144_counterexample_silent",
    "Verif.Broadcast.C144_counterexample_accepting",
    "Verif.Broadcast.C144_counterexample_cancelled"
   ],
   "note": "Proved: at most one call, the result without registrations to accept, what Ok means. Refuted: silent success when the subscription ends, no end with accept_registrations, the function is cancelled by a failing acceptor."
  },
  {
   "property": "C145",
   "status": "partial",
   "theorems": [
    "Verif.Broadcast.C145_answers_partial",
    "Verif.Broadcast.C145_drained_partial",
    "Verif.Broadcast.C145_counterexample_early",
    "Verif.Broadcast.C145_counterexample_swallowed"
   ],
   "note": "Proved: requests that reached the queue or the subscription are answered or still there, none twice, and the acceptor drains both. Refuted: requests before the start; requests in the subscription of a node that does not accept."
  },
  {
   "property": "C146",
   "status": "partial",
   "theorems": [
    "Verif.Broadcast.C146_join_partial",
    "Verif.Broadcast.C146_counterexample_wait"
   ],
   "note": "Proved: found exactly if there at 0, 1, 3, 7 or 15 s, end within 31 s. Refuted: the last 16 s are waited without a look."
  },
  {
   "property": "C147",
   "status": "proved",
   "theorems": [
    "Verif.Replay.C147_issued_consecutive",
    "Verif.Replay.C147_tracked_iff"
   ],
   "note": "For all histories; ids wrap after 2^64."
  },
  {
   "property": "C148",
   "status": "proved",
   "theorems": [
    "Verif.FileStore.C148_arrives",
    "Verif.FileStore.C148_written",
    "Verif.FileStore.C148_stored"
   ],
   "note": "For transfers whose packets are not mixed with others of the same object id. The waves are one packet each and arrive in order (cutting and reassembly are C12 to C16, the order of groups C68 to C70)."
  },
  {
   "property": "C149",
   "status": "partial",
   "theorems": [
    "Verif.PeerKernel.C149_start",
    "Verif.PeerKernel.C149_started",
    "Verif.PeerKernel.C149_user",
    "Verif.PeerKernel.C149_counterexample_empty",
    "Verif.PeerKernel.C149_once",
    "Verif.PeerKernel.C149_all",
    "Verif.PeerKernel.C149_independent",
    "Verif.PeerKernel.C149_success",
    "Verif.PeerKernel.C149_counterexample_dropped",
    "Verif.PeerKernel.C149_counterexample_cancelled"
   ],
   "note": "False in general: an empty list of peers panics (the channel of results has capacity 0), and a user who drops the receiver of results before all tasks are done loses the remaining connections and gets an error from the kernel even if their function succeeds. Proved: which lists start, no result twice and each truthful, all delivered while the receiver lives, independence of the peers, and when the kernel succeeds."
  },
  {
   "property": "C150",
   "status": "partial",
   "theorems": [
    "Verif.PeerKernel.C150_right_peer",
    "Verif.PeerKernel.C150_delivered",
    "Verif.PeerKernel.C150_counterexample_server",
    "Verif.PeerKernel.C150_counterexample_never_ends",
    "Verif.PeerKernel.C150_counterexample_forged",
    "Verif.PeerKernel.C150_counterexample_twice"
   ],
   "note": "False in general: the source of a handle is what the packet claims, so another party's file lands in the receiver of the peer it names; files of the server never reach the user; the receiver does not end with the connection; if a peer is listed twice the failure of one task removes the entry of the other. Proved for different peers: with truthful headers a receiver has only files of its peer, and every file of a connected peer is delivered."
  },
  {
   "property": "C151",
   "status": "partial",
   "theorems": [
    "Verif.OneConn.C151_settings",
    "Verif.OneConn.C151_counterexample_login_address",
    "Verif.OneConn.C151_calls",
    "Verif.OneConn.C151_once",
    "Verif.OneConn.C151_success",
    "Verif.OneConn.C151_connects",
    "Verif.OneConn.C151_fails",
    "Verif.OneConn.C151_events",
    "Verif.OneConn.C151_files",
    "Verif.OneConn.C151_counterexample_early"
   ],
   "note": "False in general: the address given to credentialed_login is not used, and events before the connection are lost. The rest is proved."
  },
  {
   "property": "C152",
   "status": "partial",
   "theorems": [
    "Verif.Backends.C152_memory_partial",
    "Verif.Backends.C152_counterexample_memory",
    "Verif.Backends.C152_memory_error_partial",
    "Verif.Backends.C152_counterexample_memory_half",
    "Verif.Backends.C152_files",
    "Verif.Backends.C152_sql_error",
    "Verif.Backends.C152_sql_partial",
    "Verif.Backends.C152_counterexample_sql",
    "Verif.Backends.C152_redis_partial",
    "Verif.Backends.C152_counterexample_redis_half",
    "Verif.Backends.C152_counterexample_redis"
   ],
   "note": "Holds for the answers of the store with files. False elsewhere: memory says Ok to a value or list for an account that does not exist and drops it; SQL says Ok to the removal of anything; Redis keeps values and peers of accounts that do not exist. Errors change nothing in SQL; in memory and Redis an operation on two accounts may be done by half and answered with an error."
  },
  {
   "property": "C153",
   "status": "partial",
   "theorems": [
    "Verif.Ranks.C153_settled",
    "Verif.Ranks.C153_owner",
    "Verif.Ranks.C153_applies",
    "Verif.Ranks.C153_reads_partial",
    "Verif.Ranks.C153_counterexample_in_flight"
   ],
   "note": "Positions, ranks and the owner: for all histories; reading: for members whose position has arrived. While assignments are under way messages are lost (counterexample)."
  },
  {
   "property": "C154",
   "status": "proved",
   "theorems": [
    "Verif.Ranks.C154_secrecy",
    "Verif.Ranks.C154_demoted"
   ],
   "note": "For all histories and coalitions; forged assignments are excluded (C156)."
  },
  {
   "property": "C155",
   "status": "partial",
   "theorems": [
    "Verif.Ranks.C155_counterexample",
    "Verif.Ranks.C155_demotion_partial"
   ],
   "note": "False of the code for a kick alone (counterexample); holds after the next demotion of anybody."
  },
  {
   "property": "C156",
   "status": "partial",
   "theorems": [
    "Verif.Ranks.C156_counterexample_forged",
    "Verif.Ranks.C156_counterexample_garbage",
    "Verif.Ranks.C156_counterexample_theft"
   ],
   "note": "False of the code: forged position, garbage, stolen rank. Positions that honest owners seal are opened by the right member: C153."
  },
  {
   "property": "C157",
   "status": "partial",
   "theorems": [
    "Verif.Ranks.C157_counterexample",
    "Verif.Ranks.C157_ranked_partial"
   ],
   "note": "False of the code for members without a rank; proved for ranked members."
  },
  {
   "property": "C158",
   "status": "partial",
   "theorems": [
    "Verif.Ranks.C158_counterexample_moved",
    "Verif.Ranks.C158_counterexample_ends"
   ],
   "note": "False of the code; if the owner gives no rank to itself it stays at the root: C153_owner."
  },
  {
   "property": "C159",
   "status": "partial",
   "theorems": [
    "Verif.Serverless.C159_roles_partial",
    "Verif.Serverless.C159_connects_partial"
   ],
   "note": "Proved for two attempts alone in a fresh room, without an early event. The full claim fails: C161, C162, C163 (rooms used by others), C164 (early event)."
  },
  {
   "property": "C160",
   "status": "proved",
   "theorems": [
    "Verif.Serverless.C160_ends",
    "Verif.Serverless.C160_unique",
    "Verif.Serverless.C160_counterexample_other"
   ],
   "note": "With any number of attempts. The hash an attempt found need not belong to the other end (C160_counterexample_other)."
  },
  {
   "property": "C161",
   "status": "partial",
   "theorems": [
    "Verif.Serverless.C161_greetings_stay",
    "Verif.Serverless.C161_counterexample_ghost",
    "Verif.Serverless.C161_counterexample_alone"
   ],
   "note": "Refuted: the greeting of an attempt that timed out stays until somebody connects (C161_greetings_stay); the next attempt takes it for its peer, and two that come next can both become clients and never connect."
  },
  {
   "property": "C162",
   "status": "partial",
   "theorems": [
    "Verif.Serverless.C162_counterexample_stale"
   ],
   "note": "Refuted: after two attempts that timed out with an offer in the room, the client of the next pair answers the old offer, the server applies that answer, and both calls hang."
  },
  {
   "property": "C163",
   "status": "partial",
   "theorems": [
    "Verif.Serverless.C163_counterexample_third"
   ],
   "note": "Refuted: delete_room removes the greetings of all, and poll_for_peer waits for two greetings, its own included."
  },
  {
   "property": "C164",
   "status": "partial",
   "theorems": [
    "Verif.Serverless.C164_counterexample_missed",
    "Verif.Serverless.C164_no_deadline"
   ],
   "note": "Refuted: ondatachannel is set after the reply to the request that publishes the answer, and neither wait has a deadline. What is proved is where deadlines are."
  },
  {
   "property": "C165",
   "status": "proved",
   "theorems": [
    "Verif.Errors.C165_accepts",
    "Verif.Errors.C165_unique",
    "Verif.Errors.C165_lone_open"
   ],
   "note": "All forms as byte lists; the loop with its index is modelled."
  },
  {
   "property": "C166",
   "status": "proved",
   "theorems": [
    "Verif.Errors.C166_render",
    "Verif.Errors.C166_no_panic",
    "Verif.Errors.C166_parts"
   ],
   "note": "All forms, arguments and texts; slicing panics at places that are not character boundaries in the model, and is proved not to."
  },
  {
   "property": "C167",
   "status": "partial",
   "theorems": [
    "Verif.Errors.C167_display_partial",
    "Verif.Errors.C167_counterexample_escape",
    "Verif.Errors.C167_codes",
    "Verif.Errors.C167_registry"
   ],
   "note": "Proved for forms with a slot and for forms without doubled braces, hence for every error of the registry. Refuted for a form without a slot that has doubled braces: Display writes the raw form when there are no arguments, so {{ is shown twice."
  },
  {
   "property": "C168",
   "status": "proved",
   "theorems": [
    "Verif.Errors.C168_message",
    "Verif.Errors.C168_code_lost"
   ],
   "note": "The message is kept whatever it contains; the code becomes Io, so that errors with different codes compare equal afterwards."
  },
  {
   "property": "C169",
   "status": "proved",
   "theorems": [
    "Verif.Puncher.C169_sound"
   ],
   "note": "Ideal sealing; datagrams may be lost, repeated, delayed, redirected and come from any address."
  },
  {
   "property": "C170",
   "status": "partial",
   "theorems": [
    "Verif.Puncher.C170_address_partial",
    "Verif.Puncher.C170_counterexample_relay"
   ],
   "note": "Proved for networks that state the source of a datagram truly. Refuted otherwise: an answer that somebody passes on from another address is accepted, with that address in the result; the check that is made is whether a datagram can be handed to the local socket."
  },
  {
   "property": "C171",
   "status": "proved",
   "theorems": [
    "Verif.Puncher.C171_recovers",
    "Verif.Puncher.C171_recovers_address",
    "Verif.Puncher.C171_one"
   ],
   "note": "In every network; the address is right in networks that state sources truly."
  },
  {
   "property": "C172",
   "status": "partial",
   "theorems": [
    "Verif.Puncher.C172_counterexample_first",
    "Verif.Puncher.C172_never",
    "Verif.Puncher.C172_answer_partial"
   ],
   "note": "Refuted: a puncher that gets an answer before any Syn returns and never answers (the comment there says it should not terminate). What is left: an answer that arrives gives a result."
  },
  {
   "property": "C173",
   "status": "partial",
   "theorems": [
    "Verif.Puncher.C173_no_check",
    "Verif.Puncher.C173_dropped"
   ],
   "note": "Refuted: the Check is sent without being sealed and every packet is opened first, so no Check is ever recognised."
  },
  {
   "property": "C174",
   "status": "partial",
   "theorems": [
    "Verif.Puncher.C174_counterexample_text",
    "Verif.Puncher.C174_stays",
    "Verif.Puncher.C174_never_fails",
    "Verif.Puncher.C174_invalid"
   ],
   "note": "Proved for addresses of the wrong kind. Refuted for unreachable ones: the text of the error is compared with NetworkUnreachable, which is the name of the kind and not its text; trusted: the text of ENETUNREACH on Linux."
  },
  {
   "property": "C175",
   "status": "proved",
   "theorems": [
    "Verif.Puncher.C175_exclusive",
    "Verif.Puncher.C175_silent",
    "Verif.Puncher.C175_twice",
    "Verif.Puncher.C175_barrage"
   ],
   "note": ""
  },
  {
   "property": "C176",
   "status": "proved",
   "theorems": [
    "Verif.ByteStream.C176_order",
    "Verif.ByteStream.C176_room",
    "Verif.ByteStream.C176_wakes"
   ],
   "note": ""
  },
  {
   "property": "C177",
   "status": "partial",
   "theorems": [
    "Verif.ByteStream.C177_eof_partial",
    "Verif.ByteStream.C177_complete_partial",
    "Verif.ByteStream.C177_counterexample_empty",
    "Verif.ByteStream.C177_counterexample_rest"
   ],
   "note": "Refuted: an empty data frame reads as the end, and a reader that stops there misses whatever comes after (C177_counterexample_empty, C177_counterexample_rest). Proved if no data frame is empty."
  },
  {
   "property": "C178",
   "status": "proved",
   "theorems": [
    "Verif.ByteStream.C178_order",
    "Verif.ByteStream.C178_wakes",
    "Verif.ByteStream.C178_eof",
    "Verif.ByteStream.C178_write"
   ],
   "note": ""
  },
  {
   "property": "C179",
   "status": "partial",
   "theorems": [
    "Verif.ByteStream.C179_error_partial",
    "Verif.ByteStream.C179_counterexample_close",
    "Verif.ByteStream.C179_counterexample_text"
   ],
   "note": "Refuted: the close that follows an error hides it (C179_counterexample_close), and text messages are left out in the browser but are data for a native node (C179_counterexample_text). Proved for the first while no close event has come."
  },
  {
   "property": "C180",
   "status": "partial",
   "theorems": [
    "Verif.ByteStream.C180_packets_partial",
    "Verif.ByteStream.C180_prefix_partial",
    "Verif.ByteStream.C180_browser_partial",
    "Verif.ByteStream.C180_writer"
   ],
   "note": "The reader is the one of C138, whose frame limit is the protocol's 64 MiB; larger packets are C138's finding."
  },
  {
   "property": "C181",
   "status": "proved",
   "theorems": [
    "Verif.Bincode.C181_roundtrip",
    "Verif.Bincode.C181_prefix_free"
   ],
   "note": ""
  },
  {
   "property": "C182",
   "status": "proved",
   "theorems": [
    "Verif.Bincode.C182_canonical",
    "Verif.Bincode.C182_same"
   ],
   "note": ""
  },
  {
   "property": "C183",
   "status": "partial",
   "theorems": [
    "Verif.Bincode.C183_memory",
    "Verif.Bincode.C183_blob_partial",
    "Verif.Bincode.C183_counterexample_mib"
   ],
   "note": "The bound is proved. Refuted: for sequences room of up to 1 MiB per level of nesting is made before the limit is looked at (C183_counterexample_mib); for strings and byte buffers nothing is allocated beyond the input."
  },
  {
   "property": "C184",
   "status": "proved",
   "theorems": [
    "Verif.Bincode.C184_slice",
    "Verif.Bincode.C184_bomb"
   ],
   "note": ""
  },
  {
   "property": "C185",
   "status": "partial",
   "theorems": [
    "Verif.Bincode.C185_work_partial",
    "Verif.Bincode.C185_counterexample_unit",
    "Verif.Bincode.C185_counterexample_full"
   ],
   "note": "Refuted for elements that take no bytes: eight bytes make the reader go through as many as they claim. Proved if elements take at least one byte each; the program has no other sequences."
  },
  {
   "property": "C186",
   "status": "partial",
   "theorems": [
    "Verif.PeerKex.C186_secret_partial",
    "Verif.PeerKex.C186_counterexample_middle",
    "Verif.PeerKex.C186_counterexample_before"
   ],
   "note": "Refuted in general: without a password, or with one the relay knows, it stands in the middle; and a secret password does not help if the relay sends Stage0 before it is entered. Proved for passwords entered before."
  },
  {
   "property": "C187",
   "status": "partial",
   "theorems": [
    "Verif.PeerKex.C187_alice_partial",
    "Verif.PeerKex.C187_counterexample_bob"
   ],
   "note": "Proved for the side that begins the exchange; refuted for the other: Stage2 carries no proof."
  },
  {
   "property": "C188",
   "status": "partial",
   "theorems": [
    "Verif.PeerKex.C188_asked_partial",
    "Verif.PeerKex.C188_counterexample_again"
   ],
   "note": "Proved for a user who never asked or accepted; refuted for connections after the first, since session passwords are never removed."
  },
  {
   "property": "C189",
   "status": "partial",
   "theorems": [
    "Verif.PeerKex.C189_entered_partial",
    "Verif.PeerKex.C189_counterexample"
   ],
   "note": "Refuted: Stage0 and Stage2 to a client without a session password. Proved once a password has been entered."
  },
  {
   "property": "C190",
   "status": "partial",
   "theorems": [
    "Verif.PeerKex.C190_simple_partial",
    "Verif.PeerKex.C190_progress",
    "Verif.PeerKex.C190_counterexample_differ",
    "Verif.PeerKex.C190_counterexample_one_sided",
    "Verif.PeerKex.C190_counterexample_reordered"
   ],
   "note": "Proved for one ask and one answer in any order of the signals; refuted for two asks with answers, in order, and for two asks out of order."
  },
  {
   "property": "C191",
   "status": "proved",
   "theorems": [
    "Verif.PeerKex.C191_simultaneous",
    "Verif.PeerKex.C191_false_alarm"
   ],
   "note": "For queues in order; out of order see C190_counterexample_reordered. C191_false_alarm shows that a user may be told of a failure on the way."
  },
  {
   "property": "C192",
   "status": "partial",
   "theorems": [
    "Verif.PeerKex.C192_simple_partial",
    "Verif.PeerKex.C192_counterexample_dropped",
    "Verif.PeerKex.C192_counterexample_honest"
   ],
   "note": "Proved for one ask and one answer; refuted by a repeated Stage2 and by crossing asks."
  },
  {
   "property": "C193",
   "status": "partial",
   "theorems": [
    "Verif.PeerKex.C193_names_partial",
    "Verif.PeerKex.C193_once_partial",
    "Verif.PeerKex.C193_counterexample"
   ],
   "note": "Proved for a server that keeps to the protocol, in any order of the signals; refuted for one that does not."
  },
  {
   "property": "C194",
   "status": "partial",
   "theorems": [
    "Verif.PeerDrop.C194_same_stream_partial",
    "Verif.PeerDrop.C194_others_stop_partial",
    "Verif.PeerDrop.C194_goes_on",
    "Verif.PeerDrop.C194_counterexample",
    "Verif.PeerDrop.C194_counterexample_wasm"
   ],
   "note": "Proved for native builds when the peer with the higher cid is client of exactly one stream (any number of others, any orders). Refuted otherwise: with two streams of the right kind the peers may keep different ones and stop the stream of the other; in browsers a discarded stream goes on, as its stopper is None."
  },
  {
   "property": "C195",
   "status": "partial",
   "theorems": [
    "Verif.PeerDrop.C195_newest",
    "Verif.PeerDrop.C195_in_flight_partial",
    "Verif.PeerDrop.C195_counterexample"
   ],
   "note": "Newest connection and version: proved for all runs. In flight: proved for the latest version; refuted for older versions, of which only the latest is kept."
  },
  {
   "property": "C196",
   "status": "partial",
   "theorems": [
    "Verif.PeerDrop.C196_older_partial",
    "Verif.PeerDrop.C196_counterexample_wasm",
    "Verif.PeerDrop.C196_counterexample_twin"
   ],
   "note": "Proved on native builds for everything that belongs to older connections. Refuted in browsers (cleanup without a check of the id) and for a replaced stream whose reader ends before the stopper is seen (both streams share the connection id)."
  },
  {
   "property": "C197",
   "status": "partial",
   "theorems": [
    "Verif.PeerDrop.C197_gated_partial",
    "Verif.PeerDrop.C197_counterexample"
   ],
   "note": "Refuted: the signals of the server are not counted by the tracker, so dropping one channel gives three events. Proved for the notifier and the error handler between two streams."
  },
  {
   "property": "C198",
   "status": "partial",
   "theorems": [
    "Verif.PeerDrop.C198_told_partial",
    "Verif.PeerDrop.C198_counterexample",
    "Verif.PeerDrop.C198_counterexample_wasm"
   ],
   "note": "Refuted: a late task of the connection before takes the mark and says nothing, so the end of the new connection is not told; in browsers the mark is never cleared. Proved when no older task waits."
  },
  {
   "property": "C199",
   "status": "proved",
   "theorems": [
    "Verif.PeerDrop.C199_gone",
    "Verif.PeerDrop.C199_once"
   ],
   "note": "Assumes that no two connections have the same id (128 random bits)."
  },
  {
   "property": "C200",
   "status": "partial",
   "theorems": [
    "Verif.PeerDrop.C200_cause_partial",
    "Verif.PeerDrop.C200_counterexample"
   ],
   "note": "Proved when no two attempts have the same id. Refuted for a second attempt with the id of the connection there is: the refused channel ends it."
  },
  {
   "property": "C201",
   "status": "proved",
   "theorems": [
    "Verif.PeerDrop.C201_no_echo"
   ],
   "note": ""
  },
  {
   "property": "C202",
   "status": "partial",
   "theorems": [
    "Verif.PeerDrop.C202_quiet_partial",
    "Verif.PeerDrop.C202_counterexample"
   ],
   "note": "Refuted: the server strips the tokens, so a signal about the connection before, sent by a late task, ends the new connection at both peers. Proved once nothing about older connections is under way."
  },
  {
   "property": "C203",
   "status": "partial",
   "theorems": [
    "Verif.PeerDrop.C203_server_partial",
    "Verif.PeerDrop.C203_counterexample"
   ],
   "note": "Refuted for streams that fail: the error handler takes the mark, and the notifier then does not tell the server. Proved for all other ends."
  },
  {
   "property": "C204",
   "status": "proved",
   "theorems": [
    "Verif.GroupChan.C204_stream",
    "Verif.GroupChan.C204_kernel"
   ],
   "note": ""
  },
  {
   "property": "C205",
   "status": "proved",
   "theorems": [
    "Verif.GroupChan.C205_single"
   ],
   "note": ""
  },
  {
   "property": "C206",
   "status": "partial",
   "theorems": [
    "Verif.GroupChan.C206_one_partial",
    "Verif.GroupChan.C206_counterexample"
   ],
   "note": "Refuted: the owner ends a group and creates it again under the same key; dropping the old channel then takes the owner out of the new group and closes the new channel. Proved: one who is not the owner has at most one channel per session."
  },
  {
   "property": "C207",
   "status": "partial",
   "theorems": [
    "Verif.GroupChan.C207_leaves_partial",
    "Verif.GroupChan.C207_counterexample"
   ],
   "note": "Refuted: with a full queue the LeaveRoom of Drop is lost (try_send), the client stays a member and later signals go nowhere. Proved when there is room in the queue."
  },
  {
   "property": "C208",
   "status": "partial",
   "theorems": [
    "Verif.GroupChan.C208_member_partial",
    "Verif.GroupChan.C208_counterexample_gone",
    "Verif.GroupChan.C208_counterexample_self",
    "Verif.GroupChan.C208_counterexample_late"
   ],
   "note": "Refuted: the owner's session ends and members are not told; the owner kicks itself; a Welcome that comes after the kick. Proved without these three."
  },
  {
   "property": "C209",
   "status": "partial",
   "theorems": [
    "Verif.GroupChan.C209_channel_partial",
    "Verif.GroupChan.C209_counterexample_asked",
    "Verif.GroupChan.C209_counterexample_again"
   ],
   "note": "Refuted: a join request to a private group that the owner accepts; a member that was kicked and is invited again. Proved: who was told of the acceptance has had a channel."
  },
  {
   "property": "C210",
   "status": "proved",
   "theorems": [
    "Verif.PunchPipe.C210_session",
    "Verif.PunchPipe.C210_peer",
    "Verif.PunchPipe.C210_end_to_end"
   ],
   "note": ""
  },
  {
   "property": "C211",
   "status": "proved",
   "theorems": [
    "Verif.PunchPipe.C211_own"
   ],
   "note": ""
  },
  {
   "property": "C212",
   "status": "partial",
   "theorems": [
    "Verif.PunchPipe.C212_early_partial",
    "Verif.PunchPipe.C212_never_used",
    "Verif.PunchPipe.C212_counterexample"
   ],
   "note": "Refuted for peers: the queue for early packets is never used, as without the connection there is no ratchet to read the packet with, and the pipe is registered together with the connection; an early packet is lost. Proved for the session itself."
  },
  {
   "property": "C213",
   "status": "partial",
   "theorems": [
    "Verif.PunchPipe.C213_entries_partial",
    "Verif.PunchPipe.C213_counterexample",
    "Verif.PunchPipe.C213_counterexample_pipe"
   ],
   "note": "Refuted: a session whose pipe is never made keeps every packet, without a limit; entries of pipes are never removed. Proved: peers without a connection leave nothing."
  },
  {
   "property": "C214",
   "status": "proved",
   "theorems": [
    "Verif.ChanEnd.C214_ordered",
    "Verif.ChanEnd.C214_unordered"
   ],
   "note": ""
  },
  {
   "property": "C215",
   "status": "partial",
   "theorems": [
    "Verif.ChanEnd.C215_all_read_partial",
    "Verif.ChanEnd.C215_next_partial",
    "Verif.ChanEnd.C215_counterexample"
   ],
   "note": "Refuted: poll_next looks at the flag before the queue, so messages handed over before the connection was removed are never read (C215_counterexample). Proved: as long as nothing ends the channel every message is read and no end is seen, and with the flag up a waiting message is given by the next poll."
  },
  {
   "property": "C216",
   "status": "proved",
   "theorems": [
    "Verif.ChanEnd.C216_ordered",
    "Verif.ChanEnd.C216_unordered",
    "Verif.ChanEnd.C216_removed"
   ],
   "note": ""
  },
  {
   "property": "C217",
   "status": "proved",
   "theorems": [
    "Verif.ChanEnd.C217_apart",
    "Verif.ChanEnd.C217_peer",
    "Verif.ChanEnd.C217_commands"
   ],
   "note": ""
  },
  {
   "property": "C218",
   "status": "partial",
   "theorems": [
    "Verif.ChanEnd.C218_exact_partial",
    "Verif.ChanEnd.C218_panics",
    "Verif.ChanEnd.C218_counterexample",
    "Verif.ChanEnd.C218_end"
   ],
   "note": "Refuted: recv uses copy_from_slice on the whole buffer, so it panics for every buffer whose length is not that of the packet (C218_panics, C218_counterexample). Proved: with exactly that length the packet is given; the end is reported only when nothing waits."
  },
  {
   "property": "C219",
   "status": "proved",
   "theorems": [
    "Verif.Service.C219_reads",
    "Verif.Service.C219_writes"
   ],
   "note": ""
  },
  {
   "property": "C220",
   "status": "partial",
   "theorems": [
    "Verif.Service.C220_all_partial",
    "Verif.Service.C220_counterexample_answer",
    "Verif.Service.C220_counterexample_request"
   ],
   "note": "Refuted: a service that writes and returns loses its answer, and the request of a client that leaves is lost (counterexamples). Proved: as long as no service has ended nothing is lost."
  },
  {
   "property": "C221",
   "status": "partial",
   "theorems": [
    "Verif.Service.C221_apart_partial",
    "Verif.Service.C221_counterexample",
    "Verif.Service.C221_down_after_end"
   ],
   "note": "Refuted: the end of the service of one client shuts the node down for all (C221_counterexample). Proved: as long as no service has ended each client sees what it would see alone, and the node goes down only after the end of some service."
  },
  {
   "property": "C222",
   "status": "partial",
   "theorems": [
    "Verif.Udp.C222_sealed",
    "Verif.Udp.C222_own_partial",
    "Verif.Udp.C222_counterexample",
    "Verif.Udp.C222_counterexample_server",
    "Verif.Udp.C222_craft"
   ],
   "note": "Refuted: the channel is chosen by the name in the header, not by the keys that opened the packet, so a peer (or the server) can write into the channel of another peer (counterexamples). Proved: whatever arrives, what is given was sealed under keys of this node; when no node with keys lies in its headers each channel gets only what the other end of its connection sealed; craft_udp_packet does not lie."
  },
  {
   "property": "C223",
   "status": "partial",
   "theorems": [
    "Verif.Udp.C223_own_partial",
    "Verif.Udp.C223_counterexample",
    "Verif.Udp.C223_counterexample_end_to_end"
   ],
   "note": "Refuted: check_proxy runs before any validation, on endpoints too, and hands the datagram to the UDP sender of the named connection, which seals it: bytes of somebody without keys arrive as a message of this node (C223_counterexample for every state, C223_counterexample_end_to_end). Proved: when all datagrams are addressed to this node, exactly what the program wrote is handed over."
  },
  {
   "property": "C224",
   "status": "partial",
   "theorems": [
    "Verif.Udp.C224_exact",
    "Verif.Udp.C224_exact_stream",
    "Verif.Udp.C224_none_partial",
    "Verif.Udp.C224_counterexample"
   ],
   "note": "Refuted: check_proxy unwraps sender, which is None for a connection that has no direct stream; an unauthenticated datagram, or a packet of a peer over its direct stream, panics (C224_counterexample). Proved: exactly when it panics, for datagrams and for streams, and that it never does when every connection has a sender."
  },
  {
   "property": "C225",
   "status": "partial",
   "theorems": [
    "Verif.Udp.C225_unsealed_partial",
    "Verif.Udp.C225_sealed",
    "Verif.Udp.C225_ended",
    "Verif.Udp.C225_open",
    "Verif.Udp.C225_alone",
    "Verif.Udp.C225_counterexample"
   ],
   "note": "Refuted: a datagram without a seal that names a connection without a sender stops the UDP task (C225_counterexample; see also C223). Proved: a datagram addressed to this node that is not sealed changes nothing; sealed ones are given, only to channels that are there; the task is ended only by sealed ones, and no other task."
  },
  {
   "property": "C226",
   "status": "proved",
   "theorems": [
    "Verif.UdpLife.C226_one",
    "Verif.UdpLife.C226_once",
    "Verif.UdpLife.C226_exchange",
    "Verif.UdpLife.C226_sender",
    "Verif.UdpLife.C226_drop",
    "Verif.UdpLife.C226_untaken",
    "Verif.UdpLife.C226_close"
   ],
   "note": "For all runs from the start of a session. C226_exchange takes the ids of the exchanges to differ (they are random)."
  },
  {
   "property": "C227",
   "status": "partial",
   "theorems": [
    "Verif.UdpLife.C227_partial",
    "Verif.UdpLife.C227_counterexample"
   ],
   "note": "Refuted: when the socket of a working channel fails, nobody tells the program; the receiving half waits until somebody ends the connection, for every continuation (C227_counterexample). Proved: without failures of sockets a receiving half that has not ended has its task."
  },
  {
   "property": "C228",
   "status": "partial",
   "theorems": [
    "Verif.UdpLife.C228_lives_partial",
    "Verif.UdpLife.C228_counterexample"
   ],
   "note": "Refuted: a second stream of the peer, also one the tie-breaker discards, ends the working channel and gives no other (C228_counterexample, for every reachable state). Proved: without further streams the channel works until its own end, whatever exchanges begin and whatever channels of other connections are dropped."
  },
  {
   "property": "C229",
   "status": "partial",
   "theorems": [
    "Verif.UdpLife.C229_gets",
    "Verif.UdpLife.C229_own_partial",
    "Verif.UdpLife.C229_counterexample",
    "Verif.UdpLife.C229_counterexample_race"
   ],
   "note": "Refuted: a late loader of the old connection takes the oneshot of the new one (C229_counterexample); with two exchanges at the same time the connection that is kept never gets its channel (C229_counterexample_race, for every continuation). Proved: with the oneshot untouched the first stream brings the channel, and it works; when no exchange begins during a connection every channel belongs to its connection."
  },
  {
   "property": "C230",
   "status": "proved",
   "theorems": [
    "Verif.SendFile.C230_sent",
    "Verif.SendFile.C230_prefix",
    "Verif.SendFile.C230_all"
   ],
   "note": "For all sources, honest or not, and all runs; a size of zero is C233. Encryption is a choice of working or failing."
  },
  {
   "property": "C231",
   "status": "partial",
   "theorems": [
    "Verif.SendFile.C231_partial",
    "Verif.SendFile.C231_counterexample_short",
    "Verif.SendFile.C231_counterexample_enc",
    "Verif.SendFile.C231_counterexample_full",
    "Verif.SendFile.C231_quiet"
   ],
   "note": "Refuted: a source shorter than it said, a failure to encrypt and a stopper dropped while the channel is full end silently (file_streamer returns Ok, try_send). Proved for a stopper dropped while there is room and a listener."
  },
  {
   "property": "C232",
   "status": "partial",
   "theorems": [
    "Verif.SendFile.C232_partial",
    "Verif.SendFile.C232_drained",
    "Verif.SendFile.C232_counterexample",
    "Verif.SendFile.C232_counterexample_short"
   ],
   "note": "Refuted: after a failure to read or to encrypt, the hook is executed with nothing sent and nothing reported. Proved for honest sources without failures and stops; and the hook never runs while a group waits in the channel."
  },
  {
   "property": "C233",
   "status": "partial",
   "theorems": [
    "Verif.SendFile.C233_partial",
    "Verif.SendFile.C233_default",
    "Verif.SendFile.C233_counterexample"
   ],
   "note": "Refuted: a size of zero divides by zero. Proved for all other sizes and for the default."
  },
  {
   "property": "C234",
   "status": "proved",
   "theorems": [
    "Verif.SendFile.C234_ahead",
    "Verif.SendFile.C234_asked",
    "Verif.SendFile.C234_accepted",
    "Verif.SendFile.C234_reads",
    "Verif.SendFile.C234_gone"
   ],
   "note": "For all runs."
  },
  {
   "property": "C235",
   "status": "partial",
   "theorems": [
    "Verif.Listen.C235_counterexample_plain",
    "Verif.Listen.C235_counterexample_name",
    "Verif.Listen.C235_partial",
    "Verif.Listen.C235_flag",
    "Verif.Listen.C235_verifies"
   ],
   "note": "Refuted: a first packet that claims plain TCP is followed whatever the policy, and the name that is verified is taken from that unauthenticated packet, so a certificate for any name of the attacker will do. Proved: over TLS and QUIC everything is verified under the policy, so nobody without any certificate is connected to."
  },
  {
   "property": "C236",
   "status": "proved",
   "theorems": [
    "Verif.Listen.C236_reached",
    "Verif.Listen.C236_required",
    "Verif.Listen.C236_checked"
   ],
   "note": "For all modes, domains and certificates, under both policies."
  },
  {
   "property": "C237",
   "status": "partial",
   "theorems": [
    "Verif.Listen.C237_counterexample",
    "Verif.Listen.C237_counterexample_accept",
    "Verif.Listen.C237_counterexample_ws",
    "Verif.Listen.C237_counterexample_merged",
    "Verif.Listen.C237_partial"
   ],
   "note": "Refuted for QUIC and for the TCP listener that redirects to it (one failed attempt), for WebSockets (set_nodelay) and for all kinds (a failing accept), for all continuations; merged listeners die together. Proved for TCP, TLS and WebSockets otherwise."
  },
  {
   "property": "C238",
   "status": "partial",
   "theorems": [
    "Verif.Listen.C238_counterexample",
    "Verif.Listen.C238_partial"
   ],
   "note": "Refuted for QUIC: an attempt that never opens its stream holds up all others. Proved for TCP, TLS and WebSockets."
  },
  {
   "property": "C239",
   "status": "proved",
   "theorems": [
    "Verif.Listen.C239_real",
    "Verif.Listen.C239_once",
    "Verif.Listen.C239_redirect",
    "Verif.Listen.C239_apart"
   ],
   "note": "For all kinds and all runs."
  },
  {
   "property": "C240",
   "status": "proved",
   "theorems": [
    "Verif.Inbound.C240_conserved",
    "Verif.Inbound.C240_order",
    "Verif.Inbound.C240_limit",
    "Verif.Inbound.C240_waited",
    "Verif.Inbound.C240_kept"
   ],
   "note": "For all limits and all runs."
  },
  {
   "property": "C241",
   "status": "partial",
   "theorems": [
    "Verif.Inbound.C241_counterexample",
    "Verif.Inbound.C241_counterexample_code",
    "Verif.Inbound.C241_counterexample_jam",
    "Verif.Inbound.C241_partial"
   ],
   "note": "Refuted for nodes without time limits (browsers): as many hole punches as the limit wait for packets that are behind them in the same stream, and nothing is worked on again, for all continuations. Proved when fewer hole punches than the limit have arrived."
  },
  {
   "property": "C242",
   "status": "proved",
   "theorems": [
    "Verif.Inbound.C242_drained"
   ],
   "note": "For every limit above zero and from every reachable state."
  },
  {
   "property": "C243",
   "status": "partial",
   "theorems": [
    "Verif.Inbound.C243_counterexample",
    "Verif.Inbound.C243_counterexample_reached",
    "Verif.Inbound.C243_partial"
   ],
   "note": "Refuted: with as many hole punches as the limit, nothing is worked on before one of them is given up, although the packets for all of them are there. Proved when fewer have arrived."
  },
  {
   "property": "C244",
   "status": "proved",
   "theorems": [
    "Verif.Rtc.C244_given",
    "Verif.Rtc.C244_final",
    "Verif.Rtc.C244_clean",
    "Verif.Rtc.C244_fails",
    "Verif.Rtc.C244_wrong"
   ],
   "note": "For all runs of both ends."
  },
  {
   "property": "C245",
   "status": "partial",
   "theorems": [
    "Verif.Rtc.C245_counterexample_silent",
    "Verif.Rtc.C245_counterexample_early",
    "Verif.Rtc.C245_counterexample_blocked",
    "Verif.Rtc.C245_partial"
   ],
   "note": "Refuted: the initiator waits without a time limit for an answer of a responder that has given up, that needs a relay, or that dropped the offer because it came before its channel for signals was registered; and both ends wait without a limit for a data channel that never opens. Proved: when nothing fails and the offer is not handled too early, both ends can get a direct connection from every state reached."
  },
  {
   "property": "C246",
   "status": "partial",
   "theorems": [
    "Verif.Rtc.C246_counterexample",
    "Verif.Rtc.C246_partial"
   ],
   "note": "Refuted: when the data channel reports an error at one end after it has opened at the other, one is direct and the other relayed for all that follows. Proved without such errors."
  },
  {
   "property": "C247",
   "status": "proved",
   "theorems": [
    "Verif.Rtc.C247_made",
    "Verif.Rtc.C247_signals",
    "Verif.Rtc.C247_sent",
    "Verif.Rtc.C247_once"
   ],
   "note": "For all runs of both ends."
  },
  {
   "property": "C248",
   "status": "proved",
   "theorems": [
    "Verif.Argon.C248_measured",
    "Verif.Argon.C248_final",
    "Verif.Argon.C248_fails"
   ],
   "note": "For all machines, also such whose times change from round to round."
  },
  {
   "property": "C249",
   "status": "proved",
   "theorems": [
    "Verif.Argon.C249_passes",
    "Verif.Argon.C249_memory"
   ],
   "note": "For all machines; the memory statement for minima above zero (for zero nothing is returned, see C250)."
  },
  {
   "property": "C250",
   "status": "partial",
   "theorems": [
    "Verif.Argon.C250_counterexample_small",
    "Verif.Argon.C250_counterexample_slow",
    "Verif.Argon.C250_partial"
   ],
   "note": "Refuted: with a minimum of zero or one millisecond no machine ever gets settings (half of it is rounded to zero), and none does where one pass always takes half of the minimum. Proved: machines whose hash takes at most proportionally long, and four times the least memory within the minimum, get settings with at least that memory."
  },
  {
   "property": "C251",
   "status": "partial",
   "theorems": [
    "Verif.Argon.C251_counterexample",
    "Verif.Argon.C251_partial"
   ],
   "note": "Refuted: with less than 64 MiB free, settings with 64 MiB are tried first and returned. Proved when at least the default is free; half of it is kept free when twice the default is."
  },
  {
   "property": "C252",
   "status": "partial",
   "theorems": [
    "Verif.InPlace.C252_counterexample_short",
    "Verif.InPlace.C252_counterexample_beyond",
    "Verif.InPlace.C252_partial"
   ],
   "note": "Refuted: a window that begins after the first byte says the length of the whole buffer, and one beyond the length but within the capacity is accepted and panics. Proved for the window of the whole buffer, the only one that is used, under all sequences of operations."
  },
  {
   "property": "C253",
   "status": "partial",
   "theorems": [
    "Verif.InPlace.C253_counterexample",
    "Verif.InPlace.C253_partial"
   ],
   "note": "Refuted: in a window that begins after the first byte decryption always panics. Proved for the window of the whole buffer."
  },
  {
   "property": "C254",
   "status": "proved",
   "theorems": [
    "Verif.InPlace.C254_encrypt",
    "Verif.InPlace.C254_decrypt",
    "Verif.InPlace.C254_packet",
    "Verif.InPlace.C254_valid"
   ],
   "note": "For all ciphers that keep lengths and decrypt what they encrypt."
  },
  {
   "property": "C255",
   "status": "partial",
   "theorems": [
    "Verif.InPlace.C255_counterexample_key",
    "Verif.InPlace.C255_counterexample_replay",
    "Verif.InPlace.C255_counterexample_header",
    "Verif.InPlace.C255_partial"
   ],
   "note": "Refuted: protection without a key loses the payload; a replayed packet is left decrypted in the buffer; a header length beyond the packet panics. Proved for packets that cannot be opened."
  },
  {
   "property": "C256",
   "status": "partial",
   "theorems": [
    "Verif.Uring.C256_counterexample",
    "Verif.Uring.C256_partial"
   ],
   "note": "Refuted: recv_loop drops its slots before the ring, so a datagram in between is written to freed memory whenever a slot is at the kernel (C256_counterexample). Proved until the slots are dropped (C256_partial)."
  },
  {
   "property": "C257",
   "status": "proved",
   "theorems": [
    "Verif.Uring.C257_order",
    "Verif.Uring.C257_rest"
   ],
   "note": "The order is that of the completions."
  },
  {
   "property": "C258",
   "status": "proved",
   "theorems": [
    "Verif.Uring.C258_slots",
    "Verif.Uring.C258_room"
   ],
   "note": "With 16 slots and 64 entries, as in the code."
  },
  {
   "property": "C259",
   "status": "proved",
   "theorems": [
    "Verif.Uring.C259_ends",
    "Verif.Uring.C259_dropped",
    "Verif.Uring.C259_why",
    "Verif.Uring.C259_error"
   ],
   "note": "The loop ends by the thread's own steps."
  },
  {
   "property": "C260",
   "status": "proved",
   "theorems": [
    "Verif.Meters.C260_newest",
    "Verif.Meters.C260_forward"
   ],
   "note": "Any number of threads, each of which reads and then stores."
  },
  {
   "property": "C261",
   "status": "proved",
   "theorems": [
    "Verif.Meters.C261_expired",
    "Verif.Meters.C261_kept"
   ],
   "note": "For clocks below 2^64 nanoseconds since the base."
  },
  {
   "property": "C262",
   "status": "partial",
   "theorems": [
    "Verif.Meters.C262_counterexample",
    "Verif.Meters.C262_counterexample_steady",
    "Verif.Meters.C262_partial"
   ],
   "note": "Refuted: samples less than a second apart divide by zero, and equal samples have the rate zero. Proved for the denominator of samples a second or more apart."
  },
  {
   "property": "C263",
   "status": "proved",
   "theorems": [
    "Verif.Meters.C263_total",
    "Verif.Meters.C263_range"
   ],
   "note": "Without rounding: the total is an integer."
  }
 ]
}
