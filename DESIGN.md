# Design of the formal model

Subject: `Avarok-Cybersecurity/Citadel-Protocol`, source under `/repo` (read as text, never built or run here).
Tool: Lean 4.33.0 with the offline Mathlib, one module imported at a time. Everything lives in `/verif/lean`.

## Method

* Each module `Verif/<Area>/Model.lean` transcribes Rust functions into total Lean functions; each definition cites
  file and lines. `&mut self` becomes "return the new value", `Result`/`Option` stay data, panics are explicit
  error values, loops become folds or structural recursion.
* `Verif/<Area>/Spec.lean` (where needed) holds the small, model-independent vocabulary used by theorem statements.
* `Verif/<Area>/Props.lean` holds only the property theorems (names `Cnn_...`) and the `example`s that show their
  hypotheses are met; helper lemmas live in `Lemmas.lean`.
* Concurrency is modelled as interleavings of atomic steps over explicit FIFO channels.
* Cryptography is a parameter: either an abstract AEAD with a correctness law (round trips), an ideal
  authenticity law (genuineness), or symbolic terms (secrecy).
* When the code violates a property: a theorem `Cnn_counterexample...` proves the violation on the model from a
  concrete witness and a `Cnn_..._partial` theorem proves the strongest version that does hold.

## Plan per property

| id | modelled | how proved |
|----|----------|-----------|
| C01-C03 | `AntiReplayAttackContainer` on `Nat` ids < 2^64 with saturating arithmetic | invariant over all id sequences linking `seen`/`high_water` to the ghost list of accepted ids |
| C04 | `protect/validate_packet_in_place` over an ideal AEAD, sender counter, adversarial network step relation | invariant over all runs |
| C05-C07 | `Toolset` with versions modulo 2^32 | invariant + refinement to the log of committed ratchets |
| C08-C09 | `OrderedChannel::on_packet_received` | invariant over arrival sequences, refinement to "longest gap-free prefix" |
| C10 | `SyncToggle`/`ToggleGuard` as an atomic flag, interleaved tasks | invariant over traces |
| C11 | `Splitter`: packet vector and port mapping | permutation/div-mod arithmetic |
| C12-C14 | `Splitter`: metadata, sender cutting, packet headers, `GroupReceiver` | arithmetic for all lengths + invariant over arrivals; C12 and C13 fail on exact multiples (counterexamples + partial) |
| C15 | `get_missing_waves`, `get_missing_count_in_wave` | bookkeeping invariant over all packets; wave report fails (counterexamples + partial) |
| C16 | `on_wave_tail_ack_received`, acknowledgements produced by the receiver | sum argument; fails for repeated acks and for whole-wave pre-encrypted transfers (counterexamples + partial) |
| C68-C70 | receiver against hostile descriptions, packets and relays | invariant over arbitrary packets: every written window is one decrypted wave; counterexamples for the false parts |
| C17-C18 | `SecPacket`: `SecureMessagePacket` over `PartitionedSecBuffer` on byte lists | exact result of every build (ok/error/panic), hence round trip; totality of decoding |
| C60 | as C17, `PartitionedSecBuffer` alone | refinement to a list of separate byte strings; fails without overflow checks above 4 GiB (counterexample + partial) |
| C19 | `Layered`: `verify_level`, `protect_message_packet`, `validate_message_packet` over the one-layer model of C04 | induction over layers; whole sessions with out-of-order delivery via the per-layer replay invariant |
| C61 | `Layered`: `local_encrypt`/`local_decrypt` | induction over layers |
| C65-C66 | `Hybrid`: `KyberModule` encryption and decryption, byte-exact, primitives as parameters | length-field arithmetic; case analysis for hostile input |
| C62-C64, C67 | `KeyStore`: container construction, key schedule, stacked re-keys, local encryption | induction over rounds and layers; C62 and C64 fail (counterexamples + partial); C67 reduces to an explicit collision |
| C20 | packed byte, both directions, whole finite domain | `decide` over the complete finite domain |
| C21-C22 | `TreeMath`: `tree/math.rs` on natural numbers and again on `u32` with overflow checks | nodes as (level, index) coordinates, leaves below a node as an interval, all n; the two versions agree for n <= 2^31 |
| C23-C24 | `TreeKem`: ratchet tree, update paths, `GroupState`, parametric in the primitives; histories of updates, joins, removals and messages | one invariant on the tree (shape, unmerged lists, every member holds the secrets of the nodes above it that do not mark it unmerged) kept by every operation; C23 fails for hostile Welcomes (counterexample + partial) |
| C25-C26 | the same functions on symbolic terms; attacker sits at any set of leaves that may change over time | invariant bounding what is derivable: a node secret is public only if a bad member was below the node when it was made |
| C27 | application messages | injectivity of the (sender, generation) derivation; wrap-around counterexample |
| C28 | `GroupCgka`: `GroupCgkaState` and the client's handling of relayed signals | invariant over commit sequences; fails when the relay announces another epoch (counterexample + partial) |
| C71, C73-C76, C78 | as C28, arbitrary relay | counterexamples + partial |
| C72 | `GroupCgka.Relay`: owner, clients, roster and everything in flight with a faithful relay | invariant: history of the owner's commits, and for each client what is still to come takes it to the newest epoch (`RelayInv`, `RelayTrack`, `RelayActs`, `RelayKeep`) |
| C79-C81 | as C72 | counterexamples from concrete schedules or from C72; partial versions from a second invariant on the leaves (`RelayLeaves`) |
| C77 | `TreeKem.Forward`: symbolic | everything a passive member holds is derivable from its join secret and the traffic (counterexample); the committer's state holds only new secrets |
| C29-C30 | `hierarchy.rs`, `hierarchy_member.rs`, `CommandPath` | prefix algebra, symbolic derivations |
| C31-C33, C59 | server group roster (`peer_layer.rs` + `group_broadcast.rs` server branches) and the leaf cids of the owner's ratchet tree (`Verif.Roster`); signals carry the session and the header cid | trace invariants; counterexamples for the false parts |
| C34-C36, C82 | `Rekey`: `trigger_rekey_with_payload` and `rekey` of both endpoints, micro-step by micro-step, FIFO channels; two schedulers (preemptive `fineStep`, cooperative `coopStep`) | cooperative: inductive invariant of 13 stages plus stale messages (`Inv`, `Noise`, `StageN`, `StageI`), at least 3 ratchets; preemptive: counterexamples found by state exploration of the same model; cooperative runs are proved to be preemptive runs |
| C35 (in flight) | `Rekey/Wire`: outbound queues, wires and inbound queues around the same tasks; packets carry the version and ratchet they are encrypted with; answers use the ratchet of the packet they answer | `Flow` (`Data.lean`): stamps on one wire are sorted and at most one behind the receiver; only `Truncate`/`LoserCanFinish` and the answered leader drop a ratchet, always older than anything under way; every run with wires is a run without them |
| C83 | as C34 | weight that every step lowers and every call raises by at most 352 (any scheduler, any state); explicit completing schedule |
| C84 | the re-key model; a transfer keeps the ratchet it started with | store changes of every micro-step (any scheduler); concrete runs |
| C85 | `GroupIds`: who takes ids from which counter, receiver's `OrderedChannel` | reduction to C08/C09 (first missing number) |
| C86 | `Rekey/Perfect`: versions with which the proposals (which carry the messages in perfect-secrecy mode) are encrypted, over `Rekey/Wire` | cooperative: invariants on top of C35 (proposals queued + budget of the trigger task per version); false for the initiator beyond two per version: `C86_counterexample` |
| C87 | `Transfer`: loop of the sender, packet handlers of both endpoints, backend, over two FIFO channels | invariant giving the position of the receiver in the file; exact number of groups stored; measure for termination; false for later files: `C87_counterexample` |
| C88 | `Transfer/Revfs`: cutting and local encryption on push and pull; local encryption abstract (correct, fixed growth, other pieces do not decrypt) | list lemmas about `cut`; exact condition; false in general: `C88_counterexample` |
| C89 | `Transfer/Delete`: `post_close_hook` in the transfer model | from the invariant of C87; false for a last group of several waves: `C89_counterexample` |
| C90, C92, C94 | `FileStore/NetModel`: routing of a packet to a ratchet, remote-file-system requests, file and group headers, group payloads, answers of the user, over the backend of C91; headers and metadata are chosen by the sender | generic invariant over tasks and groups of all sessions, frame lemmas of C91; all three false for dishonest senders: `C90_counterexample`, `C92_counterexample`, `C94_counterexample` |
| C148 | `FileStore/Upload` over `FileStore/NetModel` and `FileStore/Model` | induction over the waves of a group and the groups of a file from a half-way state; `store` of a plain name by the lemmas on paths of C91 |
| C95, C96, C97 | `NetRwLock`: both endpoints of `net_rwlock` (acquirer, lost conflicts, `yield_lock`, drop code, background handler, local store of readers) with FIFO channels | false when requests of different kinds cross (concrete runs with increasing request times); proved for all other executions: every execution is simulated by a finite system of shapes (who wins, readers or none, value fresh or not), whose closure is searched exhaustively by the kernel (`explore`, proved sound) |
| C98 | as C95 | false (a release of a reader that entered while the lock was lent is ignored: proved stuck for every continuation; a waiter is forgotten after crossed writes); proved when only readers cross and nobody reads under a lent lock, by the same search |
| C99-C103, C105, C106 | `Login`: registration, pre-connect and connect handlers of both roles (they are the same code) with their suspension points, account stores, an attacker who owns the network, can register, and may steal account keys | invariants over all sessions, with the log of sent packets as history; false for stolen keys, for role confusion and for dishonest clients: `C99_counterexample_disabled_credentials`, `C101_counterexample_fake_server`, `C102_counterexample_fake_server`, `C103_counterexample_client_overwrites`, `C105_counterexample_*`, `C106_counterexample_foreign_name`; C100 proved in full |
| C104 | as C99 | a whole honest registration and login computed symbolically, for all names and passwords |
| C91 | `FileStore/Model`: paths as strings, both validations, `Path::components`, resolution, backend operations on a file system | place of every accepted path computed exactly, frames of all operations |
| C93 | as C91 | refinement to a map by an invariant (directory tree, no metadata name is a directory); false for names ending in `.vxe`: `C93_counterexample` |
| C37 | `Messenger`: `send`, queue and background task of the messenger layer, ordered receiver; a call of `trigger_rekey_with_payload` ends in an arbitrary one of its three ways; the transport reorders; two schedulers (threads, one thread) | every message is at exactly one place (permutation invariant), then C08/C09; lost wake-up, stall and busy waiting as counterexamples |
| C38 | `DisconnectSignalTracker` | trace invariant |
| C39 | `SessionQueueWorker` | ticket collision counterexample + partial |
| C40 | `NetSelect`: both endpoints of `net_select_ok` with FIFO channels | inductive invariant over all schedules; termination by a measure once both computations are over |
| C41 | `NetTryJoin`: both endpoints of `net_try_join` with FIFO channels | second half false (counterexamples both ways: a side keeps its `Ok` although the peer failed; the project's own test accepts this); first half and termination proved |
| C42, C43 | `NetMutex`: both endpoints of `net_mutex` (acquirer, yield, drop code, background handler) with FIFO channels | inductive invariant enumerating 41 control shapes, all times and values symbolic |
| C44 | as C42 | false (after a contended round the second holder's release can be lost: proved stuck for every continuation); proved: uncontended executions, classification of quiescent states, every waiter in a non-stuck state is served |
| C45 | `IDGen` for `SymmetricConvID`, `subscribe`, `preaction_sync` handshake between two endpoints | trace invariant |
| C46-C47 | account mutual lists on the server | trace invariant; C47 fails with duplicate registration (counterexample + partial) |
| C48-C49 | pure functions | direct; C49: the code counts bytes, not the documented characters (counterexample) |
| C50 | nonce counter of the entropy bank inside the packet model | trace invariant, below 2^63 packets |
| C51 | packet model with counter resets of either side | counterexample across a reset + at-most-once per period |
| C54 | `Verif.Mutuals` with deregistration as two separate steps (the code removes from the two accounts under two separate locks) | trace invariant counting entries and half-done removals; counterexample for opposite deregistrations |
| C55-C58 | server branches of `PostRegister`, `Deregister`, `DO_DEREGISTER` over the account model, requests carry the session they arrived on and the header cid the client chose (`Verif.PeerSignals`) | trace invariants on tracked postings; counterexamples for the false parts |
| C52-C53 | same model as C45 plus an arbitrary peer | counterexamples (stale answer after a cancel; hostile proposals) + partial |
| C107-C110 | `Sessions`: the session manager of a server with the parts of the SYN, connect, disconnect and shutdown code that use it, suspended handlers as continuations | invariants per account (`OInv`: at most one attempt that may go on, at most one session is found) over executions that are orderly for the account; executable runs for the counterexamples; the lock-out is proved to last in every continuation (`Locked`) |
| C111-C114 | `HolePunch`: one attempt of `drive` on both sides with its tasks (punchers, resolver, reader, poller, rebuilder), any number of sockets, lossy packets | invariants over both endpoints (`Half`, `Told`, `Mail`) for all executions; possibility of success from every state when no puncher is reached by two; counterexamples whose dead ends are proved to last in every continuation |
| C115-C120 | `Backends`: the four stores of accounts (memory, files, SQL, Redis) with the operations that change accounts, peers and the byte map; a reference store that is three functions | simulation of the reference by each store along all histories that meet a stated condition (`Along`), every order of rows for SQL; counterexamples for the conditions, most for every state |
| C121-C124 | `NatPred`: classification of a NAT from three mappings, prediction, candidates of a hole punch, which sockets ping what; rules of NATs stated apart from the classification | closed form of the mean distance, arithmetic; a characterisation of the candidates; hostile NAT types as universally quantified counterexamples |
| C125-C129 | `Callbacks`: the map of the listeners, keys of requests and results, what the node reports, the 18 calls of the SDK as functions of a result, the executor; what a subscription should get is stated on the list of actions | simulation of the map by the list of actions, conservation by counting, a preserved stalled state |
| C130-C131 | `CallChan`: the two request and response channels of netbeam, with cancelled calls, a full channel, dropped requests and a dropped receiver; the payload of a call is read off the list of actions | invariants on numbers under way (counted), forward induction, a preserved dead state |
| C132-C133 | `SyncStart`: both ends of `synchronize` step by step, with real time, two arbitrary clocks, the mailbox of the subscription and the loss of the connection | conservation of packets (taken, in the mailbox, under way, lost), time invariants for clocks with constant offsets, decreasing rank, preserved stuck states |
| C134-C135 | `Timers`: the queue of deadlines and the map of functions of the session queue worker, with arbitrary results of the functions and arbitrary order of expiry; the condition on the group ids is stated on the list of actions | one-to-one invariant between deadlines and entries, fresh keys from ascending ids, preserved lost timer |
| C136-C137 | `KeepAlive`: the packet that travels between client and server, the record of the last one, the checks; real time, constant clock offsets, bounded delays, deaths and cuts | two-sided time invariants with linear arithmetic, universally quantified timeouts in the counterexamples |
| C138-C141 | `Wire`: frames, the `LengthDelimitedCodec` decoder fed with chunks, the header obfuscator and its cipher, two obfuscators in a connection, the outbound loop, the reader of the first packet | the bytes read and not handed out as a ghost, a relation to the frames still to come; two obfuscators that work with the same key; the written bytes as a ghost of the loop |
| C142-C143 | `BiChan`: the two ends of a netbeam channel, their shared flags, the tasks spawned when a receive half is dropped | an invariant of both halves with the items accepted before `Halt` as a ghost; a measure that every step of the waiting task decreases; a stuck state that every step preserves |
| C144-C146 | `Broadcast`: the kernel for groups: the loop that waits for the channel, the function of the user, the acceptor of registrations, the loop of a client that joins | an invariant with counts of the requests that arrived, wait and were answered; both queues drained by induction; the five looks by cases |
| C147 | `Replay`: the outgoing counter and the report of use | the counter and the high-water mark from the events after the last reset, by induction on the history |
| C149-C150 | `PeerKernel`: one task per peer, the channel of results, the map from a peer to its receiver of files; handles as the packet processors make them | invariant (results = sent tasks; an entry is live iff its task was not refused); concrete runs for the counterexamples |
| C151 | `OneConn`: builder of the settings, calls of the kernel, channels for events and files | last value of each setting by induction on the calls of the builder; invariant on the phase of the kernel and the calls made |
| C152 | `Backends` | by cases on the operation, for all states |
| C153-C158 | `Ranks`: owner, members, relay; positions, sealed assignments, messages; any correct primitives, and symbolic ones for what cannot be computed | invariant: each position that was let out is the one of the rank below the root of the moment, the last one under way decides; symbolic secrecy over all histories on top of the lemmas of `Hierarchy` |
| C159-C164 | `Serverless`: the room in the signaling service (greetings, offer, answer), any number of attempts, the phases of each; identity hashes are any strings | all states two attempts alone in a room can reach, as an invariant; progress and a measure for termination; invariant linking answers, offers and open channels for any number of attempts; concrete runs followed by invariants for "never, whatever happens" |
| C165-C168 | `Errors`: the two scans of a form with their indices (compile time and display), slices that panic off character boundaries, the whole registry of 326 forms | a form is the writing of pieces; induction over the pieces with what is scanned before; UTF-8 as an inductive predicate; the registry by evaluation of a proved parser |
| C169-C175 | `Puncher`: any number of punchers of `method3.rs` with both tasks, the lock of the endpoints and the stop flag; the network loses, repeats, redirects and renames datagrams; ideal sealing | invariant tying everything sealed in the history to its sender and to what it had heard; a second one for networks with true sources |
| C176-C180 | `ByteStream`: the streams of bytes over WebSocket messages (native) and over WebSocket or DataChannel callbacks (browser), with buffers of any sizes; composed with the codec of `Wire` | the bytes read, buffered and to come are a constant; for wake-ups an invariant of the parked reader; C177 and C179 are refuted by an empty frame, an error before the close, and a text frame |
| C181-C185 | `Bincode`: values of any type (an inductive type of shapes with dependent values) written and read by `bincode` as `serialization.rs` configures it, with the limit, the memory asked for and the elements begun | soundness and completeness of the reader against the writer by induction over the type; costs by a second induction with a bound per byte and per failed level; C183 (no allocation) and C185 (elements without bytes) are refuted |
| C186-C193 | `PeerKex`: the key exchange of two peers over the server, a slot per peer at each client, with the handlers of all signals, the hole punching that holds the channel, and the server; symbolic keys. A second world has a relay that says anything it can make (`Spec.lean`) | relation `Did` of what a signal does to a slot (`did_handle`), invariants of single slots along hostile runs (`hrun_slot`), an invariant over sent messages for authentication (`Auth`); all worlds of the runs with one ask and one answer enumerated (`Simple.lean`); the runs with two asks by computing all their worlds for five pairs of passwords (`Cross.lean`, closed under all moves) and a proof that passwords and cids can be renamed (`Rename.lean`), so that the theorem is for all of them; counting invariant for ids (`Ids.lean`) |
| C194-C203 | `PeerDrop`: the direct streams of one peer at a client (which of two is kept, what their ends clean up, notifier, error handler, tracker, signals of the server, commands of dropped channels), native and in browsers; two clients and the server that relays `Disconnect` | relation `Eff` of what a step does (`eff_step`), invariants of single clients (`Known`, `Newest`, `Gone`, `Tidy`), induction over the order of streams for the tie-breaker, a budget of signals for termination (`budget`); refuted in part: C194-C198, C200, C202, C203 |
| C204-C209 | `GroupChan`: the channel of one group at one client (opening by CreateResponse and Welcome, `forward_signal`, queue of requests, `Drop`), with the server and the owner as environment | relation `Eff`, invariant `Inv` over the requests and signals under way, ghost log of what arrived; refuted in part: C206-C209 |
| C210-C213 | `PunchPipe`: the pipes that bring hole-punch packets over the primary stream to the hole puncher, with connections, stale ratchets and re-keys of any number of peers | invariant `Inv` ties the registered pipe of a peer to the connection whose ratchet is used; exact contents by `Own` and `Serving`; refuted in part: C212, C213 |
| C214-C218 | `ChanEnd`: the receiving halves of the ordered and unordered channel of a connection, the flag they share, their drops, and the WebRTC adaptor | induction over runs from any state, with what one step does to each channel (`ord_step`, `udp_step`); simulation between a run and the run without the acts on the unordered channel; counterexamples for all continuations |
| C219-C221 | `Service`: the internal service of any number of clients: two queues, chunked reads, the select of three futures and the shutdown of the node | conservation of bytes and packets at each step (`svc_step`, `node_step`); simulation of each client alone; counterexamples for all continuations |
| C222-C225 | `Udp`: what a session does with datagrams of its UDP sockets and with packets for somebody else, in every table of connections | inductive relation `Eff` of all that a datagram can do, from which the step theorems follow; runs by induction; counterexamples for every state of a kind, and from end to end with two nodes |
| C226-C229 | `UdpLife`: the unordered channel of two peers from the key exchange to its end, with all orders of exchanges, streams, loaders, drops and failures | invariants of reachable states (`Inv`, `Ids`, `Alive`, `Own`); counterexamples for every reachable state or every continuation |
| C230-C234 | `SendFile`: from a source of bytes, with a length it claims, through the reader, the encryption task, the channel of five groups and the stopper to the groups the session sends | invariants of all runs (`C230_sent`, `C230_prefix`, `C230_all`, `C232_drained`, `C234_*`); conservation of errors (`C231_partial`); the other halves of C231-C233 are refuted by `C231_counterexample_short`, `_enc`, `_full`, `C232_counterexample`, `_short`, `C233_counterexample` |
| C235-C239 | `Listen`: the listeners of a server (TCP, TLS, WebSocket, QUIC, the TCP listener that redirects to QUIC), merged listeners, and how a client chooses its transport from the first packet | the choice as a function of policy and packet (`C235_*`, `C236_*`); death is absorbing, so counterexamples hold for all continuations (`C237_*`, `C238_counterexample`); an attempt that arrived stays in the listener until it is let in (`C238_partial`); counting invariant of all runs (`C239_*`) |
| C240-C243 | `Inbound`: the reader of a session with its limit on packets worked on at once, and handlers that wait for later packets of the same stream | counting invariant of all runs (`C240_*`); a jam is preserved by every event but a time limit (`C241_counterexample*`, `C243_counterexample*`, for all limits and continuations); a measure that falls with every step of the session's own (`C241_partial`, `C242_drained`, `C243_partial`) |
| C244-C247 | `Rtc`: the hole punch of two browsers by WebRTC: offer, answer, data channel, each step of which may fail, and signals that are dropped while no channel for them is registered | invariants of both ends for all runs (`C244_*`), causality from the past of a run (`C247_*`), stuck states closed under all events and a chain of states from which a direct connection is reached (`C245_*`), an invariant without errors of the data channel (`C246_*`) |
| C248-C251 | `Argon`: the loop that tunes memory and passes of the password hash, over a machine given as the time (or failure) of each hash in each round | invariants of all rounds that keep what was measured (`C248_*`, `C249_*`), an invariant of machines that are too slow (`C250_counterexample_*`), descent on memory and passes for machines that are fit (`C250_partial`), memory only goes down (`C251_*`) |
| C252-C255 | `InPlace`: the window of a buffer that ciphers work on, encryption in place, and the protection and validation of packets with it, over any cipher | the window of a whole buffer simulates a vector under all operations (`C252_partial`), from which agreement with encryption of a copy follows (`C253_*`, `C254_*`); counterexamples for all other windows and for failures (`C252_*`, `C253_*`, `C255_*`) |
| C256-C259 | `Uring`: the thread that receives datagrams through io_uring, with its slots, queues and the kernel | counts of each slot over all places (`C256_partial`, `C258_*`); a history of what the kernel completed (`C257_*`); steps of the thread to the end and the reason of the end (`C259_*`); a write to freed memory from every state in which the loop is left with a slot at the kernel (`C256_counterexample`) |
| C260-C263 | `Meters`: the time of the last confirmed packet, with threads that read the clock and store later, and the statistics of transfers | the atomic is the largest of what was stored, in every order (`C260_*`), from which expiry is just a minute of silence (`C261_*`); integer arithmetic for rates and totals (`C262_*`, `C263_*`) |

## Findings in the code

Each is proved on the model (`*_counterexample*`):

* C23: `join_from_welcome` takes the tree as it is; an unmerged leaf outside of the tree makes the member's next commit
  index out of range.
* C27: `send_generation` is a wrapping `u32`; after 2^32 messages in an epoch key and nonce repeat.
* C55: `deregister_packet.rs` line 76 deletes the account named by `header.session_cid`, which is never compared with
  the session's own cid: any authenticated client can delete any account.
* C56: the answer to a peer registration is matched by (asker, ticket) only; a third client can answer.
* C57: a `DeregistrationSuccess` posting lives for an hour and makes a later opposite deregistration report success
  without removing anything.
* C58: a client that answers its own registration request makes the memory/file account store lock itself up.
* C47/C54: duplicate registrations and overlapping opposite deregistrations leave stale or one-sided entries.
* C31: `AcceptMembership` is not tied to owner or invitee: a requester accepts itself into a private group.
* C32: `permission_gate` compares the group owner with the client-supplied header cid.
* C33: the server forwards group messages of non-members.
* C59: the owner's client adds a leaf for any relayed `KeyPackage`; `LeaveRoom` does not re-key; `End` + `Create`
  with the same id keeps the old ratchet tree.
* C39: one-shot tickets of the session queue worker can collide and the expired entry panics.
* C49: credential length limits count bytes.
* C51: packet counters of a static ratchet restart with the session while the keys stay.
* C52/C53: a cancelled negotiation or a hostile peer breaks the pairing of multiplexed conversation ids.

* C41: a side of `net_try_join` returns its own success although the peer's computation failed.
* C44: `passive_background_handler` drops `Released(_, true)` without answering; after a contended round the network mutex
  can deadlock for good.
* C95, C96, C97: in `acquire_lock` of the network readers-writer lock, a requester that loses against a request of the other
  kind turns its holder into that kind, and the test before the undo (line 837) compares the holder with that same kind, so
  it is never turned back. A writer then has a write guard over a shared read holder (coexisting with readers of the other
  endpoint; writing through it panics; its drop leaves the holder in the local store, which admits readers while the other
  endpoint writes, or is never freed), and a reader has a read guard whose drop panics.
* C98: a reader that enters through the local store while the lock is lent and leaves after the other endpoint has released
  sends `ReleasedRead` to an endpoint whose background handler ignores it; the drop code waits for ever for
  `ReleasedVerified`, and no lock can be acquired again by either endpoint. As in C44, a loser of crossed writes is not served
  until the winner asks again.
* C99: `validate_credentials` accepts credentials of the variant `Disabled` for any account (only the user name is compared):
  whoever has the long-term key of an account does not need its password. The server also accepts any number of guesses.
* C101, C102: no handler of registration, pre-connect or connect checks whether the session is a client's or a server's.
  An attacker on the path answers a login with a registration of its own, sends a SYN for the account it just made at the
  client, and gets the user's hashed credentials and a connected session.
* C103: `register_personal_hyperlan_server` overwrites the local account with the same user name.
* C104: `new_register` trims the password, `new_connect` does not: a password with white space at its ends never works.
* C105: `hole_puncher`/`nat` fields of a session are `unwrap`ped or set twice: a client with two accounts sends two SYNs, a client
  sends STAGE0 twice, a stranger sends a SYN for CID 0 (the local account has no static ratchet) after a failed registration
  took the session out of the provisional map: the server task panics.
* C106: the channel of a server session is named by the header CID of the client's STAGE0, which is never compared.
* Seen while modelling login, not stated as properties: requirements on passwords (`CredentialRequirements`) are never
  checked for passwords; a FAILURE from a connected client leaves its session in the map; HALT and register FAILURE packets
  are not authenticated and end a client's attempt; accounts of transient clients that never connect are never deleted.
* C17/C60: `PartitionedSecBuffer::get_range` sums partition sizes as `u32`: writing an extension to a packet whose header and
  payload reach 2^32 bytes panics, and without overflow checks the windows overlap.
* C62: "local" encryption uses the sender's directional key, which the peer also holds: the peer's ordinary `decrypt` opens it.
* C64: a hybrid Bob given an unsigned transfer panics (`sig.cloned().unwrap()`); a hybrid Alice accepts an unsigned answer and
  then panics on every packet.
* C12: with hybrid encryption the ciphertext of a full wave does not fill its packets as announced; groups of whole waves
  never finish.
* C13: `GroupReceiverConfig::validate` rejects every honest group whose length is a multiple of 7032 bytes, and every
  full-size group that was pre-encrypted locally.
* C15: `get_missing_waves` reports nothing before wave 0 is there and looks only up to the most recent wave.
* C16: acknowledgements are counted without looking at their wave: repeated ones complete or overshoot a transfer; a
  pre-encrypted transfer of whole waves can never be completed.
* C68: a validated description with other packet counts per wave than the port range panics the receiver.
* C69: a hostile description makes the receiver finish with gaps or with waves that did not decrypt.
* C70: group payload headers are not authenticated and wave ciphertexts are not bound to their wave id: a relay can
  rearrange the waves of a file unnoticed.
* C28: the announced epoch of a commit is not authenticated; a replayed last commit puts a member ahead of the group for good.
* C71: any client can end the session of any other client with a malformed `KeyPackage` or `Welcome` (the server relays it to
  `key.cid` and an `Err` from the handler ends the session).
* C73: key packages are not bound to an identity: the server can answer for any invited client and enter the group.
* C74: the leaf index in a commit is not tied to the sender; a member can commit in another member's name and survive its own removal.
* C75: `join` accepts any Welcome at any time: a forged one replaces the group's secrets by chosen ones, a replayed one rewinds the
  member, and message keys repeat.
* C76: a kick removes one leaf with the cid; a second leaf with the same cid stays.
* C77: only the owner commits, so all other members keep their join secret for the life of the group: no forward secrecy.
* C78: a client's entry for a group is never removed: it can never join the same group again; let in again early it processes its own
  removal and its session ends.
* C79: a kick that overtakes the client's key package has no effect on the tree: the kicked client is added afterwards.
* C80: messages that cross a commit are dropped without notice.
* C34: with a multi-threaded executor the trigger can sleep between its checks across a whole re-key; both endpoints then commit
  different ratchets for the same version.
* C82: in the same way a re-key can end in a version barrier error, or leave the toggle set and a version declared that nobody
  works on (no further re-key until the 60 s staleness limit).
* C35: a toolset of two ratchets would lose the only common ratchet during a re-key (the code keeps at least 6).
* C84: a file transfer keeps the ratchet it started with; as every message re-keys, a transfer that lasts 5 (debug) or 31 re-keys
  loses all further groups.
* C37: in perfect mode `trigger_rekey_with_payload` sends the wake-up for the background task before `send` puts the message into
  the queue; with several threads the wake-up can be used up before (`C37_counterexample_stuck`). If the call fails, its message number
  is used up and the peer holds back all later messages (`C37_counterexample_failure`). While a re-key runs and a message
  waits, the background task wakes itself up again and again (`C37_counterexample_spins`).
* C85: a file sent to a peer takes its id from the messaging counter (`session.rs` line 1582; the transfer to the server uses the file
  counter); the receiver's ordered channel waits for that id forever: no later message or re-key message of that direction is delivered.
* C86: `trigger_rekey_with_payload` compares the version (`ratchet_manager.rs` line 575) and then awaits the sender (lines 593-606). If the
  initiator answers the other endpoint's proposal and that round completes in between, the proposal leaves under the new version, the other
  endpoint drops it as stale but delivers its message, and the next message starts its re-key under that same version: two messages, one
  ratchet, in the mode that promises one ratchet per message.
* C87: the receiver compares the absolute id of a group with the number of groups of the file (`inbound_transfer.rs`, `group_id as usize >=
  total_groups.saturating_sub(1)`). The ids are a counter of the session: every file with several groups that is not the first one of its
  session is reported as received after `max 1 (n - start)` groups and stored truncated. An empty file is never reported by anybody.
* C88: push encrypts each 3 MiB group with the local key, pull cuts the stored ciphertext (longer than the file) again at 3 MiB and decrypts
  these pieces: no file larger than one group minus the growth of the ciphertext can ever be pulled.
* C89: `delete_on_pull` deletes the file when two thirds of the last group are acknowledged (`post_close_hook`), not when the puller has it.
* C90: `REVFS_PULL` and `REVFS_DELETE` take the owner of the file from `header.session_cid`, which is not compared with the session for
  packets between client and server: every client of a server can pull (the stored bytes) and delete the files of every other client. An
  upload is stored under `metadata.cid`, chosen by the sender: with the consent of the receiver it replaces the file of somebody else.
* C92: `is_revfs_pull = local_encryption_level.is_some()` (`inbound_transfer.rs`) comes from the sender: a peer that claims a level gets its
  file written without any question, and the file is not matched with a request.
* C93: the metadata of `/a` is stored as `/a.vxe`, a path a client may use: storing it replaces the metadata (security level) of `/a`.
  `delete_on_pull` leaves the metadata behind. Lookups create directories, also below the ids of clients that do not exist; after a lookup
  of `/a/b` the file `/a` cannot be stored.
* C94: `inbound_files` is keyed by the object id only and shared by all connections of a client: a peer that knows the id (it is in
  plaintext headers) adds groups to the file of another peer, or ends it early, or blocks it with an equal id.
* C81: leaving does not rekey; only the server keeps later messages from a client that left.
* C107-C109: a SYN that waited for the end of an earlier session goes on without looking again and without a reservation
  (`session_manager.rs` lines 247-269). A SYN that comes right after that end is let through too: two sessions of one account are connected,
  the first one with the keys of the second (the session crypto belongs to the account) and not reachable.
* C109: a FAILURE of the connect stage clears `session_cid` before the session ends, and a panic loses the CID: `clear_session` is not called
  and the entry of the dead session stays in `sessions`.
* C110: a SYN that finds such an entry registers a drop listener at the dead session and waits. If its connection is closed meanwhile, the
  listener stays, and every later SYN for the account is refused as "already waiting": the account is locked until the server restarts. The
  second SYN needs no key. Also, a SYN whose handler ends with an error (backend, lost connection) leaves its reservation behind: anybody who
  knows a CID can keep its owner out by one such SYN every 30 seconds. An invalid SYN that waited releases a reservation it does not own.
* C107: `connect_packet.rs` sets `Connected` after its awaits without looking whether the session is disconnecting by then. A second valid SYN
  of one session replaces the session crypto and then panics.
* C111: the poller of the loser takes any enqueued socket aimed at the commanded puncher of the peer and does not compare its `local_id`
  (`multi/mod.rs` lines 297-305): with two sockets per side the winner sends to a socket the loser does not use.
* C113: with two sockets per side the commanded puncher may have ended with another puncher of the peer. Its socket is popped and thrown
  away, and there is no other way to use it: the loser polls for ever, and the winner waits for its `WinnerCanEnd`. Only the time-out of
  `udp_hole_puncher.rs` ends the attempt; the spawned `drive` goes on.
* C114: when all punchers of an endpoint have failed the resolver returns `Ok`, `select_ok` takes this for the result and the reader is not
  polled any more: a `Winner` that comes later is not read. The winner takes the earlier `AllFailed` for the end signal and returns its
  socket. So one endpoint has a socket, and the other one times out and repeats the attempt alone.
* C114: `WinnerCanEnd` that is read before the winner has taken its socket ends the reader, and with it the resolver: the loser returns,
  the winner does not. An endpoint that receives `AllFailed` answers `AllFailed` though it has not failed, which ends the peer's reader.
* Seen while modelling, not stated as properties: `hole_punch_config.rs` asserts that the peer sent as many addresses as there are local
  sockets, so the peer can make the task panic; the `Check` packet is sent in plain and dropped by the receiver as undecryptable. By C112
  the branch for failures of both the poller and the rebuilder is dead code.
* C116: `store_byte_map_value` of the SQL store (sql_backend.rs lines 825-862) INSERTs a row and does not remove the old one, the table has
  no key, and `get_byte_map_value` takes the first row: after overwriting a value the old one may be read, and `remove_byte_map_value`
  answers with it. The documentation says "either creating or overwriting any pre-existing value"; the test stores the same bytes twice.
* C117: `delete_cnac_by_cid` of the Redis store leaves the byte map of the account, the mailbox included. A cid is a function of the name, so
  whoever registers the name next reads it.
* C118: registering a pair twice makes `hyperlan_peer_exists` of the SQL store answer `false` (it asks whether the count is 1).
  `synchronize_hyperlan_peer_list_as_client` with an empty list changes nothing in SQL: a client whose last peer has left keeps it. In Redis
  `register_p2p_as_server` for a missing first account fails after its first write, which stays; peers without a name are dropped.
* C119: the joins of `hyperlan_peers_are_mutuals` and `get_hyperlan_peers` are limited to the number of questions, so duplicate rows of one
  peer hide another. With MySQL the cids are string constants compared with BIGINT, that is as doubles: cids that differ in the low bits match.
  In Redis `get_hyperlan_peers` is an error if one of the cids is not a peer.
* C120: `delete_cnac_by_cid` of the file store does not rewrite the files of the peers; after a restart they have the deleted account as a
  peer again. `deregister_p2p_as_server` returns before the files are written when the second half fails, so memory and files differ.
* C121: `wrapping_port_add` moves ports below 1024 up by 1024, so a NAT that maps there is not even predicted on the mappings that were
  observed. The range of predicted ports begins at the mean distance above the highest observed port: on a NAT that counts by one and is
  shared (50000, 50003, 50010) the next ports are skipped. The highest port is taken for the last one, which is wrong for a NAT that counts
  down or wraps around. Addresses of a pool are compared by the last octet; ties are broken by the order of the answers.
* C122: the condition for adding the socket's own address (nat_identification.rs line 209) asks that no band has the address *and* no band
  has the port, where it should ask for no band with both; with a port-preserving NAT the address is never added. The address in the local
  network is added with translated ports only.
* C123: `NatType` and the lists of addresses come from the peer. `assert_eq!` on the number of addresses panics; `3 * average_delta`
  overflows, or enumerates more than 10^9 ports (or addresses); observed addresses are taken as targets without a check.
* C124: a failed identification is reported as `NatType::offline()`, that is as predictable, so no relay is used. One server that fails
  among the last three, or fewer than three servers, is enough. External addresses in unrelated networks count as predictable.
* Seen while modelling, not stated as properties: the script of `get_clients_metadata` (redis_backend.rs lines 424-440) applies its limit
  only when it is larger than the number of values, and then returns the first value only; line 140 rejects `max_open >= max_idle`, the
  reverse of what the pool needs; `register_p2p_as_server` of the memory store deadlocks on an account paired with itself.

* C126: `send_error` (node.rs lines 405-424) always reports `cid_opt: None`, and `search_for_value` skips a listener that names a session
  when the result does not. Every request with a session (peer commands, rekey, files, groups, deregistration, connection by cid, also the
  check for a zero cid) is awaited under its session, so the failure goes to `on_node_event_received` and the call waits for ever. Only
  `connect_to_peer_custom` has a limit of time. The same holds for `OutboundRequestRejected`.
* C127: `insert` (kernel_communicator.rs line 194) overwrites the listener and then returns an error, with the new receiver already gone.
* C128: `create_group_with_options` and `rekey` do not call `into_result`, so they ignore errors even when they get them;
  a refused group (`CreateResponse { key: None }`) is forwarded as a `GroupEvent`, which `create_group` ignores too.
* C129: the limit `max_concurrency` counts handlers that wait for an answer, and the answer needs a free place to be handed over.
* C131: `TrackedCallbackChannel` keeps the sender of the response in its map. A request that is dropped without a response, or that is in the channel when the receiver is dropped, leaves its `send` waiting for ever; a call that is given up leaves its sender in the map, which grows without bound. `CallbackChannel`, where the sender travels with the request, has neither fault. (Both are exported by `citadel_proto::prelude`; nothing in the workspace uses the tracked one.)
* C133: the receiver of a synchronised start sleeps `rtt as u64` nanoseconds where `rtt` is a difference of two readings of the wall clock; when the clock is set back during the exchange the sleep lasts about 584 years (`C133_counterexample_clock_back`). The initiator sleeps until the time in the `Ack` by its own clock, so the difference of the clocks goes over to the start in full, and the peer can choose any delay (`C133_counterexample_clocks`, `C133_counterexample_peer_delays`).
* C133: when the connection is lost the task of `MultiplexedConn::register` ends without closing the mailboxes (the senders stay in the map of the connection), so every operation that waits for a packet of the peer waits for ever; one end may run and the other never (`C133_counterexample_waits_for_ever`, `C133_counterexample_one_runs`). If a mailbox were closed, `recv_until_serialized` would repeat the failing receipt without end, because it treats every error as an invalid packet.
* C134: the key of the timer of a group is `group id + 10 + counter` (session_queue_handler.rs 139), a sum that two timers may share. Between peers the groups sent (session.rs 1808) and received (primary_group_packet.rs 268) are registered under the same cid with ids from two counters: this side has sent groups 0 and 1 when group 0 of the peer arrives, and two timers have the key 12. The first function is lost; when the second has returned `Complete`, the other deadline unwraps `None` (line 257), the worker task panics and the session ends, a minute after the transfer (`C134_counterexample_honest`). A peer can do it on purpose with two group headers at any moment (`C134_counterexample_panic`).
* C136: `on_keep_alive_received` takes the record of the last keep alive and does not put it back when the packet is late but accepted (monitoring.rs 30-33); `keep_alive_subsystem_timed_out` is false without a record. From then on, and before the first keep alive (fifteen minutes for the client), a peer that disappears is never noticed.
* C137: the interval of the keep alives is fixed (15 minutes at each end, so that each end gets one every 30 minutes), the timeout is the caller's. Every timeout but 0 below 15 minutes (`connect(.., Some(Duration::from_secs(10)), ..)`) ends an idle session at the first check; `Duration::MAX` turns into a negative timeout. Less than a second turns into 0, which switches the keep alives off.
* C137: the age of a keep alive is computed from the wall clocks of both ends; clocks that differ by more than the timeout end an idle session at the second keep alive.
* C138: `DirectFrameWriter` has no maximum, the reader has 64 MB. A group message travels in one packet (`craft_group_message_packet`), so that a member who sends more than 64 MB loses their session; a message that just fits may be above the limit when the server forwards it with more layers of encryption, which ends the sessions of the other members. From 4 GB on the length is cut to 32 bits and the payload is read as packets.
* C139: `on_packet_received` compares the key of the first packet with the pre-shared key only if no key is loaded, but a server with a pre-shared key has it loaded from the start: the comparison (packet.rs 352-357) is unreachable, a client with another key is not refused, its headers are garbled. The documentation calls (server off, client with key) invalid; it works. The first packet carries the key of the cipher in clear also when it is pre-shared.
* C139: the listener of a peer connection uses the new stream as soon as it is accepted (`insert_direct_p2p_connection`), before the key packet is read; a packet sent in between goes out without the cipher and its header is garbled by the other end (p2p_conn_handler.rs 233-277).
* C141: `read_one_packet_as_framed` throws away the buffer of its codec; what arrived with the first packet is lost. It works because the server sends nothing more until the client has spoken. It is exported.
* C142: `send_item` tests a flag which the task of the dropped receive half sets only after `Halt` went out, so that an item accepted between is never read. The flag is shared by both halves: dropping the receive half of a split channel makes the send half refuse everything, although the other end still reads.
* C143: when both ends drop their channel and neither has read the `Halt` of the other, both tasks send `Halt`, both skip the `Halt` they read, and both wait for a `HaltVerified` that nobody sends; the tasks and the stream stay until the connection ends. The same happens when one end is dropped with unread items in front of the `Halt` of the other.
* C144: `BroadcastKernel` returns `Ok` without calling the function of the user when the subscription ends before a channel came: events that tell that the wish to join was refused are ignored. With `accept_registrations` it never ends after the function returned `Ok`, because the acceptor only ends with the feature `localhost-testing`; and one failure of the acceptor cancels the function.
* C145: an owner who accepts registrations answers only those that come after the request to create the group was sent; earlier ones go to the inner kernel, which does not answer. A client that does not accept registrations moves a request from its subscription into a queue which nobody reads.
* C146: a client that joins looks at 0, 1, 3, 7 and 15 s; then it waits 16 s more and fails without looking again.
* C149: `PeerConnectionKernel` makes a channel of capacity `peers.len()`; for an empty list that is a panic of `tokio`. A user who drops the receiver of results early makes the next task that is done fail to send; `try_join`-like handling ends the other tasks and the kernel returns an error although the function of the user returned `Ok`.
* C150: the `source` of a file handle is the `virtual_target` of the file header, which the sender chooses and nothing compares with the keys the packet was made with: any party can offer a file in the name of another peer. A file offered by the server finds no entry, its handle is dropped, and that declines it. The entry of a peer stays when the peer disconnects, so that the receiver never ends. If a peer is listed twice, the failure of one task removes the entry the other one uses.
* C151: `credentialed_login(addr, ..)` sets `address` and the kernel logs in by name: the address of the account is used, the one given is not. Events that come before the connection is made are dropped (`on_node_event_received` looks for the remote).
* C152: `store_byte_map_value`, `remove_byte_map_value` and `synchronize_hyperlan_peer_list_as_client` of the memory store answer `Ok` for an account that does not exist and drop the value; Redis keeps it (and the next account with that cid finds it). `deregister_p2p_as_server` of the memory store takes the entry of the first account away before it finds that the second has none, and returns an error; the script of `register_p2p_as_server` of Redis writes the list of the first account before it fails for a missing name.
* C153: a demotion, of anybody, draws a new root. What members send below the old root, until the new assignment reaches them, is opened by nobody who has the new root, the owner included, and is not sent again.
* C155: a kick re-keys the flat group only. In a hierarchy the root and all positions stay, so that the kicked member opens everything sent at or below its rank, also by members who come later, until somebody happens to be demoted; the comment at the kick promises the opposite.
* C156: a `HierarchyAssign` does not say who sealed it, and the server hands it on from anybody to anybody. Any member, knowing the leaf keys from the tree, can move another to a position of its own making and read what it sends; a payload that does not open ends the session of the target. The owner looks up the rank by the cid inside the key package, which the joiner writes itself, and sends the position to the sender of the packet: a joiner gets the rank of anybody.
* C157: a member without a rank stays in the flat mode: it opens no message of the hierarchy, also under `BroadcastAudit`, and nobody in the hierarchy opens its messages.
* C158: an owner that gives itself a rank gets the assignment back from the server. In a group that nobody has joined it opens it and loses the root; after the first commit its leaf has a key that `own_leaf_secret` does not belong to, so the assignment does not open and ends the session of the owner.
* C161: an attempt of `establish_serverless_connection` that times out leaves its greeting in the room; only an attempt that connects deletes the room. The next attempt with the same token takes the old greeting for its peer, alone in the room, also if it is its own of a moment ago (the nonce is fresh). Two that come next can both take it, both become clients, and wait for an offer nobody makes.
* C162: `offer` and `answer` of failed attempts stay as well. The client of the next pair answers the old offer if it polls before the server publishes its own; the server applies that answer, and both wait for a data channel that cannot come up.
* C163: `delete_room` also removes the greetings of those who still wait. `poll_for_peer` wants two greetings, its own included, so an attempt whose greeting was removed and the next one that comes do not find each other.
* C164: `beta_flow` sets `ondatachannel` after the `await` on the request that publishes the answer. If the server's end reads the answer and connects before the reply comes, the event is lost: the server's call returns a connection, the client's never returns. `wait_for_datachannel_open` and `wait_for_remote_datachannel` have no deadline; `timeout_ms` covers the polling loops only.
* C160: nothing binds the offer and the answer to the greeting: with three browsers in the room one is connected to another than the one whose hash it compared its own to.
* C167: `Display` writes the raw form when an error has no arguments, without the treatment of `{{` and `}}` that `render` gives it and `count_placeholders` accepts. No form of the registry has doubled braces today.
* C168: an error that passes through `std::io::Error` (both conversions are offered for `?`) comes back with the code `Io`; errors compare by code, so that it is then equal to every other such error and no longer to itself.
* C170: `recv_until` takes a `SynAck` from any address. It sends a datagram to that address and takes it that this is possible for a proof ("will allow"), which on UDP it nearly always is; whoever can delay a datagram and send it on from elsewhere decides where the "hole punched" traffic goes.
* C172: `recv_until` returns at the first `SynAck`, also if no `Syn` was received yet; the comment there says that it should not terminate then. The peer gets no answer and ends with a timeout after three seconds, with nothing lost on the network; only the recovery mode of the driver (`HolePunch`, C171) helps.
* C173: the `Check` is serialized and sent without `generate_packet`, while the receiver calls `decrypt_packet` on everything: "BAD Hole-punch packet". In the tests encryption is off.
* C174: an endpoint is to be dropped when the text of the error contains `NetworkUnreachable`. That is the name of the variant of `ErrorKind`; the text is `Network is unreachable (os error 101)`. Unreachable endpoints stay, and "All UDP endpoints are unreachable" is only reported when all addresses are IPv6 and the socket is not.
* C177: a data frame without bytes makes `poll_read` of the native `WebSocketByteStream` return with nothing read, which is the end of the stream to `FramedRead`: the session ends although the peer is there. Any WebSocket peer can send one; this program itself does not.
* C179: in the browser `poll_read_from_state` looks at `closed` before `error`. Browsers fire `close` after `error`, so that a reader that comes after both takes a broken connection for an orderly end.
* C179: the native stream takes text frames for data ("Treat text frames as binary data"), the browser leaves them out without a word.
* C183: the comment of `limited_options` says that an oversized length is "rejected up front with a clean `SizeLimit` error and no allocation occurs". For sequences (`Vec<u8>` too) the limit is charged with each element, and serde first makes room for up to 1 MiB; the bound on the memory is the proved one, not zero.
* C184: `deserialize_in_place` has no limit although it reads from any `BincodeRead`; nothing calls it. The other crates call `bincode::deserialize` on slices, which is as safe without the limit.
* C186: `Stage0` is answered by a client whose user has not asked for anything: `session_password.unwrap_or_default()` takes the empty password, with a log line "This is a development issue". The constructor made so is not replaced when the user then enters a password; `Stage2` makes the connection with it, so a relay that sends `Stage0` early gets a connection under the empty password from a user who entered a secret one. Without a password the relay stands in the middle.
* C187: `Stage2` carries nothing that depends on the key, so Bob makes a connection on the word of the relay alone ("since the AES-GCM was a success" in the comment is about the packet of the server).
* C188: `remove_session_password` is called nowhere, and the password of an earlier connection is all that the handlers ask for: after one accepted connection the other side (or the server; the server checks neither consent nor the `session_cid` in a `Kex`) makes new ones without the user.
* C189: `create_virtual_connection` has `.expect("The PSK was not found!")`: `Stage0` and `Stage2` to a client that has never dealt with the peer panic while the lock on its state is held. Any client can send both through the server.
* C190: with crossing asks and answers the ends come to rest with active connections of different keys, or with a connection at one end only, also if every queue is in order.
* C191: with crossing requests the client with the lower cid accepts the other's request by itself, but the server has already matched the two requests: it answers with an error, and the user is told of a failure (`SignalError`) before the connection that then comes about.
* C192: `Stage2` replaces `hole_punch_cancel_tx` before it looks whether there is a constructor, so a repeated `Stage2` (or `Stage0`) stops the hole punching, the channel it holds is dropped, and the connection is closed without a word to the user.
* Seen while modelling, not stated: `is_peer_registered` (remote_ext.rs line 1272) looks in the list of all accounts of the server, not in
  the list of mutual peers; requests of a node are handled one at a time, and a connection to a host that does not answer holds up the rest.
* C194: two streams of the right kind that come up in different orders are kept crosswise, and each peer stops the stream of the other. In browsers `stopper` is `None`, so a discarded stream goes on (wasm_p2p.rs line 261).
* C195: only the latest ratchet is kept when a connection goes; packets under way from before a re-key are dropped.
* C196: in browsers the end of any stream removes the connection that is there now, without a check of its id (wasm_p2p.rs lines 304-313). On native builds two streams of one connection share its id, so a replaced stream whose reader ends before the stopper is seen removes the live connection.
* C197: the handler of the server's `Disconnect` does not ask the tracker, so dropping one channel makes three events at the kernel.
* C198: `try_p2p_disconnect` comes before the check of the token (p2p_conn_handler.rs lines 311-330). A task of the connection before that runs late takes the mark, finds a newer connection and says nothing; the end of the newer connection is then suppressed. In browsers `clear_p2p_peer` is never called.
* C200: if a key exchange finishes twice with one id, the refused channel is dropped with the token of the live connection and ends it at the server.
* C202: the server strips the token of `Disconnect` (peer_cmd_packet.rs lines 1544, 1574), so clients cannot reject signals about the connection before; a late one ends the new connection at both peers.
* C203: when the reader of a stream fails, `handle_session_terminating_error` takes the mark and tells only the kernel; the notifier then does not tell the server. The token in that event has the cid of the peer and the ticket of the session instead of the connection id (session.rs lines 1039-1042).
* C206: `Drop` of the receiving half sends `LeaveRoom` with the key of the group whether or not its group has ended (group_channel.rs lines 276-290). An owner that ends a group and creates it again under the same key loses the new one when the old handle is dropped.
* C207: that `LeaveRoom` goes through `try_send` on a queue of 512; if it is full the request is lost, the member stays in the group, and the channel stays registered with a closed receiver.
* C208: `on_session_shutdown` of the owner removes its groups without a word to the members, whose channels stay open. An owner that kicks itself is not told. A Welcome that was made for a member kicked in the meantime opens a channel of a non-member.
* C209: `AcceptMembership` of the owner for one who asked to join is answered to the owner only, so the one who asked never publishes a key package and gets no channel. A member that was kicked keeps its entry of `group_cgka`, publishes no second key package when invited again, and gets no channel.
* C212: `pending_hole_punch_packets` is never used for peers. `get_orientation_safe_ratchet` comes first (hole_punch.rs lines 55-58) and finds no ratchet before the connection is made, and the pipe is registered under the same lock as the connection. A packet that is early is dropped.
* C213: for the session itself packets without a pipe are kept without a limit; when UDP is disabled the pipe is never made, so a client can fill the memory of the server with hole-punch packets. Entries of `hole_puncher_pipes` are never removed.
* C215: `PeerChannelRecvHalf::poll_next` looks at `is_alive` before the queue: messages that were already received, decrypted and queued are thrown away when the connection is removed or marked inactive.
* C218: `recv` of the WebRTC adaptor calls `buf.copy_from_slice(input)`, which panics unless the buffer has exactly the length of the packet; callers pass buffers of the size of the largest packet, so the first packet panics.
* C220: a service that writes its answer and returns loses the answer (`flush` and `shutdown` of the communicator do nothing, and the `select!` drops the queue).
* C221: `internal_service` shuts the whole node down when the service or the connection of one client ends; on a server (`InternalServiceKernel`) the first client that leaves ends the server for all.
* C222: `process_udp_packet` opens a datagram with the keys of the socket's connection but chooses the channel by `session_cid` of the header: a peer can write into the unordered channel of another peer or of the server, and the server into those of peers.
* C223: `check_proxy` sends packets on before validating anything and on endpoints as well: a datagram of anybody that names a peer of the node is sealed under the keys of the two and arrives at the program of the peer as a message of this node. On a server it arrives at another client as a message of the server.
* C224, C225: `check_proxy` calls `peer_vconn.sender.as_ref().unwrap()`; the sender is `None` on an endpoint for a peer that is reached through the server. A datagram, or a packet over the direct stream of another peer, that names this peer panics the task (UDP, or the stream).
* C227: when a UDP task ends by an error of its socket, the channel stays registered: the program waits on a receiving half that gets nothing any more, while its sends fail.
* C228: `handle_p2p_stream` spawns the UDP loader also for a stream that `insert_direct_p2p_connection` has discarded (it returns `Ok`). The loader replaces the registered channel, finds the oneshot used and drops the new channel: the unordered channel of the program is dead although its stream was kept.
* C229: the loader takes the oneshot from `peer_kem_states` by the cid of the peer and does not compare connection ids. With simultaneous connects the suppressed second exchange has replaced the entry of the first, so the connection that is kept never gets its unordered channel; a late loader gives the channel of the old connection to the program of the new.
* C231: `AsyncCryptScrambler` logs a failure to read or to encrypt and ends its stream, and `file_streamer` then returns `Ok`; so a file that is shorter than its metadata said, or whose encryption fails, is not reported to whoever sends it, and the receiver waits for groups that never come. The error of a dropped stopper is handed over with `try_send`, so it is lost when the channel of five groups is full (`C231_counterexample_*`).
* C232: the task that takes the groups cannot tell the end of the source from its failure, and executes the hook in both cases; the hook of a revfs pull with `delete_on_pull` deletes the file, so a failure to encrypt the first group deletes a file of which nothing was sent (`C232_counterexample`).
* C233: `scramble_encrypt_source` divides by the requested size of groups; `NodeRequest::SendObject` with `chunk_size: Some(0)` panics (the SDK extension replaces 0 by the default; the request itself is public) (`C233_counterexample`).
* C235: with `require_cert_verification` the client still follows a first packet that says `OrderedReliable` into plain TCP, and for TLS and QUIC the name it verifies is the `domain` of that packet, which anybody on the path can choose; the policy stops only attackers that hold no certificate at all (`C235_counterexample_plain`, `C235_counterexample_name`).
* C237: a QUIC listener runs `next_connection` in a loop and leaves it with `?` when a handshake or `accept_bi` fails; the owner of the listener polls the ended future again, which panics, so one client that connects and closes ends the server. The TCP listener that redirects to QUIC ends when a client resets before the first packet is written, and takes the QUIC listener with it (`C237_counterexample`, `C237_counterexample_merged`). `accept` errors such as a lack of descriptors end all kinds (`C237_counterexample_accept`); the WebSocket listener ends when `set_nodelay` fails (`C237_counterexample_ws`).
* C238: `next_connection` waits for the first stream of a connection before it takes the next; a client that completes the QUIC handshake and opens no stream keeps all others out for as long as it stays (`C238_counterexample`).
* C241: `p2p_hole_punch` is awaited inside the handler of a packet, and the reader of a session works on at most 64 packets at once. Each hole punch under way takes one of the 64 places and needs further packets of the same stream. In browsers a hole punch has no time limit (`sig_rx.recv().await`, `wait_for_datachannel_open`; the receiver of cancellations is dropped), so that each one that fails silently takes a place for the life of the session, and after 64 of them the session reads nothing any more (`C241_counterexample`, `C241_counterexample_jam`).
* C243: on native nodes 64 hole punches at a time keep each other's packets from being read until time limits (15 s and 30 s) end them, though both sides have sent all that is needed; meanwhile nothing of the session is read (`C243_counterexample`, `C243_counterexample_reached`).
* C245: in browsers no wait of a hole punch has a time limit. The initiator waits for ever when the responder fails before its answer, needs a relay, or handles the offer before its channel for signals is registered (the offer is dropped then); both wait for ever when the data channel never opens. The kernel then never gets the connection, though the relayed one works (`wasm_p2p.rs:12-104`, `wasm_rtc.rs`, `peer_cmd_packet.rs:1023-1038`).
* C246: an error of the data channel at one end after it has opened at the other leaves one end direct and the other relayed.
* C250: a minimum of zero or one millisecond never leads to settings: half of it is rounded to zero, no time is below, and the memory is cut down until the hash refuses it (`autotuner.rs:137`). The same happens on a machine where one pass with the least memory takes half of the minimum.
* C251: the documentation says that memory is capped at what is free; with less than 64 MiB free the tuner begins with 64 MiB and can return it (`autotuner.rs:86`).
* C252, C253: `InPlaceBuffer::len` gives the length of the whole buffer and not that of the window, and `truncate` takes its argument for the end of the window; a window that does not begin at zero therefore always panics in decryption. `new` checks the window against the capacity, but `as_ref` slices by length. No caller uses such windows (`bytes_in_place.rs:42-89`).
* C255: `protect_packet_in_place` splits the payload off and does not put it back when it fails; `validate_packet_in_place` leaves a replayed packet decrypted in the buffer (`lib.rs:713-781` of `citadel_pqcrypto`).
* C256: `recv_loop` (`udp_io_uring.rs:150-243`) has the slots as a local and the ring as a parameter, so the slots are freed first, while up to 16 `recvmsg` operations point into them. A datagram that comes then is written by the kernel to freed memory. The `SAFETY` comment of `push_recv` (`140-143`) covers only the time of the loop.
* C262: `TransferStats::add_assign` divides nanoseconds to whole seconds before it divides by them, so the rate of samples less than a second apart is infinite or not a number; and it takes the change of the bytes of a sample for these bytes, so a steady transfer has the rate zero (`transfer_stats.rs:49-66`). The only use is commented out (`session.rs:1803`).

## Seeded bugs

`seeded/LOG.jsonl` lists wrong variants of the model that the build rejects. `failed` names the declarations whose
proof broke, which is often a helper lemma used by the claim. Lines with an `evidence` field were confirmed by a search
of the mutated model that found a state violating the claim itself. For the other lines with only a helper lemma in
`failed`, that the claim itself is violated was argued by hand.

## Trusted base

Lean's kernel; the axioms `propext`, `Classical.choice`, `Quot.sound` only; the faithfulness of the transcription
(citations next to every definition); the stated assumptions on cryptography and channels.

Secrecy (C25, C26, C29, C30) is symbolic: `Verif/Sym/Term.lean` has free terms, `Derives` closes a set of known
terms under pairing, projection, hashing, encryption and decryption with a known key. Trusted: that hashes, KEM and AEAD
give away nothing else, that fresh random values are distinct, and that lengths and timing are not observed. The functions
run on terms are the same definitions (parametric over the primitives) whose functional behaviour is proved.

Network locks (C42-C44, C95-C98): reliable FIFO channels, the local `tokio` mutex, one packet with its replies per step; for
the readers-writer lock also the drop of a guard in one step (count of references, store, release packet), so that races of
several threads inside one endpoint are not covered.

Login (C99-C106): ideal AEAD and KEM (names of keys; see the head of `Login/Model`), at most one task of a session runs
at a time between two suspension points, decisions of the session manager and of the network are arbitrary.

Sessions (C107-C110): the handlers of a session end when it ends, running sessions have different addresses, and packets count only by what
they ask for (see `Login` for who can send them).

Hole punching (C111-C114): reliable ordered coordination channel, an exclusive network mutex that keeps its value (see C42-C44), tasks of
an endpoint run from one suspension point to the next in one step, kill signals are not lost.

Files (C90-C94): Unix semantics of paths as transcribed in `FileStore/Model` (`components`, `resolve`), no symbolic links and no other
program below the home directory, atomic operations of the backend.

NAT (C121-C124): the answers of the STUN servers are inputs; `f32` halves a number below 65536 exactly.

Stores (C115-C120): operations are atomic and the connection does not fail; a database returns rows in any order, enforces foreign keys and
runs the triggers of lines 185-223; a Redis script keeps what it wrote before the command that fails; accounts are serialized and read back
unchanged. That MySQL compares as double precision numbers is a parameter (`close`).
Callbacks (C125-C129): tickets (random UUIDs) are distinct; the executor first polls handlers in the order of arrival; a channel of `tokio`
is unbounded and ordered.

CallChan (C130-C131): fewer than 2^64 - 1 requests per channel; a `oneshot` of `tokio` delivers to its receiver if that exists and reports the drop of its sender; the bounded `mpsc` drops its content when the receiver is dropped.

SyncStart (C132-C133): readings of the clocks, their sums and differences stay in the range of `i64`; a sleep does not end early; a mailbox whose sender exists is not closed.

Timers (C134-C135): `DelayQueue` yields every element once, not before its deadline; fewer than 2^64 registrations.

KeepAlive (C136-C137): wall clocks run at the same rate and are not set during a session; delays are bounded by the parameters `lat` and `jit`; the `i64` nanoseconds of the clocks do not overflow.

Wire (C138-C141): the transport is a reliable ordered byte stream; `LengthDelimitedCodec` (tokio-util) is modelled from its documentation; write errors are left out; the hash of the obfuscator key is a parameter with values below 2^128, different from the value that means "disabled".

BiChan (C142-C143): the stream underneath is reliable and ordered and stays open; testing the flag and sending is one step; packets are whole.

Broadcast (C144-C146): the feature `localhost-testing` is off; the success of an answer is arbitrary; the lookup of the invited peers is left out; a listing takes no time.


ByteStream (C176-C180): the connection below is reliable and ordered; in the browser the handlers are set before anything arrives and do not overlap with polls.

Bincode (C181-C185): `bincode` 1.3.3 and the `Vec` of `serde` are modelled from their documentation (fixed-width little-endian integers, `u64` lengths, `u32` variants, strict tags, `size_hint::cautious` of 1 MiB, the limit charged before bytes are read).

PeerKex (C186-C193): the key exchange is symbolic (an encapsulation for a key pair, banks encrypted under both and the password; decryption succeeds exactly for the same three); handlers are atomic (they hold the lock of the state container); names are fresh. The hostile relay is bounded by `forge`.

PeerDrop (C194-C203): each function is one step under the lock of the state container; spawned tasks run at any later time, and signals arrive in any order (inbound packets are handled concurrently); `select!` may take any branch that is ready; sends succeed.

GroupChan (C204-C209): one key and one client, connected all the time; packets between client and server are handled in order; a Welcome made for the client can be opened; `RequestJoinPending` and the limit of 256 groups are left out; what the owner and other members do is arbitrary.

PunchPipe (C210-C213): a packet can be read exactly with the ratchet of its connection and version (authenticated encryption); each handler is one step under the lock of the state container; the pipe of the session itself is made at most once in C210; cids of peers are not 0.

ChanEnd (C214-C218): the messenger between ordered channel and receiver is a queue (its own areas are `Messenger` and `Ordered`); `copy_from_slice` panics exactly when the lengths differ (documented behaviour of the standard library); the unordered channel is opened at most once for a connection.

Service (C219-C221): `StreamReader` of tokio-util as documented; the branches of `select!` in any order; nothing of the node moves after it took the request to shut down.

Udp (C222-C225): authenticated encryption is symbolic (nobody without the keys makes a packet that opens); the bytes of a datagram as they came are whatever the sender chose; the table of connections changes in any way.

UdpLife (C226-C229): a task whose stopper was used or dropped ends at once; both peers want UDP; the session with the server stands; the channel with the server is not modelled; the steps of a handler that holds the state container are one step.

SendFile (C230-C234): encryption works or fails as a choice (what it computes is the subject of other areas); the bytes the source will give are fixed when it is opened, and `read` either gives what was asked or fails (a `BufReader` with `read_exact`); group ids are natural numbers; the branches of `select!` are events; one transfer.

Listen (C235-C239): a handshake, with the first packet and for QUIC the first stream, is one event with a result; a listener whose future has ended is dead, that the next poll panics is read off `async fn`; the channels of 1024 results do not fill; certificates are the set of names they are valid for under the client's roots, and rustls and quinn check just that; that a failure of one attempt is what the modelled `?` and `match` say is read off the code.

Inbound (C240-C243): `try_for_each_concurrent` polls its stream only while fewer futures than the limit are pending; a hole punch waits for one packet of the other side; handlers that fail, and end the stream, are left out; handlers that wait for the backend or a lock are taken to return.

Rtc (C244-C247): signals are passed on by the server in order; each browser interface ends with success or failure as a choice, or does not end; a data channel opens at an end only when both descriptions are set at both.

Argon (C248-C251): divisions in `f32` are those of natural numbers; the time of a hash is any number for each round, memory and number of passes; `Fit` is an assumption on the machine, met by the example `sample`.

InPlace (C252-C255): `Cipher` says of a cipher that it keeps lengths and decrypts what it encrypts; the provided methods of the `aead` traits are as described in the model; a cipher that refuses leaves the bytes as they are; a buffer is never longer than its capacity.

Uring (C256-C259): the kernel completes only receives that were submitted, in the order of the completion queue; the drop of the ring ends the receives at once; the model begins with all slots submitted.

Meters (C260-C263): each atomic operation is one step and the clock does not go back; C261 is for the first 2^64 nanoseconds (584 years) of a session.
