import Verif.Errors.Spec
/-!
The registry of errors, `citadel_io/src/error/code.rs:19-1083`: the code and the form of each of its 326 variants, in the order of
the file.
-/
namespace Verif.Errors

/-- `b! "…"` is the list of the bytes of the text, written out when the file is read. -/
macro "b!" s:str : term => do
  let ns := s.getString.toUTF8.toList.map fun b => Lean.Syntax.mkNatLit b.toNat
  `(([$(ns.toArray),*] : List Nat))

/-- `ErrorCode`: the discriminant and the `#[form]`, from 0 to 40. -/
def registry0 : List (Nat × Text) := [
  (0, b! "{}"),
  (1, b! "Socket error: {}"),
  (2, b! "Operation timed out: {}"),
  (3, b! "Invalid packet: {}"),
  (4, b! "Invalid packet size: {}"),
  (5, b! "Invalid request: {}"),
  (6, b! "Internal error: {}"),
  (7, b! "Failed to send request to the node remote: {}"),
  (8, b! "The session was shut down properly"),
  (9, b! "I/O error: {}"),
  (10, b! "Encryption error: {}"),
  (11, b! "Decryption error: {}"),
  (12, b! "Rekey update error: {}"),
  (13, b! "Ratchet error: {}"),
  (14, b! "Value out of bounds"),
  (15, b! "Bad security setting"),
  (16, b! "Fatal cryptographic error: {}"),
  (17, b! "Shared secret not loaded"),
  (18, b! "Encryption failure"),
  (19, b! "Decryption failure"),
  (20, b! "Invalid length"),
  (21, b! "Unsupported algorithm"),
  (22, b! "Client account already exists: {}"),
  (23, b! "Client account does not exist: {}"),
  (24, b! "Server account already exists: {}"),
  (25, b! "Server account does not exist: {}"),
  (26, b! "Invalid username"),
  (27, b! "Invalid password"),
  (28, b! "Account disengaged: {}"),
  (29, b! "UPnP error: {}"),
  (30, b! "Hole-punch error: {}"),
  (31, b! "Firewall traversal skipped"),
  (32, b! "Firewall traversal not applicable"),
  (33, b! "Hole-punch attempts exhausted"),
  (34, b! "Failed to resolve the local IP address"),
  (35, b! "Channel send error: {}"),
  (36, b! "Channel receive error"),
  (37, b! "Channel internal error: {}"),
  (38, b! "Failed to retrieve the IP address: {}"),
  (39, b! "Firebase RTDB error: {}"),
  (40, b! "Unable to progress past update_version")
]

/-- `ErrorCode`: the discriminant and the `#[form]`, from 41 to 81. -/
def registry1 : List (Nat × Text) := [
  (41, b! "Unable to progress past finish_with_custom_cid for bob-to-alice trigger"),
  (42, b! "Unable to progress past stage0_bob"),
  (43, b! "Unable to progress past finish_with_custom_cid"),
  (44, b! "Unable to progress past update_from"),
  (45, b! "Unable to progress past update_from for bob-to-alice trigger"),
  (46, b! "This should only be reached if triggered by a bob-to-alice transfer event, yet, conflicting program state"),
  (47, b! "Cannot call for deregistration unless the map len is maxed out"),
  (48, b! "Unable to deregister. Provided version: {}, expected version: {}"),
  (49, b! "No message ratchets available"),
  (50, b! "Requested security level: {}. Resolved: {}. Only have max {} security levels"),
  (51, b! "Empty input"),
  (52, b! "Semaphore closed"),
  (53, b! "Rekey process is halted"),
  (54, b! "Exceeded max stale version retries ({})"),
  (55, b! "Failed to get initial transfer"),
  (56, b! "Join error on {}"),
  (57, b! "Sink send error"),
  (58, b! "Local listener dropped without version advance"),
  (59, b! "Rekey protocol message timeout — resetting for retry"),
  (60, b! "Failed to get stacked ratchet"),
  (61, b! "Too many stale rekey messages ({}), resynchronization needed. Peer: {}, Local: {}"),
  (62, b! "Rekey barrier mismatch (earliest/latest). Peer: ({}-{}) != Local: ({}-{})"),
  (63, b! "Too many stale rekey messages ({})"),
  (64, b! "Metadata mismatch ({}). Peer: {} != Local: {}"),
  (65, b! "Invalid role transition from {} to Leader"),
  (66, b! "Too many double-Loser messages ({}), resynchronization needed"),
  (67, b! "Too many unexpected BobToAlice while Loser ({}), resynchronization needed"),
  (68, b! "Unexpected BobToAlice message with no loaded local constructor for next_version {}"),
  (69, b! "Unexpected Truncate message since our role is not Loser, but {}"),
  (70, b! "Unexpected LoserCanFinish message since our role is not Loser, but {}"),
  (71, b! "Unexpected LeaderCanFinish message since our role is not Leader, but {}"),
  (72, b! "Version mismatch in LeaderCanFinish. Local: {}, Peer: {}"),
  (73, b! "Unexpected end of stream"),
  (74, b! "Failed to create bob constructor"),
  (75, b! "Unable to get encrypted_msg_entropy_banks"),
  (76, b! "Message entropy_bank version != scramble entropy_bank version"),
  (77, b! "Message entropy_bank cid != scramble entropy_bank cid"),
  (78, b! "Cannot send encrypted messages (stream died)"),
  (79, b! "Ratchet Manager's outbound stream died"),
  (80, b! "Bad input size of {} (transient id)"),
  (81, b! "Invalid GroupReceiverConfig: {}")
]

/-- `ErrorCode`: the discriminant and the `#[form]`, from 82 to 122. -/
def registry2 : List (Nat × Text) := [
  (82, b! "Unable to get filename"),
  (83, b! "Source has already been exhausted"),
  (84, b! "Maximum group size cannot be larger than {} bytes"),
  (85, b! "Unable to hash password: {}"),
  (86, b! "Could not obtain internal IP"),
  (87, b! "NAT identification elapsed"),
  (88, b! "Timeout while waiting for UDP penetration"),
  (89, b! "Connection reset while waiting for UDP penetration"),
  (90, b! "UDP socket not loaded"),
  (91, b! "Kill switch called, but no matching values were found internally"),
  (92, b! "Detected LAN IPv6. Not yet implemented"),
  (93, b! "Invalid crypto parameter combination. ML-KEM hybrid encryption must be paired with ML-KEM"),
  (94, b! "A post-quantum signature scheme must be selected when using ML-KEM hybrid encryption"),
  (95, b! "Cannot cast `{}` into {}"),
  (96, b! "No signature algorithm selected"),
  (97, b! "Failed to deserialize {} {}"),
  (98, b! "Failed to decode {} {}"),
  (99, b! "{} signature verification failed"),
  (100, b! "Invalid Falcon signing key length"),
  (101, b! "Error while calculating recursive keystore: {}"),
  (102, b! "Deserialization failure"),
  (103, b! "Bad window range"),
  (104, b! "Anti-replay-attack: invalid"),
  (105, b! "Anti-replay-attack: Invalid inscription length"),
  (106, b! "Unable to get secret key"),
  (107, b! "Unable to get ciphertext"),
  (108, b! "Failed encapsulate step"),
  (109, b! "Bad sig_size_bytes length"),
  (110, b! "Decoded length = {}, yet, input buffer's len is only {}"),
  (111, b! "Invalid signature length: {} > buffer length {}"),
  (112, b! "Invalid ciphertext checksum. {} != {}"),
  (113, b! "Nonce too short"),
  (114, b! "Cannot truncate len={} when buffer len={}"),
  (115, b! "Invalid input len for scrambler: {}"),
  (116, b! "Bad input buffer length"),
  (117, b! "Invalid database URL format. Please check documentation for preferred format"),
  (118, b! "Unable to connect to remote database via account manager"),
  (119, b! "Cannot register a client network account with a CID of 0"),
  (120, b! "Username {} already exists!"),
  (121, b! "Cannot create a cryptographically secure CNAC with a CID of 0"),
  (122, b! "Unable to hash input password: {}")
]

/-- `ErrorCode`: the discriminant and the `#[form]`, from 123 to 163. -/
def registry3 : List (Nat × Text) := [
  (123, b! "This node does not support passwordless connections"),
  (124, b! "Unable to hash password"),
  (125, b! "Account does not have password loaded; account is personal"),
  (126, b! "Username must be between {} and {} characters"),
  (127, b! "Username cannot contain spaces. Use a period instead"),
  (128, b! "Password must be between {} and {} characters"),
  (129, b! "Password cannot contain spaces"),
  (130, b! "Full name must be between {} and {} characters"),
  (131, b! "Could not remove self from other cnac"),
  (132, b! "No socket address"),
  (133, b! "The addr '{}' is not a valid target (hint: ensure either 'redis', 'sql', 'filesystem', or 'opfs' features are enabled when compiling)"),
  (134, b! "The target does not support the RE-VFS protocol"),
  (135, b! "File transfer target name is empty"),
  (136, b! "File transfer target name {} is not permitted (possible path traversal)"),
  (137, b! "File transfer type specified, yet, no target name given"),
  (138, b! "File transfer failed: {}"),
  (139, b! "Failed to receive file: stream ended"),
  (140, b! "Failed to receive file: no file path"),
  (141, b! "Cannot receive file: orientation is not Receiver"),
  (142, b! "Cannot transfer file: orientation is not Sender"),
  (143, b! "An unexpected error occurred: file transfer occurred, yet, returned a save path. Please report to developers"),
  (144, b! "Failed to send response"),
  (145, b! "Path {} is not a valid remote encrypted virtual directory"),
  (146, b! "Path {} is a directory, not a file"),
  (147, b! "Path {} cannot contain '..' for security reasons"),
  (148, b! "Serialization failed: {}"),
  (149, b! "Deserialization failed: {}"),
  (150, b! "Database operation failed: {}"),
  (151, b! "Connection not loaded"),
  (152, b! "Failed to decode peer cid"),
  (153, b! "Expected blob or text, got {}"),
  (154, b! "Redis operation failed: {}"),
  (155, b! "Redis client not loaded"),
  (156, b! "Max open must be greater than or equal to max_idle"),
  (157, b! "External service error: {}"),
  (158, b! "Private key does not exist"),
  (159, b! "Service email not present"),
  (160, b! "Client does not exist"),
  (161, b! "Unable to proceed past session zero-state. Stopping session: {}"),
  (162, b! "Queue worker ended unexpectedly"),
  (163, b! "Writer stream corrupted")
]

/-- `ErrorCode`: the discriminant and the `#[form]`, from 164 to 204. -/
def registry4 : List (Nat × Text) := [
  (164, b! "Proposed credentials not loaded"),
  (165, b! "Passwordless state not loaded"),
  (166, b! "Unable to construct Alice ratchet"),
  (167, b! "Unable to construct AliceToBob transfer"),
  (168, b! "Connect mode not loaded"),
  (169, b! "The specified security setting for the session exceeds the registration security setting"),
  (170, b! "Primary stream closed"),
  (171, b! "Primary stream disconnected"),
  (172, b! "Unable to send through primary stream"),
  (173, b! "Primary stream sender absent"),
  (174, b! "Session is not connected"),
  (175, b! "Attempted to send a request (ticket: {}) outbound, but the session is not connected"),
  (176, b! "Implicated CID not set"),
  (177, b! "Invalid configuration"),
  (178, b! "Unable to get virtual connection crypto"),
  (179, b! "Ratchet missing for endpoint"),
  (180, b! "Connection unavailable (shutdown in progress or connection closed)"),
  (181, b! "HyperWAN functionality not yet implemented"),
  (182, b! "File transfer is not enabled for this session. Both nodes must use a filesystem backend"),
  (183, b! "File transfer is not enabled for this p2p session. Both nodes must use a filesystem backend"),
  (184, b! "The source object does not have a path location"),
  (185, b! "HyperWAN functionality not yet enabled for file-header ACK"),
  (186, b! "Outbound file transfer {} already started (missing start signal)"),
  (187, b! "Failed to signal cryptscrambler start for {}"),
  (188, b! "Failed to send TransferBeginning status for {}: {}"),
  (189, b! "Failed to alert kernel of ObjectTransferHandle for {}: {}"),
  (190, b! "Attempted to obtain OutboundFileTransfer for {}, but it didn't exist"),
  (191, b! "Missing stop signal for outbound file {}"),
  (192, b! "Failed to stop cryptscrambler for {}"),
  (193, b! "Missing start signal for outbound file {}"),
  (194, b! "Failed to halt cryptscrambler for {}"),
  (195, b! "file_transfer_handle does not contain key for {}"),
  (196, b! "File transfer not supported on this platform"),
  (197, b! "The REVFS file cannot be pulled since it has not yet synchronized with the filesystem"),
  (198, b! "REVFS is not yet enabled for virtual connections of type {}"),
  (199, b! "Invalid security level {} in group header"),
  (200, b! "The GROUP HEADER implied a file transfer, but key {} maps to nothing"),
  (201, b! "Duplicate group HEADER detected ({})"),
  (202, b! "inbound_groups does not contain key for {}"),
  (203, b! "Bad payload packet [0]"),
  (204, b! "Bad payload packet [1]")
]

/-- `ErrorCode`: the discriminant and the `#[form]`, from 205 to 245. -/
def registry5 : List (Nat × Text) := [
  (205, b! "Unable to obtain true_sequence"),
  (206, b! "inbound_groups vanished for {} on complete"),
  (207, b! "inbound_files does not contain key for {}"),
  (208, b! "inbound_files vanished on complete"),
  (209, b! "reception_complete_tx err"),
  (210, b! "Hypernode session for {} does not exist"),
  (211, b! "Unable to initiate subroutine for {} (not an active session)"),
  (212, b! "Session for {} not found in session manager. Failed to dispatch peer command"),
  (213, b! "UnboundedReceiver not loaded in session manager"),
  (214, b! "Unable to receive shutdown signal"),
  (215, b! "Peer stream absent"),
  (216, b! "Unable to find peer session {}"),
  (217, b! "Cannot initiate rekey since the session is not connected"),
  (218, b! "External group functionality not yet implemented"),
  (219, b! "{} is not a valid group broadcast request"),
  (220, b! "C2s not loaded"),
  (221, b! "CNAC not loaded"),
  (222, b! "Group channel already exists locally"),
  (223, b! "Unable to upgrade virtual connection"),
  (224, b! "Active vconn for peer {} already exists (simultaneous connect race); duplicate Kex result dropped"),
  (225, b! "Unable to find virtual connection to peer {}"),
  (226, b! "Unable to access endpoint container to peer {}"),
  (227, b! "Implicated CID not loaded"),
  (228, b! "Peer session crypto missing"),
  (229, b! "Ratchet does not exist"),
  (230, b! "Unable to validate initial packet"),
  (231, b! "Unable to create bob container"),
  (232, b! "Unable to execute stage0_bob"),
  (233, b! "Unable to finish bob constructor"),
  (234, b! "Invalid first packet key"),
  (235, b! "Unable to get first packet"),
  (236, b! "Unable to transmit group header: {}"),
  (237, b! "Channel signal missing"),
  (238, b! "Received a SUCCESS_ACK as a client"),
  (239, b! "Unable to send keep-alive: {}"),
  (240, b! "CID {} is not registered to this node"),
  (241, b! "Unable to parse incoming protocol semver"),
  (242, b! "Bad bob transfer"),
  (243, b! "Unable to advance past stage0-bob"),
  (244, b! "Unable to finish bob constructor"),
  (245, b! "Unable to finish alice constructor")
]

/-- `ErrorCode`: the discriminant and the `#[form]`, from 246 to 286. -/
def registry6 : List (Nat × Text) := [
  (246, b! "Join error: {}"),
  (247, b! "p2p stopper triggered"),
  (248, b! "P2P Session dropped"),
  (249, b! "P2P Listener returned None"),
  (250, b! "User does not have permissions to make this call"),
  (251, b! "Kernel TX is dead: {}"),
  (252, b! "Queue handler signalled shutdown"),
  (253, b! "Overwrote previous notifier"),
  (254, b! "kernel disconnected from hypernode instance"),
  (255, b! "Primary session listener died"),
  (256, b! "Cannot use zero-cid for outbound requests. Invalid: {}"),
  (257, b! "HdpSession no longer exists"),
  (258, b! "Unable to send UdpChannel through"),
  (259, b! "Tried loading UDP channel, but, the state container had no UDP sender"),
  (260, b! "Tried loading UDP channel, but, the state container had an invalid configuration. Make sure TCP is loaded first"),
  (261, b! "Tried loading the peer kem state, but was absent"),
  (262, b! "Invalid virtual target"),
  (263, b! "UDP sink unable to receive outbound requests"),
  (264, b! "Session for CID {} already exists. Disconnect first before reconnecting."),
  (265, b! "Localhost is already trying to connect to {}"),
  (266, b! "Failed to build node: {}"),
  (267, b! "Failed to create default server config: {}"),
  (268, b! "Invalid socket addr"),
  (269, b! "{}"),
  (270, b! "{}"),
  (271, b! "Internal kernel stream died ({})"),
  (272, b! "{}"),
  (273, b! "[connect] An unexpected response occurred: {}"),
  (274, b! "Target pair not found"),
  (275, b! "Stream died"),
  (276, b! "Failed to query SDK sessions"),
  (277, b! "User does not exist"),
  (278, b! "{}"),
  (279, b! "File transfer stream died"),
  (280, b! "{}"),
  (281, b! "Received invalid response from protocol"),
  (282, b! "REVFS File transfer stream died"),
  (283, b! "REVFS Delete stream died"),
  (284, b! "Peer did not respond in time"),
  (285, b! "Peer declined to connect"),
  (286, b! "P2P connection timed out after {}s waiting for PeerChannelCreated")
]

/-- `ErrorCode`: the discriminant and the `#[form]`, from 287 to 325. -/
def registry7 : List (Nat × Text) := [
  (287, b! "Unable to find username for local user"),
  (288, b! "Deregister ended unexpectedly"),
  (289, b! "Unable to deregister: status=false"),
  (290, b! "Unable to receive valid disconnect event"),
  (291, b! "External group peer functionality not enabled"),
  (292, b! "Create_group ended unexpectedly"),
  (293, b! "Account {} not found for local user {}"),
  (294, b! "List_members ended unexpectedly"),
  (295, b! "List_sessions ended unexpectedly"),
  (296, b! "Rekey failed: {}"),
  (297, b! "Rekey ended unexpectedly"),
  (298, b! "External group peers are not supported yet"),
  (299, b! "Target is not a peer"),
  (300, b! "target_cid=0, yet, no username was provided"),
  (301, b! "RE-VFS can only be used with Kyber KEM"),
  (302, b! "RE-VFS cannot be used with this remote type"),
  (303, b! "This function has already been called"),
  (304, b! "Unable to find local username implied by signal"),
  (305, b! "Input signal is not a valid PostRegister"),
  (306, b! "Input signal is not a valid PostConnect"),
  (307, b! "Input signal is not a group invitation"),
  (308, b! "This event was improperly formed"),
  (309, b! "No address found"),
  (310, b! "No username found"),
  (311, b! "No password found"),
  (312, b! "No alias found"),
  (313, b! "Invalid socket address specified"),
  (314, b! "[create] User {} is not registered to {}"),
  (315, b! "User {} is not registered to {}"),
  (316, b! "Owner {} has not created group {}"),
  (317, b! "Unable to create a message group"),
  (318, b! "{} ended unexpectedly"),
  (319, b! "Server ended prematurely: {}"),
  (320, b! "Hyper error: {}"),
  (321, b! "Response did not match request"),
  (322, b! "Kernel stopped before connection established"),
  (323, b! "Group CGKA serialization failed for {}"),
  (324, b! "Only the group owner may commit membership changes"),
  (325, b! "Group CGKA state is not initialized")
]

/-- `ErrorCode`. -/
def registry : List (Nat × Text) :=
  registry0 ++ registry1 ++ registry2 ++ registry3 ++ registry4 ++ registry5 ++ registry6 ++ registry7

/-- `raw_string`. -/
def form (c : Nat) : Text := ((registry.find? fun x => x.1 == c).map fun x => x.2).getD []

/-- `ErrorCode::Io` -/
def ioCode : Nat := 9

/-- `From<NetworkError> for std::io::Error` and back by `From<std::io::Error> for NetworkError` (mod.rs:187-213); `none` if showing
the error panics. -/
def viaIo (e : Err) : Option Err := (display form e).map fun m => fromParts ioCode [m]

end Verif.Errors
