import Verif.Wire.Lemmas
/-!
# C138-C141: the primary stream

* C138: the frames written to the primary stream are read again, for every way in which the transport cuts the stream.
* C139: the header obfuscators of two ends leave every packet as it was.
* C140: the outbound loop flushes what it writes, a flush barrier is a barrier, and the loop yields.
* C141: reading the first packet of a connection loses no byte of what follows.
-/
namespace Verif.Wire

/-! ## C138 -/

/-- Any bodies of at most 64 MB, written one after the other as frames, are read exactly and in order, however the
transport cuts the bytes into chunks. Missing for the full statement: larger bodies, which the writer does not refuse
(`C138_counterexample_large`, `C138_counterexample_truncated`). -/
theorem C138_frames_partial (bodies : List Bytes) (hb : ∀ b ∈ bodies, b.length ≤ 1024 * 1024 * 64)
    (chunks : List Bytes) (hc : chunks.flatten = (bodies.map rawFrame).flatten) :
    (feedAll maxFrame {} chunks).1 = bodies ∧ (feedAll maxFrame {} chunks).2.dead = false := by
  cases chunks with
  | nil =>
    have : bodies = [] := by
      cases bodies with
      | nil => rfl
      | cons b bs =>
        have := congrArg List.length hc
        simp [rawFrame] at this
        omega
    subst this
    exact ⟨rfl, rfl⟩
  | cons c cs =>
    obtain ⟨r, e1, e2, e3, e4⟩ := feedAll_spec (max := maxFrame) (by decide) (c :: cs) (d := {}) (future := [])
      (rest := bodies) ⟨rfl, by simp⟩ hb (by simpa [pending, frames] using hc) (by simp)
    refine ⟨?_, e2.1⟩
    rw [e4 rfl, List.append_nil] at e1
    exact e1.symm

/-- A stream which ends at any byte gives a prefix of the bodies, nothing else. -/
theorem C138_cut_partial (bodies : List Bytes) (hb : ∀ b ∈ bodies, b.length ≤ 1024 * 1024 * 64)
    (chunks : List Bytes) (hc : chunks.flatten <+: (bodies.map rawFrame).flatten) :
    (feedAll maxFrame {} chunks).1 <+: bodies ∧ (feedAll maxFrame {} chunks).2.dead = false := by
  obtain ⟨future, hf⟩ := hc
  cases chunks with
  | nil => exact ⟨List.nil_prefix, rfl⟩
  | cons c cs =>
    obtain ⟨r, e1, e2, e3, e4⟩ := feedAll_spec (max := maxFrame) (by decide) (c :: cs) (d := {}) (future := future)
      (rest := bodies) ⟨rfl, by simp⟩ hb (by simpa [pending, frames] using hf) (by simp)
    exact ⟨⟨r, e1.symm⟩, e2.1⟩

example : (feedAll maxFrame {} [[0, 0, 0], [2, 7], [8, 0, 0, 0], [0]]).1 = [[7, 8], []] := by
  refine (C138_frames_partial [[7, 8], []] ?_ _ ?_).1
  · simp
  · decide

/-- A packet in two buffers and the same packet in one buffer give the same bytes, if the first buffer holds the whole
header. -/
theorem C138_split_same (o : Obf) (header payload : Bytes) (h : 64 ≤ header.length) :
    packetBytes o (.split header payload) = packetBytes o (.contiguous (header ++ payload)) := by
  have hl : headerLen ≤ header.length := h
  have hl' : headerLen ≤ header.length + payload.length := by omega
  simp only [packetBytes, OutPacket.bodyLen, obfuscateHeader, List.length_append, hl, hl', if_true]
  split
  · simp
  · cases o.inner with
    | none => simp
    | some k => simp [applyCipher_append _ _ _ _ hl]

theorem feedAll_dead {max : Nat} (chunks : List Bytes) : ∀ {d : Dec}, d.dead = true → (feedAll max d chunks).1 = []
    ∧ (feedAll max d chunks).2.dead = true := by
  induction chunks with
  | nil => intro d h; exact ⟨rfl, h⟩
  | cons c cs ih =>
    intro d h
    have : feed max d c = ([], d) := by simp [feed, h]
    simp only [feedAll, this]
    exact ⟨by simpa using (ih h).1, (ih h).2⟩

theorem feedAll_large {max n : Nat} (hn : max < n) (h32 : n < 2 ^ 32) (more : Bytes) (chunks : List Bytes) :
    ∀ {buf : Bytes}, buf.length < 4 → buf ++ chunks.flatten = lenPrefix n ++ more →
      (feedAll max ⟨buf, none, false⟩ chunks).1 = [] ∧ (feedAll max ⟨buf, none, false⟩ chunks).2.dead = true := by
  induction chunks with
  | nil =>
    intro buf hl h
    have := congrArg List.length h
    simp at this
    omega
  | cons c cs ih =>
    intro buf hl h
    by_cases hlt : (buf ++ c).length < 4
    · have hd : decode max ⟨buf ++ c, none, false⟩ = (none, ⟨buf ++ c, none, false⟩) := by
        simp only [decode, hlt]; simp
      have hf : feed max ⟨buf, none, false⟩ c = ([], ⟨buf ++ c, none, false⟩) := by
        simp only [feed]; exact drain_none hd
      have := ih hlt (by simpa using h)
      simp only [feedAll, hf]
      exact ⟨by simpa using this.1, this.2⟩
    · have h4 : (buf ++ c).take 4 = lenPrefix n := by
        have := congrArg (List.take 4) h
        rw [List.take_append_of_le_length (l₁ := lenPrefix n) (by simp),
          List.take_of_length_le (l := lenPrefix n) (by simp), List.flatten_cons, ← List.append_assoc,
          List.take_append_of_le_length (by omega)] at this
        exact this
      have hd : decode max ⟨buf ++ c, none, false⟩ = (none, ⟨buf ++ c, none, true⟩) := by
        simp only [decode, hlt, h4, fromBE_lenPrefix h32, hn]; simp
      have hf : feed max ⟨buf, none, false⟩ c = ([], ⟨buf ++ c, none, true⟩) := by
        simp only [feed]; exact drain_none hd
      have := feedAll_dead (max := max) cs (d := ⟨buf ++ c, none, true⟩) rfl
      simp only [feedAll, hf]
      exact ⟨by simpa using this.1, this.2⟩

/-- A body above 64 MB is written without complaint; the reader fails at its head and delivers neither this packet nor
any later one. -/
theorem C138_counterexample_large (body : Bytes) (h1 : 1024 * 1024 * 64 < body.length) (h2 : body.length < 2 ^ 32)
    (o : Obf) (more : Bytes) (chunks : List Bytes)
    (hc : chunks.flatten = (packetBytes o (.contiguous body)).2 ++ more) :
    (feedAll maxFrame {} chunks).1 = [] ∧ (feedAll maxFrame {} chunks).2.dead = true := by
  refine feedAll_large (n := body.length) h1 h2 ((obfuscateHeader o body).2 ++ more) chunks (buf := []) (by simp) ?_
  simpa [packetBytes, OutPacket.bodyLen] using hc

example : ∃ body : Bytes, 1024 * 1024 * 64 < body.length ∧ body.length < 2 ^ 32 := by
  have any : ∀ n, ∃ body : Bytes, body.length = n := fun n => ⟨List.replicate n 0, List.length_replicate⟩
  obtain ⟨body, h⟩ := any (1024 * 1024 * 64 + 1)
  exact ⟨body, by omega, by omega⟩

/-- The length of a body of at least 4 GB is cut to 32 bits: the reader hands out the beginning of the body as one
packet and takes the rest for further frames, so that bytes of the payload are delivered as packets of their own. -/
theorem C138_counterexample_truncated (a x rest : Bytes) (ha : a.length ≤ maxFrame) (hx : x.length ≤ maxFrame)
    (hl : (a ++ rawFrame x ++ rest).length = 2 ^ 32 + a.length) :
    ∃ later, (feedAll maxFrame {} [rawFrame (a ++ rawFrame x ++ rest)]).1 = a :: x :: later := by
  have hm : maxFrame < 2 ^ 32 := by decide
  have hp : lenPrefix (a ++ rawFrame x ++ rest).length = lenPrefix a.length := by
    rw [hl]
    exact lenPrefix_mod (by rw [show (2 : Nat) ^ 32 = 256 ^ 4 by norm_num, Nat.add_mod_left])
  have step : ∀ (b t : Bytes), b.length ≤ maxFrame →
      decode maxFrame ⟨rawFrame b ++ t, none, false⟩ = (some b, ⟨t, none, false⟩) := by
    intro b t hb
    have h4 : (rawFrame b ++ t).take 4 = lenPrefix b.length := by
      rw [rawFrame, List.append_assoc, List.take_append_of_le_length (by simp), List.take_of_length_le (by simp)]
    have h5 : (rawFrame b ++ t).drop 4 = b ++ t := by
      rw [rawFrame, List.append_assoc, List.drop_append_of_le_length (by simp), List.drop_of_length_le (by simp)]
      rfl
    have h6 : ¬ (rawFrame b ++ t).length < 4 := by simp [rawFrame]
    simp only [decode, h4, h5, h6, fromBE_lenPrefix (Nat.lt_of_le_of_lt hb hm), Nat.not_lt.2 hb, decodeData]
    simp
  have e : rawFrame (a ++ rawFrame x ++ rest) = rawFrame a ++ (rawFrame x ++ rest) := by
    conv => lhs; rw [rawFrame, hp]
    simp [rawFrame]
  refine ⟨(drain maxFrame ⟨rest, none, false⟩).1, ?_⟩
  simp only [feedAll, feed, e]
  simp only [Bool.false_eq_true, if_false, List.nil_append]
  rw [drain_some (step a _ ha), drain_some (step x _ hx)]
  simp

/-! ## C139 -/

/-- A server with a pre-shared key needs a client with this key; any other server takes the key of the client. -/
def Compatible (client server : Settings) : Prop :=
  match server with
  | .withKey k => client = .withKey k
  | _ => True

/-- The key of the cipher is a hash of sixteen bytes, and not the one value which means "disabled". -/
def SoundHash (hash : Nat → Nat) : Prop := ∀ x, hash x < 2 ^ 128 ∧ hash x ≠ 2 ^ 128 - 1

/-- For compatible settings, in every interleaving of sending and receiving at both ends, each end is handed exactly the
packets that the other end sent, in order, and no end breaks the stream. Missing for the full statement: a server
without the key must not send before the first packet has arrived (`C139_counterexample_early`), and settings which are
not compatible are not noticed (`C139_counterexample_settings`). -/
theorem C139_roundtrip_partial (hash : Nat → Nat) (hh : SoundHash hash) (random : Nat) (pad : Bytes)
    (hpad : pad.length < 64 - 17) (cs ss : Settings) (hcs : Compatible cs ss)
    (c : Obf × Bytes) (hc : newClient hash random pad cs = some c) (s0 : Obf) (hs : newServer hash ss = some s0)
    (as : List Act) (hf : Fair (∃ k, ss = .withKey k) (Conn.start c s0) as) :
    let t := (Conn.start c s0).run as
    t.broken = false ∧ t.gotS <+: t.sentC ∧ t.gotC <+: t.sentS ∧
      (t.toS = [] → t.gotS = t.sentC) ∧ (t.toC = [] → t.gotC = t.sentS) := by
  obtain ⟨c0, first⟩ := c
  have key : ∃ k s1 junk, Works c0 k ∧ Works s1 k ∧ ((∃ k, ss = Settings.withKey k) → s0 = s1) ∧
      onPacketReceived s0 first = some (s1, false, junk) := by
    have hk : ∀ x, hash x ≠ 0 → (c0, first) = (⟨some (hash x), none, false, false⟩, toBE 16 (hash x) ++ pad) →
        ss = .enabled ∨ ss = .disabled ∨ ss = .withKey x →
        ∃ k s1 junk, Works c0 k ∧ Works s1 k ∧ ((∃ k, ss = Settings.withKey k) → s0 = s1) ∧
          onPacketReceived s0 first = some (s1, false, junk) := by
      intro x h0 he hss
      simp only [Prod.mk.injEq] at he
      rw [he.1, he.2]
      have hst := first_stored h0 (hh x).1 (hh x).2 pad
      rcases hss with h | h | h
      · subst h; simp only [newServer, Option.some.injEq] at hs; subst hs
        exact ⟨_, _, _, works_key _ _, works_key _ _, (by rintro ⟨k, hk⟩; cases hk), hst⟩
      · subst h; simp only [newServer, Option.some.injEq] at hs; subst hs
        exact ⟨_, _, _, works_key _ _, works_key _ _, (by rintro ⟨k, hk⟩; cases hk), hst⟩
      · subst h; simp only [newServer, h0, if_false, Option.some.injEq] at hs; subst hs
        refine ⟨_, _, toBE 16 (hash x) ++ pad, works_key _ _, works_key _ _, fun _ => rfl, ?_⟩
        · have : (toBE 16 (hash x) ++ pad).length < headerLen := by
            simp [headerLen]; omega
          simp [onPacketReceived, headerLen] at this ⊢
          omega
    cases cs with
    | disabled =>
      simp only [newClient, Option.some.injEq, Prod.mk.injEq] at hc
      cases ss with
      | withKey k => simp [Compatible] at hcs
      | enabled =>
        simp only [newServer, Option.some.injEq] at hs
        subst hs; rw [← hc.1, ← hc.2]
        exact ⟨none, _, _, works_disabled _ _, works_disabled _ _, (by rintro ⟨k, hk⟩; cases hk), first_disabled⟩
      | disabled =>
        simp only [newServer, Option.some.injEq] at hs
        subst hs; rw [← hc.1, ← hc.2]
        exact ⟨none, _, _, works_disabled _ _, works_disabled _ _, (by rintro ⟨k, hk⟩; cases hk), first_disabled⟩
    | enabled =>
      simp only [newClient] at hc
      split at hc
      · cases hc
      · rename_i h0
        refine hk random h0 (Option.some.inj hc).symm ?_
        cases ss with
        | withKey k => simp [Compatible] at hcs
        | enabled => exact Or.inl rfl
        | disabled => exact Or.inr (Or.inl rfl)
    | withKey x =>
      simp only [newClient] at hc
      split at hc
      · cases hc
      · rename_i h0
        refine hk x h0 (Option.some.inj hc).symm ?_
        cases ss with
        | withKey k => simp only [Compatible, Settings.withKey.injEq] at hcs; subst hcs; exact Or.inr (Or.inr rfl)
        | enabled => exact Or.inl rfl
        | disabled => exact Or.inr (Or.inl rfl)
  obtain ⟨k, s1, junk, w1, w2, w3, w4⟩ := key
  have inv := cinv_run w1 w2 w3 w4 as (s := Conn.start (c0, first) s0) cinv_start hf
  obtain ⟨-, i2, ⟨r, i3, i4⟩, i5, -, -⟩ := inv
  intro t
  refine ⟨i5, ?_, ⟨r, i3.symm⟩, ?_, ?_⟩
  · rcases i2 with ⟨-, -, h, -⟩ | ⟨-, -, q, h, -⟩
    · show t.gotS <+: _
      rw [show t.gotS = [] from h]; exact List.nil_prefix
    · exact ⟨q, h.symm⟩
  · intro h
    rcases i2 with ⟨-, -, -, h', -⟩ | ⟨-, -, q, h1, h2⟩
    · rw [show t.toS = _ from h'] at h; cases h
    · rw [show t.toS = _ from h2] at h
      have : q = [] := by simpa using h
      rw [this, List.append_nil] at h1
      exact h1.symm
  · intro h
    rw [show t.toC = _ from i4] at h
    have : r = [] := by simpa using h
    rw [this, List.append_nil] at i3
    exact i3.symm

theorem inbound_works {o : Obf} {k : Option Nat} (w : Works o k) (ps : List Bytes)
    (h : ∀ p ∈ ps, headerLen ≤ p.length) : inbound o (ps.map (encipher k)) = some (o, ps) := by
  induction ps with
  | nil => rfl
  | cons p ps ih =>
    simp only [List.map_cons, inbound, w.recv p (h p (by simp)), ih (fun q hq => h q (by simp [hq]))]
    simp

/-- From the queue of a client to the packet processor of the server: the first packet and any packets with whole
headers and bodies of at most 64 MB, through the writer, any chunks, the reader and the obfuscator. -/
theorem C139_stream_partial (hash : Nat → Nat) (hh : SoundHash hash) (random : Nat) (pad : Bytes)
    (hpad : pad.length < 64 - 17) (server : Settings) (hserver : server = .enabled ∨ server = .disabled)
    (c : Obf) (first : Bytes) (hc : newClient hash random pad .enabled = some (c, first))
    (s0 : Obf) (hs : newServer hash server = some s0)
    (ps : List OutPacket) (hp : ∀ p ∈ ps, HasHeader p ∧ p.bodyLen ≤ maxFrame)
    (chunks : List Bytes)
    (hch : chunks.flatten = rawFrame first ++ (ps.map (fun p => (packetBytes c p).2)).flatten) :
    ∃ s1, inbound s0 (feedAll maxFrame {} chunks).1 = some (s1, ps.map OutPacket.plain) := by
  simp only [newClient] at hc
  split at hc
  · cases hc
  rename_i h0
  simp only [Option.some.injEq, Prod.mk.injEq] at hc
  have hs0 : s0 = ⟨none, none, false, false⟩ := by
    rcases hserver with h | h <;> subst h <;> simp [newServer] at hs <;> exact hs.symm
  have w := works_key (hash random) none
  have hbody : ∀ p ∈ ps, (packetBytes c p).2 = rawFrame (encipher (some (hash random)) p.plain) := by
    intro p hpm
    have hw := w.send p (hp p hpm).1
    rw [hc.1] at hw
    cases p with
    | contiguous b =>
      simp only [bodyOf] at hw
      simp only [packetBytes, OutPacket.bodyLen, hw, rawFrame, length_encipher]
      rfl
    | split a b =>
      simp only [bodyOf, Prod.mk.injEq] at hw
      simp only [packetBytes, OutPacket.bodyLen, hw.2, rawFrame, length_encipher, OutPacket.plain, List.length_append]
    | flush a => exact (hp _ hpm).1.elim
  have hmap : (ps.map (fun p => (packetBytes c p).2))
      = (ps.map (fun p => encipher (some (hash random)) p.plain)).map rawFrame := by
    rw [List.map_map]
    exact List.map_congr_left hbody
  have hfl : first.length ≤ maxFrame := by
    rw [← hc.2]; simp [maxFrame]; omega
  have hlen : ∀ p ∈ ps, p.plain.length ≤ maxFrame := by
    intro p hpm
    have h := (hp p hpm).2
    cases p with
    | contiguous b => exact h
    | split a b => simpa [OutPacket.bodyLen, OutPacket.plain] using h
    | flush a => exact Nat.zero_le _
  have hread := (C138_frames_partial (first :: ps.map (fun p => encipher (some (hash random)) p.plain)) (by
    intro b hb
    simp only [List.mem_cons, List.mem_map] at hb
    rcases hb with hb | ⟨p, hpm, hb⟩
    · rw [hb]; exact hfl
    · rw [← hb, length_encipher]; exact hlen p hpm) chunks (by rw [hch, hmap]; simp)).1
  rw [hread, hs0, ← hc.2]
  have hin := inbound_works w (ps.map OutPacket.plain) (by
    intro b hb
    simp only [List.mem_map] at hb
    obtain ⟨p, hpm, hb⟩ := hb
    rw [← hb]; exact plain_length (hp p hpm).1)
  rw [List.map_map] at hin
  refine ⟨⟨some (hash random), none, false, false⟩, ?_⟩
  simp only [inbound, first_stored h0 (hh random).1 (hh random).2 pad]
  have hfun : (fun p => encipher (some (hash random)) p.plain)
      = encipher (some (hash random)) ∘ OutPacket.plain := rfl
  rw [hfun, hin]
  simp

/-- The comparison of keys (`packet.rs` 352-357) never happens: a server with a pre-shared key has this key loaded from
the start, and no packet, in particular no first packet with another key, is ever refused or changes the obfuscator. -/
theorem C139_counterexample_no_comparison (hash : Nat → Nat) (k : Nat) (s0 : Obf)
    (hs : newServer hash (.withKey k) = some s0) (frames : List Bytes) :
    ∃ ps, inbound s0 frames = some (s0, ps) := by
  simp only [newServer] at hs
  split at hs
  · cases hs
  simp only [Option.some.injEq] at hs
  subst hs
  induction frames with
  | nil => exact ⟨[], rfl⟩
  | cons b bs ih =>
    obtain ⟨ps, ih⟩ := ih
    by_cases h : b.length < headerLen
    · exact ⟨ps, by simp [inbound, onPacketReceived, h, ih]⟩
    · exact ⟨applyCipher (hash k) true b :: ps, by simp [inbound, onPacketReceived, h, ih]⟩

/-- A client without obfuscation and a server with a pre-shared key: the connection is not refused, the packet arrives
with another header. -/
theorem C139_counterexample_settings : ∃ (c : Obf × Bytes) (s0 : Obf) (p : Bytes),
    newClient id 0 [] .disabled = some c ∧ newServer id (.withKey 1) = some s0 ∧ p.length = 64 ∧
    let t := (Conn.start c s0).run [.serverRecv, .clientSend (.contiguous p), .serverRecv]
    t.broken = false ∧ t.sentC = [p] ∧ t.toS = [] ∧ ∃ q, t.gotS = [q] ∧ q ≠ p := by
  refine ⟨_, _, List.replicate 64 0, rfl, rfl, rfl, ?_⟩
  refine ⟨by decide +kernel, by decide +kernel, by decide +kernel, _, rfl, ?_⟩
  decide +kernel

/-- A server without a pre-shared key which sends before the first packet has arrived: the packet arrives with another
header (a listener of a peer connection may do this as soon as the connection is there). -/
theorem C139_counterexample_early : ∃ (c : Obf × Bytes) (s0 : Obf) (p : Bytes),
    newClient id 1 [] .enabled = some c ∧ newServer id .enabled = some s0 ∧ p.length = 64 ∧
    let t := (Conn.start c s0).run [.serverSend (.contiguous p), .clientRecv]
    t.broken = false ∧ t.sentS = [p] ∧ t.toC = [] ∧ ∃ q, t.gotC = [q] ∧ q ≠ p := by
  refine ⟨_, _, List.replicate 64 0, rfl, rfl, rfl, ?_⟩
  refine ⟨by decide +kernel, by decide +kernel, by decide +kernel, _, rfl, ?_⟩
  decide +kernel

/-- The hypotheses of `C139_roundtrip_partial` are met: a pre-shared key, the server sends first, then the client. -/
example : Compatible (.withKey 5) (.withKey 5) ∧ SoundHash (fun x => x % 1000 + 1) ∧
    ∃ c s0, newClient (fun x => x % 1000 + 1) 0 [1, 2] (.withKey 5) = some c ∧
      newServer (fun x => x % 1000 + 1) (.withKey 5) = some s0 ∧
      Fair (∃ k, Settings.withKey 5 = .withKey k) (Conn.start c s0)
        [.serverSend (.contiguous (List.replicate 70 3)), .serverRecv,
         .clientSend (.split (List.replicate 64 4) [9, 9]), .serverRecv, .clientRecv] := by
  refine ⟨rfl, ?_, _, _, rfl, rfl, ?_⟩
  · intro x
    simp only
    omega
  · refine ⟨⟨by simp [HasHeader, headerLen], Or.inl ⟨5, rfl⟩⟩, trivial, by simp [HasHeader, headerLen], trivial, trivial, trivial⟩

/-! ## C140 -/

/-- What the loop starts with. -/
def firstBytes (first : Option Bytes) : Bytes := match first with | some b => rawFrame b | none => []

/-- Whenever a flush has been acknowledged, the bytes of everything that was queued before it are at the socket. -/
theorem C140_barrier (o : Obf) (first : Option Bytes) (as : List LAct) (a : Nat) :
    let t := (Loop.start o first).run as
    a ∈ t.acks → ∃ (pre : List OutPacket) (post : List OutPacket) (bs : List Bytes),
      t.pushed = pre ++ .flush a :: post ∧
      List.Forall₂ (fun p b => ∃ o', b = (packetBytes o' p).2) pre bs ∧
      firstBytes first ++ bs.flatten <+: t.wire := by
  intro t ha
  have inv := linv_run as (linv_start o first)
  obtain ⟨pre, post, e1, e2⟩ := inv.acks a ha
  refine ⟨pre.map Prod.fst, post.map Prod.fst ++ t.queue, pre.map Prod.snd, ?_, ?_, e2⟩
  · have := inv.order
    rw [e1] at this
    simpa using this
  · have henc := inv.encoded
    rw [e1] at henc
    have : ∀ e ∈ pre, ∃ o', e.2 = (packetBytes o' e.1).2 := fun e he => henc e (by simp [he])
    clear e1 e2 henc
    induction pre with
    | nil => exact .nil
    | cons e pre ih => exact .cons (this e (by simp)) (ih (fun e' he' => this e' (by simp [he'])))

/-- Whenever the loop waits for a packet, the socket has exactly the bytes of the packets taken from the queue, in the
order in which they were queued. -/
theorem C140_idle (o : Obf) (first : Option Bytes) (as : List LAct) :
    let t := (Loop.start o first).run as
    t.pc = .wait → ∃ (taken : List OutPacket) (bs : List Bytes),
      t.pushed = taken ++ t.queue ∧
      List.Forall₂ (fun p b => ∃ o', b = (packetBytes o' p).2) taken bs ∧
      t.wire = firstBytes first ++ bs.flatten := by
  intro t ht
  have inv := linv_run as (linv_start o first)
  refine ⟨t.done.map Prod.fst, t.done.map Prod.snd, inv.order, ?_, ?_⟩
  · have henc := inv.encoded
    have : ∀ e ∈ t.done, ∃ o', e.2 = (packetBytes o' e.1).2 := henc
    revert this
    generalize t.done = l
    intro this
    induction l with
    | nil => exact .nil
    | cons e pre ih => exact .cons (this e (by simp)) (ih (fun e' he' => this e' (by simp [he'])))
  · have h1 := inv.bytes
    rw [inv.idle ht, List.append_nil] at h1
    exact h1

/-- The work that is left. -/
def work (s : Loop) : Nat := 2 * s.queue.length + (if s.pc = .wait then 0 else 1)

theorem write_queue (s : Loop) (p : OutPacket) : (s.write p).queue = s.queue ∧ (s.write p).pc = s.pc := by
  cases p <;> simp [Loop.write]

theorem work_turn (s : Loop) : work (s.act .turn) ≤ work s - 1 := by
  unfold Loop.act
  cases hpc : s.pc with
  | wait =>
    cases hq : s.queue with
    | nil => simp [work, hpc, hq]
    | cons p q =>
      simp only [work, write_queue, hpc, hq]
      simp; omega
  | drain n =>
    cases hq : s.queue with
    | nil => simp [work, hpc, hq]
    | cons p q =>
      simp only
      split
      · simp only [work, write_queue, hpc, hq]; simp; omega
      · simp only [work, hpc, hq]; simp

theorem work_turns (n : Nat) : ∀ s : Loop, work (s.run (List.replicate n .turn)) ≤ work s - n := by
  induction n with
  | zero => intro s; exact Nat.le_refl _
  | succ n ih =>
    intro s
    have h1 := ih (s.act .turn)
    have h2 := work_turn s
    simp only [List.replicate_succ, Loop.run, List.foldl_cons] at h1 ⊢
    omega

theorem run_append (s : Loop) (as bs : List LAct) : s.run (as ++ bs) = (s.run as).run bs := by
  simp [Loop.run]

/-- From every state, if nothing more is queued, a bounded number of steps brings everything that was queued to the
socket. -/
theorem C140_progress (o : Obf) (first : Option Bytes) (as : List LAct) :
    let s := (Loop.start o first).run as
    let t := s.run (List.replicate (2 * s.queue.length + 1) .turn)
    t.queue = [] ∧ t.buf = [] ∧ ∃ bs : List Bytes,
      List.Forall₂ (fun p b => ∃ o', b = (packetBytes o' p).2) t.pushed bs ∧ t.wire = firstBytes first ++ bs.flatten := by
  intro s t
  have hw := work_turns (2 * s.queue.length + 1) s
  have hs : work s ≤ 2 * s.queue.length + 1 := by unfold work; split <;> omega
  have h0 : work t = 0 := by
    have : work t ≤ work s - (2 * s.queue.length + 1) := hw
    omega
  have hq : t.queue = [] := by
    unfold work at h0
    exact List.eq_nil_of_length_eq_zero (by omega)
  have hpc : t.pc = .wait := by
    unfold work at h0
    split at h0
    · assumption
    · omega
  have ht : t = (Loop.start o first).run (as ++ List.replicate (2 * s.queue.length + 1) .turn) := by
    rw [run_append]
  have inv := linv_run (as ++ List.replicate (2 * s.queue.length + 1) .turn) (linv_start o first)
  have hidle := C140_idle o first (as ++ List.replicate (2 * s.queue.length + 1) .turn)
  rw [← ht] at inv hidle
  obtain ⟨taken, bs, e1, e2, e3⟩ := hidle hpc
  rw [hq, List.append_nil] at e1
  exact ⟨hq, inv.idle hpc, bs, e1 ▸ e2, e3⟩

/-- Whether an action is a step of the loop. -/
def isTurn : LAct → Bool
  | .turn => true
  | _ => false

theorem yields_from (as : List LAct) : ∀ (s : Loop) (n : Nat), s.pc = .drain n → n ≤ burstMax →
    burstMax - n + 1 ≤ as.countP isTurn → ∃ pre, pre <+: as ∧ (s.run pre).pc = .wait := by
  induction as with
  | nil => intro s n _ _ h; simp at h
  | cons a as ih =>
    intro s n hpc hn hcount
    have keep : (s.act a).pc = .drain n → isTurn a = false →
        ∃ pre, pre <+: a :: as ∧ (s.run pre).pc = .wait := by
      intro h1 h2
      rw [List.countP_cons_of_neg (by simp [h2])] at hcount
      obtain ⟨pre, e1, e2⟩ := ih _ n h1 hn hcount
      exact ⟨a :: pre, (List.prefix_cons_inj a).2 e1, e2⟩
    cases a with
    | push p => exact keep hpc rfl
    | spill m => exact keep hpc rfl
    | obf o => exact keep hpc rfl
    | turn =>
      rw [List.countP_cons_of_pos (by rfl)] at hcount
      cases hq : s.queue with
      | nil => exact ⟨[.turn], ⟨as, rfl⟩, by simp [Loop.run, Loop.act, hpc, hq]⟩
      | cons p q =>
        by_cases hlt : n < burstMax
        · have h1 : (s.act .turn).pc = .drain (n + 1) := by
            simp only [Loop.act, hpc, hq, hlt, if_true, write_queue]
          obtain ⟨pre, e1, e2⟩ := ih _ (n + 1) h1 (by omega) (by omega)
          exact ⟨.turn :: pre, (List.prefix_cons_inj _).2 e1, e2⟩
        · exact ⟨[.turn], ⟨as, rfl⟩, by simp [Loop.run, Loop.act, hpc, hq, hlt]⟩

/-- However fast packets are queued, the loop comes back to its yield point within 34 of its steps, so that the reader
half, which shares its task, gets its turn. -/
theorem C140_yields (o : Obf) (first : Option Bytes) (as bs : List LAct) (h : 33 ≤ bs.countP isTurn) :
    ∃ pre, pre <+: bs ∧ (((Loop.start o first).run as).run pre).pc = .wait := by
  have inv := linv_run as (linv_start o first)
  cases hpc : ((Loop.start o first).run as).pc with
  | wait => exact ⟨[], List.nil_prefix, hpc⟩
  | drain n =>
    refine yields_from bs _ n hpc (inv.burst n hpc) ?_
    have : burstMax = 32 := rfl
    omega

/-- A run in which a flush is acknowledged between two packets. -/
example : ((Loop.start ⟨none, none, true, false⟩ none).run
    [.push (.contiguous [1]), .push (.flush 9), .push (.contiguous [2]), .turn, .turn, .turn]).acks = [9] := by
  decide

/-! ## C141 -/

/-- If the other end has sent nothing but the first packet when it is read (the chunks of the first packet hold nothing
else), then what follows stays in the stream. Missing for the full statement: bytes of what follows which arrive in the
same chunk are lost (`C141_counterexample_lost`); that the server waits for the client is not part of this model. -/
theorem C141_handover_partial (body : Bytes) (hb : body.length ≤ 8 * 1024 * 1024) (cs later : List Bytes)
    (hne : ∀ c ∈ cs, c ≠ []) (hcs : cs.flatten = rawFrame body) :
    readOne {} (cs ++ later) = some (body, later) := by
  have hm : defaultMaxFrame < 2 ^ 32 := by decide
  have key : ∀ (cs : List Bytes) (d : Dec), (∀ c ∈ cs, c ≠ []) → cs ≠ [] → Ok defaultMaxFrame d →
      pending d ++ cs.flatten = frames [body] → readOne d (cs ++ later) = some (body, later) := by
    intro cs
    induction cs with
    | nil => intro d _ h; exact (h rfl).elim
    | cons c cs ih =>
      intro d hne _ hd h
      have hd' : Ok defaultMaxFrame { d with buf := d.buf ++ c } := ⟨hd.1, hd.2⟩
      rcases decode_spec hm (future := cs.flatten) (rest := [body]) hd' (by simpa [defaultMaxFrame] using hb)
        (by rw [pending_feed, ← h]; simp) with ⟨d', h1, h2, h3, h4⟩ | ⟨b, r, d', h1, h2, h3, h4⟩
      · simp only [List.cons_append, readOne, h1, h2.1]
        have hcs : cs ≠ [] := by
          intro he
          rw [he] at h4
          have := h4 rfl
          cases this
        refine ih d' (fun x hx => hne x (by simp [hx])) hcs h2 ?_
        rw [h3, pending_feed, ← h]; simp
      · simp only [List.cons.injEq] at h1
        obtain ⟨h1a, h1b⟩ := h1
        subst h1a
        rw [← h1b, frames_nil] at h4
        have hnil : cs = [] := by
          cases cs with
          | nil => rfl
          | cons x xs =>
            have := congrArg List.length h4
            have hx := hne x (by simp)
            have hxl : 0 < x.length := List.length_pos_iff.2 hx
            rw [List.length_append, List.flatten_cons, List.length_append, List.length_nil] at this
            omega
        subst hnil
        simp only [List.cons_append, List.nil_append, readOne, h2]
  refine key cs {} hne ?_ ⟨rfl, by simp⟩ ?_
  · intro h
    rw [h] at hcs
    have := congrArg List.length hcs
    simp [rawFrame] at this
    omega
  · simpa [pending, frames] using hcs

example : readOne {} [[0, 0], [0, 1, 5], [0, 0, 0, 1, 6]] = some ([5], [[0, 0, 0, 1, 6]]) :=
  C141_handover_partial [5] (by simp) [[0, 0], [0, 1, 5]] [[0, 0, 0, 1, 6]] (by decide) (by decide)

/-- Bytes which arrive together with the first packet are dropped with the buffer of the codec: the stream goes on
behind them. -/
theorem C141_counterexample_lost (body extra : Bytes) (hb : body.length ≤ 8 * 1024 * 1024) (later : List Bytes) :
    readOne {} ((rawFrame body ++ extra) :: later) = some (body, later) := by
  have hm : defaultMaxFrame < 2 ^ 32 := by decide
  have hb' : body.length ≤ defaultMaxFrame := hb
  have h4 : (rawFrame body ++ extra).take 4 = lenPrefix body.length := by
    rw [rawFrame, List.append_assoc, List.take_append_of_le_length (by simp), List.take_of_length_le (by simp)]
  have h5 : (rawFrame body ++ extra).drop 4 = body ++ extra := by
    rw [rawFrame, List.append_assoc, List.drop_append_of_le_length (by simp), List.drop_of_length_le (by simp)]
    rfl
  have h6 : ¬ (rawFrame body ++ extra).length < 4 := by simp [rawFrame]
  simp only [readOne, List.nil_append, decode, h4, h5, h6, fromBE_lenPrefix (Nat.lt_of_le_of_lt hb' hm),
    Nat.not_lt.2 hb', decodeData]
  simp

end Verif.Wire
