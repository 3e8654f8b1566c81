import Verif.Wire.Model
/-! Lemmas about the cipher, the frames, the obfuscators and the outbound loop. -/
namespace Verif.Wire

/-! ## The cipher -/

theorem cipherInner_inverse (a b c : UInt8) : cipherInner a b (cipherInner a b c false) true = c := by
  simp [cipherInner, UInt8.xor_assoc]

/-- What the cipher does with the byte at a place. -/
def cipherAt (k : Nat) (inv : Bool) (i : Nat) (c : UInt8) : UInt8 :=
  cipherInner ((((toBE 16 k).take 8).zip ((toBE 16 k).drop 8)).getD (i % 8) (0, 0)).1
    ((((toBE 16 k).take 8).zip ((toBE 16 k).drop 8)).getD (i % 8) (0, 0)).2 c inv

theorem applyCipher_eq (k : Nat) (inv : Bool) (p : Bytes) :
    applyCipher k inv p = (p.take headerLen).mapIdx (cipherAt k inv) ++ p.drop headerLen := rfl

theorem length_applyCipher (k : Nat) (inv : Bool) (p : Bytes) : (applyCipher k inv p).length = p.length := by
  simp [applyCipher_eq]
  omega

theorem take_applyCipher (k : Nat) (inv : Bool) (p : Bytes) :
    (applyCipher k inv p).take headerLen = (p.take headerLen).mapIdx (cipherAt k inv) := by
  rw [applyCipher_eq]
  by_cases h : headerLen ≤ p.length
  · rw [List.take_append_of_le_length (by simp [h]), List.take_of_length_le (by simp)]
  · rw [List.drop_of_length_le (by omega), List.append_nil, List.take_of_length_le (by simp)]

theorem drop_applyCipher (k : Nat) (inv : Bool) (p : Bytes) :
    (applyCipher k inv p).drop headerLen = p.drop headerLen := by
  rw [applyCipher_eq]
  by_cases h : headerLen ≤ p.length
  · rw [List.drop_append, List.drop_of_length_le (by simp)]
    simp [Nat.min_eq_left h]
  · rw [List.drop_of_length_le (l := p) (by omega), List.append_nil]
    apply List.drop_of_length_le
    simp

theorem applyCipher_inverse (k : Nat) (p : Bytes) : applyCipher k true (applyCipher k false p) = p := by
  rw [applyCipher_eq k true, take_applyCipher, drop_applyCipher, List.mapIdx_mapIdx]
  have : (p.take headerLen).mapIdx (fun i => cipherAt k true i ∘ cipherAt k false i) = p.take headerLen := by
    apply List.ext_getElem
    · simp
    · intro i h1 h2
      simp [cipherAt, cipherInner_inverse]
  rw [this, List.take_append_drop]

/-- The header of a split packet is ciphered as the header of the whole packet is. -/
theorem applyCipher_append (k : Nat) (inv : Bool) (h p : Bytes) (hl : headerLen ≤ h.length) :
    applyCipher k inv (h ++ p) = applyCipher k inv h ++ p := by
  rw [applyCipher_eq, applyCipher_eq, List.take_append_of_le_length hl, List.drop_append_of_le_length hl, List.append_assoc]

/-! ## The frames -/

/-- The frames of a list of bodies. -/
def frames (bodies : List Bytes) : Bytes := (bodies.map rawFrame).flatten

@[simp] theorem frames_nil : frames [] = [] := rfl
@[simp] theorem frames_cons (b : Bytes) (bs : List Bytes) : frames (b :: bs) = rawFrame b ++ frames bs := rfl
theorem frames_append (a b : List Bytes) : frames (a ++ b) = frames a ++ frames b := by simp [frames]

/-- The bytes that the decoder has read and not handed out. -/
def pending (d : Dec) : Bytes :=
  match d.head with
  | some n => lenPrefix n ++ d.buf
  | none => d.buf

theorem lenPrefix_inj {a b : Nat} (ha : a < 2 ^ 32) (hb : b < 2 ^ 32) (h : lenPrefix a = lenPrefix b) : a = b := by
  have h1 : fromBE (lenPrefix a) = a := fromBE_toBE (len := 4) (by omega)
  have h2 : fromBE (lenPrefix b) = b := fromBE_toBE (len := 4) (by omega)
  rw [← h1, ← h2, h]

@[simp] theorem length_lenPrefix (n : Nat) : (lenPrefix n).length = 4 := by simp [lenPrefix]

theorem lenPrefix_mod {n m : Nat} (h : n % 256 ^ 4 = m % 256 ^ 4) : lenPrefix n = lenPrefix m := by
  have h1 := toBE_fromBE (lenPrefix n)
  have h2 := toBE_fromBE (lenPrefix m)
  rw [length_lenPrefix] at h1 h2
  have h3 : fromBE (lenPrefix n) = fromBE (lenPrefix m) := by
    rw [lenPrefix, lenPrefix, fromBE_toBE_mod, fromBE_toBE_mod, h]
  rw [← h1, ← h2, h3]

theorem fromBE_lenPrefix {n : Nat} (h : n < 2 ^ 32) : fromBE (lenPrefix n) = n :=
  fromBE_toBE (len := 4) (by omega)

/-- The decoder is alive and the length it read is a legal one. -/
def Ok (max : Nat) (d : Dec) : Prop := d.dead = false ∧ ∀ n, d.head = some n → n ≤ max

theorem decodeData_spec {max : Nat} (hm : max < 2 ^ 32) {buf : Bytes} {n : Nat} {future : Bytes} {rest : List Bytes}
    (hn : n ≤ max) (hr : ∀ b ∈ rest, b.length ≤ max)
    (h : lenPrefix n ++ buf ++ future = frames rest) (hd : Option Nat) :
    (∃ d', decodeData ⟨buf, hd, false⟩ n = (none, d') ∧ Ok max d' ∧ pending d' = lenPrefix n ++ buf
        ∧ (future = [] → False)) ∨
    (∃ b rest' d', rest = b :: rest' ∧ decodeData ⟨buf, hd, false⟩ n = (some b, d') ∧ Ok max d'
        ∧ pending d' ++ future = frames rest') := by
  cases rest with
  | nil =>
    have := congrArg List.length h
    simp at this
  | cons b rest' =>
    have hb : b.length ≤ max := hr b (by simp)
    rw [frames_cons, rawFrame, List.append_assoc, List.append_assoc] at h
    have h4 := List.append_inj h (by simp)
    have hnb : n = b.length := lenPrefix_inj (by omega) (by omega) h4.1
    have h5 := h4.2
    unfold decodeData
    by_cases hlt : buf.length < n
    · left
      refine ⟨⟨buf, some n, false⟩, by simp [hlt], ⟨rfl, by simpa using hn⟩, rfl, ?_⟩
      intro hf
      rw [hf, List.append_nil] at h5
      have := congrArg List.length h5
      simp at this
      omega
    · right
      refine ⟨b, rest', ⟨buf.drop n, none, false⟩, rfl, ?_, ⟨rfl, by simp⟩, ?_⟩
      · have : buf.take n = b := by
          have := congrArg (List.take n) h5
          rw [List.take_append_of_le_length (by omega), hnb, take_append_len] at this
          rw [hnb]; exact this
        simp [hlt, this]
      · have := congrArg (List.drop n) h5
        rw [List.drop_append_of_le_length (by omega), hnb, drop_append_len] at this
        simp only [pending]
        rw [hnb]; exact this

theorem decode_spec {max : Nat} (hm : max < 2 ^ 32) {d : Dec} {future : Bytes} {rest : List Bytes}
    (hd : Ok max d) (hr : ∀ b ∈ rest, b.length ≤ max) (h : pending d ++ future = frames rest) :
    (∃ d', decode max d = (none, d') ∧ Ok max d' ∧ pending d' = pending d ∧ (future = [] → rest = [])) ∨
    (∃ b rest' d', rest = b :: rest' ∧ decode max d = (some b, d') ∧ Ok max d' ∧ pending d' ++ future = frames rest') := by
  obtain ⟨buf, head, dead⟩ := d
  obtain ⟨hdead, hhead⟩ := hd
  simp only at hdead hhead
  subst hdead
  unfold decode
  cases head with
  | some n =>
    rcases decodeData_spec hm (hhead n rfl) hr (buf := buf) (future := future) h (some n) with
      ⟨d', h1, h2, h3, h4⟩ | ⟨b, rest', d', h1, h2, h3, h4⟩
    · exact Or.inl ⟨d', by simpa using h1, h2, by rw [h3]; rfl, fun hf => (h4 hf).elim⟩
    · exact Or.inr ⟨b, rest', d', h1, by simpa using h2, h3, h4⟩
  | none =>
    simp only [pending] at h
    by_cases hlt : buf.length < 4
    · refine Or.inl ⟨⟨buf, none, false⟩, by simp [hlt], ⟨rfl, by simp⟩, rfl, ?_⟩
      intro hf
      cases rest with
      | nil => rfl
      | cons b rest' =>
        rw [hf] at h
        have := congrArg List.length h
        simp [rawFrame] at this
        omega
    · cases rest with
      | nil =>
        have := congrArg List.length h
        rw [List.length_append, frames_nil, List.length_nil] at this
        omega
      | cons b rest' =>
        have hb : b.length ≤ max := hr b (by simp)
        have h4 : buf.take 4 = lenPrefix b.length := by
          have := congrArg (List.take 4) h
          rw [List.take_append_of_le_length (by omega), frames_cons, rawFrame, List.append_assoc,
            List.take_append_of_le_length (by simp), List.take_of_length_le (l := lenPrefix _) (by simp)] at this
          exact this
        have hval : fromBE (buf.take 4) = b.length := by
          rw [h4, fromBE_lenPrefix (by omega)]
        have hsplit : lenPrefix b.length ++ buf.drop 4 = buf := by
          rw [← h4, List.take_append_drop]
        have h' : lenPrefix b.length ++ buf.drop 4 ++ future = frames (b :: rest') := by
          rw [hsplit]; exact h
        rcases decodeData_spec hm hb hr h' none with ⟨d', h1, h2, h3, h5⟩ | ⟨b', r', d', h1, h2, h3, h5⟩
        · refine Or.inl ⟨d', ?_, h2, ?_, fun hf => (h5 hf).elim⟩
          · simp [hlt, hval, Nat.not_lt.2 hb]; exact h1
          · rw [h3, hsplit]; rfl
        · refine Or.inr ⟨b', r', d', h1, ?_, h3, h5⟩
          simp [hlt, hval, Nat.not_lt.2 hb]; exact h2

theorem drain_none {max : Nat} {d d' : Dec} (h : decode max d = (none, d')) : drain max d = ([], d') := by
  rw [drain]; split
  · rename_i h'; rw [h] at h'; simp at h'; rw [h']
  · rename_i h'; rw [h] at h'; simp at h'

theorem drain_some {max : Nat} {d d' : Dec} {f : Bytes} (h : decode max d = (some f, d')) :
    drain max d = (f :: (drain max d').1, (drain max d').2) := by
  conv => lhs; rw [drain]
  split
  · rename_i h'; rw [h] at h'; simp at h'
  · rename_i h'; rw [h] at h'; simp at h'; rw [h'.1, h'.2]

theorem drain_spec {max : Nat} (hm : max < 2 ^ 32) (rest : List Bytes) :
    ∀ {d : Dec} {future : Bytes}, Ok max d → (∀ b ∈ rest, b.length ≤ max) → pending d ++ future = frames rest →
    ∃ rest', rest = (drain max d).1 ++ rest' ∧ Ok max (drain max d).2
      ∧ pending (drain max d).2 ++ future = frames rest' ∧ (future = [] → rest' = []) := by
  induction rest with
  | nil =>
    intro d future hd hr h
    rcases decode_spec hm hd hr h with ⟨d', h1, h2, h3, h4⟩ | ⟨b, r, d', h1, _⟩
    · rw [drain_none h1]
      exact ⟨[], rfl, h2, by simpa [h3] using h, h4⟩
    · cases h1
  | cons b0 rest ih =>
    intro d future hd hr h
    rcases decode_spec hm hd hr h with ⟨d', h1, h2, h3, h4⟩ | ⟨b, r, d', h1, h2, h3, h4⟩
    · rw [drain_none h1]
      exact ⟨b0 :: rest, rfl, h2, by simpa [h3] using h, h4⟩
    · rw [drain_some h2]
      cases h1
      obtain ⟨rest', e1, e2, e3, e4⟩ := ih h3 (fun b hb => hr b (by simp [hb])) h4
      exact ⟨rest', by simpa using e1, e2, e3, e4⟩

theorem pending_feed (d : Dec) (c : Bytes) : pending { d with buf := d.buf ++ c } = pending d ++ c := by
  cases d with
  | mk buf head dead => cases head <;> simp [pending]

theorem feedAll_spec {max : Nat} (hm : max < 2 ^ 32) (chunks : List Bytes) :
    ∀ {d : Dec} {future : Bytes} {rest : List Bytes}, Ok max d → (∀ b ∈ rest, b.length ≤ max) →
      pending d ++ chunks.flatten ++ future = frames rest →
      (chunks = [] → future = [] → rest = []) →
    ∃ rest', rest = (feedAll max d chunks).1 ++ rest' ∧ Ok max (feedAll max d chunks).2
      ∧ pending (feedAll max d chunks).2 ++ future = frames rest' ∧ (future = [] → rest' = []) := by
  induction chunks with
  | nil =>
    intro d future rest hd hr h h0
    exact ⟨rest, rfl, hd, by simpa [feedAll] using h, h0 rfl⟩
  | cons c cs ih =>
    intro d future rest hd hr h _
    have hfeed : feed max d c = drain max { d with buf := d.buf ++ c } := by simp [feed, hd.1]
    have hd' : Ok max { d with buf := d.buf ++ c } := ⟨hd.1, hd.2⟩
    have h' : pending { d with buf := d.buf ++ c } ++ (cs.flatten ++ future) = frames rest := by
      rw [pending_feed, ← h]; simp
    obtain ⟨r1, e1, e2, e3, e4⟩ := drain_spec hm rest hd' hr h'
    have hr1 : ∀ b ∈ r1, b.length ≤ max := fun b hb => hr b (by rw [e1]; simp [hb])
    obtain ⟨r2, f1, f2, f3, f4⟩ := ih (d := (drain max { d with buf := d.buf ++ c }).2) (future := future)
      e2 hr1 (by simpa using e3) (fun h1 h2 => e4 (by simp [h1, h2]))
    refine ⟨r2, ?_, ?_, ?_, f4⟩
    · simp only [feedAll, hfeed, List.append_assoc]
      rw [← f1]; exact e1
    · simpa only [feedAll, hfeed] using f2
    · simpa only [feedAll, hfeed] using f3

/-! ## The two obfuscators -/

/-- A packet with a whole header in its first buffer. -/
def HasHeader : OutPacket → Prop
  | .contiguous buf => headerLen ≤ buf.length
  | .split h _ => headerLen ≤ h.length
  | .flush _ => False

/-- What the cipher of a connection does with a packet. -/
def encipher : Option Nat → Bytes → Bytes
  | some k, p => applyCipher k false p
  | none, p => p

theorem length_encipher (k : Option Nat) (p : Bytes) : (encipher k p).length = p.length := by
  cases k <;> simp [encipher, length_applyCipher]

/-- An obfuscator which enciphers with `k`, deciphers with `k` and does not change. -/
structure Works (o : Obf) (k : Option Nat) : Prop where
  send : ∀ p, HasHeader p → bodyOf o p = (o, encipher k p.plain)
  recv : ∀ b, headerLen ≤ b.length → onPacketReceived o (encipher k b) = some (o, true, b)

theorem works_key (k : Nat) (e : Option Nat) : Works ⟨some k, e, false, false⟩ (some k) := by
  constructor
  · intro p hp
    cases p with
    | contiguous buf => simp [HasHeader] at hp; simp [bodyOf, obfuscateHeader, hp, encipher, OutPacket.plain]
    | split h q =>
      simp [HasHeader] at hp
      simp [bodyOf, obfuscateHeader, hp, encipher, OutPacket.plain, applyCipher_append _ _ _ _ hp]
    | flush a => exact hp.elim
  · intro b hb
    simp [onPacketReceived, encipher, length_applyCipher, Nat.not_lt.2 hb, applyCipher_inverse]

theorem works_disabled (e : Option Nat) (c : Bool) : Works ⟨none, e, true, c⟩ none := by
  constructor
  · intro p hp
    cases p with
    | contiguous buf => cases c <;> simp [bodyOf, obfuscateHeader, encipher, OutPacket.plain]
    | split h q => cases c <;> simp [bodyOf, obfuscateHeader, encipher, OutPacket.plain]
    | flush a => exact hp.elim
  · intro b hb
    simp [onPacketReceived, encipher]

theorem plain_length {p : OutPacket} (h : HasHeader p) : headerLen ≤ p.plain.length := by
  cases p with
  | contiguous buf => exact h
  | split a b => simp [HasHeader] at h; simp [OutPacket.plain]; omega
  | flush a => exact h.elim

/-- The state of a connection whose obfuscators agree on `k`: the server `s0` has not read the first packet `first` yet
or is `s1`. -/
structure CInv (k : Option Nat) (c0 s0 s1 : Obf) (first : Bytes) (preset : Prop) (s : Conn) : Prop where
  client : s.client = c0
  server : (s.heard = false ∧ s.server = s0 ∧ s.gotS = [] ∧ s.toS = first :: s.sentC.map (encipher k)
      ∧ (preset ∨ s.sentS = [])) ∨
    (s.heard = true ∧ s.server = s1 ∧ ∃ rest, s.sentC = s.gotS ++ rest ∧ s.toS = rest.map (encipher k))
  back : ∃ rest, s.sentS = s.gotC ++ rest ∧ s.toC = rest.map (encipher k)
  alive : s.broken = false
  lenC : ∀ b ∈ s.sentC, headerLen ≤ b.length
  lenS : ∀ b ∈ s.sentS, headerLen ≤ b.length

/-- Every packet has a whole header, and the server sends nothing before it has read the first packet (unless it has
the key from the start). -/
def Fair (preset : Prop) : Conn → List Act → Prop
  | _, [] => True
  | s, a :: as =>
    (match a with
      | .clientSend p => HasHeader p
      | .serverSend p => HasHeader p ∧ (preset ∨ s.heard = true)
      | _ => True) ∧ Fair preset (s.act a) as

theorem cinv_act {k : Option Nat} {c0 s0 s1 : Obf} {first junk : Bytes} {preset : Prop} {s : Conn} {a : Act}
    (hc : Works c0 k) (hs1 : Works s1 k) (hs0 : preset → s0 = s1)
    (hfirst : onPacketReceived s0 first = some (s1, false, junk))
    (h : CInv k c0 s0 s1 first preset s) (hf : Fair preset s [a]) : CInv k c0 s0 s1 first preset (s.act a) := by
  obtain ⟨h1, h2, ⟨rb, h3, h3'⟩, h4, h5, h6⟩ := h
  obtain ⟨hf, -⟩ := hf
  cases a with
  | clientSend p =>
    simp only at hf
    have hb := hc.send p hf
    simp only [Conn.act, h1, hb]
    refine ⟨rfl, ?_, ⟨rb, h3, h3'⟩, h4, ?_, h6⟩
    · rcases h2 with ⟨a1, a2, a3, a4, a5⟩ | ⟨a1, a2, r, a3, a4⟩
      · exact Or.inl ⟨a1, a2, a3, by simp [a4], a5⟩
      · exact Or.inr ⟨a1, a2, r ++ [p.plain], by simp [a3], by simp [a4]⟩
    · intro b hb
      simp only [List.mem_append, List.mem_singleton] at hb
      rcases hb with hb | hb
      · exact h5 b hb
      · rw [hb]; exact plain_length hf
  | serverSend p =>
    simp only at hf
    have hsv : s.server = s1 := by
      rcases h2 with ⟨a1, a2, _⟩ | ⟨a1, a2, _⟩
      · rcases hf.2 with hp | hp
        · rw [a2, hs0 hp]
        · rw [a1] at hp; cases hp
      · exact a2
    have hb := hs1.send p hf.1
    simp only [Conn.act, hsv, hb]
    refine ⟨h1, ?_, ⟨rb ++ [p.plain], by simp [h3], by simp [h3']⟩, h4, h5, ?_⟩
    · rcases h2 with ⟨a1, a2, a3, a4, a5⟩ | ⟨a1, a2, r, a3, a4⟩
      · have hp : preset := by
          rcases hf.2 with hp | hp
          · exact hp
          · rw [a1] at hp; cases hp
        exact Or.inl ⟨a1, (hs0 hp).symm, a3, a4, Or.inl hp⟩
      · exact Or.inr ⟨a1, rfl, r, a3, a4⟩
    · intro b hb
      simp only [List.mem_append, List.mem_singleton] at hb
      rcases hb with hb | hb
      · exact h6 b hb
      · rw [hb]; exact plain_length hf.1
  | serverRecv =>
    rcases h2 with ⟨a1, a2, a3, a4, a5⟩ | ⟨a1, a2, r, a3, a4⟩
    · simp only [Conn.act, a4, a2, hfirst]
      exact ⟨h1, Or.inr ⟨rfl, rfl, s.sentC, by simp [a3], rfl⟩, ⟨rb, h3, h3'⟩, h4, h5, h6⟩
    · cases r with
      | nil =>
        simp only [List.map_nil] at a4
        simp only [Conn.act, a4]
        exact ⟨h1, Or.inr ⟨a1, a2, [], a3, a4⟩, ⟨rb, h3, h3'⟩, h4, h5, h6⟩
      | cons b r =>
        simp only [List.map_cons] at a4
        have hb : headerLen ≤ b.length := h5 b (by simp [a3])
        simp only [Conn.act, a4, a2, hs1.recv b hb]
        exact ⟨h1, Or.inr ⟨rfl, rfl, r, by simp [a3], rfl⟩, ⟨rb, h3, h3'⟩, h4, h5, h6⟩
  | clientRecv =>
    cases rb with
    | nil =>
      simp only [List.map_nil] at h3'
      simp only [Conn.act, h3']
      exact ⟨h1, h2, ⟨[], h3, h3'⟩, h4, h5, h6⟩
    | cons b r =>
      simp only [List.map_cons] at h3'
      have hb : headerLen ≤ b.length := h6 b (by simp [h3])
      simp only [Conn.act, h3', h1, hc.recv b hb]
      exact ⟨rfl, h2, ⟨r, by simp [h3], rfl⟩, h4, h5, h6⟩

theorem cinv_run {k : Option Nat} {c0 s0 s1 : Obf} {first junk : Bytes} {preset : Prop}
    (hc : Works c0 k) (hs1 : Works s1 k) (hs0 : preset → s0 = s1)
    (hfirst : onPacketReceived s0 first = some (s1, false, junk)) (as : List Act) :
    ∀ {s : Conn}, CInv k c0 s0 s1 first preset s → Fair preset s as → CInv k c0 s0 s1 first preset (s.run as) := by
  induction as with
  | nil => intro s h _; exact h
  | cons a as ih =>
    intro s h hf
    exact ih (cinv_act hc hs1 hs0 hfirst h ⟨hf.1, trivial⟩) hf.2

theorem cinv_start {k : Option Nat} {c0 s0 s1 : Obf} {first : Bytes} {preset : Prop} :
    CInv k c0 s0 s1 first preset (Conn.start (c0, first) s0) :=
  ⟨rfl, Or.inl ⟨rfl, rfl, rfl, rfl, Or.inr rfl⟩, ⟨[], rfl, rfl⟩, rfl, by simp [Conn.start], by simp [Conn.start]⟩

/-- The first packet of a client tells a server without a key the key. -/
theorem first_stored {key : Nat} (h0 : key ≠ 0) (hlt : key < 2 ^ 128) (hd : key ≠ disabledKey) (pad : Bytes) :
    onPacketReceived ⟨none, none, false, false⟩ (toBE 16 key ++ pad)
      = some (⟨some key, none, false, false⟩, false, pad) := by
  have h1 : (toBE 16 key ++ pad).take 16 = toBE 16 key := by
    rw [List.take_append_of_le_length (by simp), List.take_of_length_le (by simp)]
  have h2 : (toBE 16 key ++ pad).drop 16 = pad := by
    rw [List.drop_append_of_le_length (by simp), List.drop_of_length_le (by simp)]; rfl
  have h3 : fromBE (toBE 16 key) = key := fromBE_toBE (by omega)
  unfold onPacketReceived
  simp only [h1, h2, h3, Bool.false_eq_true, if_false, h0, hd]
  simp

theorem first_disabled :
    onPacketReceived ⟨none, none, false, false⟩ (toBE 16 disabledKey)
      = some (⟨none, none, true, true⟩, false, []) := by
  have h1 : (toBE 16 disabledKey).take 16 = toBE 16 disabledKey := List.take_of_length_le (by simp)
  have h2 : (toBE 16 disabledKey).drop 16 = [] := List.drop_of_length_le (by simp)
  have h3 : fromBE (toBE 16 disabledKey) = disabledKey := fromBE_toBE (by unfold disabledKey; omega)
  have h0 : disabledKey ≠ 0 := by unfold disabledKey; omega
  unfold onPacketReceived
  simp only [h1, h2, h3, Bool.false_eq_true, if_false, h0, if_true]
  simp

/-! ## The outbound loop -/

/-- The bytes written for the packets taken from the queue. -/
def written (s : Loop) : Bytes := (s.done.map Prod.snd).flatten

structure LInv (first : Bytes) (s : Loop) : Prop where
  bytes : s.wire ++ s.buf = first ++ written s
  order : s.pushed = s.done.map Prod.fst ++ s.queue
  idle : s.pc = .wait → s.buf = []
  acks : ∀ a ∈ s.acks, ∃ pre post, s.done = pre ++ (.flush a, []) :: post ∧
    first ++ (pre.map Prod.snd).flatten <+: s.wire
  encoded : ∀ e ∈ s.done, ∃ o, e.2 = (packetBytes o e.1).2
  burst : ∀ n, s.pc = .drain n → n ≤ burstMax

theorem linv_write {first : Bytes} {s : Loop} {p : OutPacket} {q : List OutPacket} {n : Nat}
    (hn : n ≤ burstMax) (hq : s.queue = p :: q) (h : LInv first s) :
    LInv first ({ s with queue := q, pc := .drain n }.write p) := by
  obtain ⟨h1, h2, h3, h4, h5, h6⟩ := h
  have hother : ∀ o b, b = (packetBytes s.obf p).2 →
      LInv first { s with queue := q, pc := .drain n, obf := o, buf := s.buf ++ b, done := s.done ++ [(p, b)] } := by
    intro o b hb
    refine ⟨?_, ?_, by simp, ?_, ?_, ?_⟩
    · simp only [written, List.map_append, List.flatten_append] at h1 ⊢
      rw [← List.append_assoc, h1]; simp
    · simp [h2, hq]
    · intro a ha
      obtain ⟨pre, post, e1, e2⟩ := h4 a ha
      exact ⟨pre, post ++ [(p, b)], by simp [e1], e2⟩
    · intro e he
      simp only [List.mem_append, List.mem_singleton] at he
      rcases he with he | he
      · exact h5 e he
      · exact ⟨s.obf, by rw [he]; exact hb⟩
    · intro m hm; simp only [Pc.drain.injEq] at hm; omega
  cases p with
  | contiguous b => exact hother _ _ rfl
  | split a b => exact hother _ _ rfl
  | flush a =>
    simp only [Loop.write]
    refine ⟨?_, ?_, by simp, ?_, ?_, ?_⟩
    · simp only [written, List.map_append, List.flatten_append] at h1 ⊢
      simp [h1]
    · simp [h2, hq]
    · intro a' ha
      simp only [List.mem_append, List.mem_singleton] at ha
      rcases ha with ha | ha
      · obtain ⟨pre, post, e1, e2⟩ := h4 a' ha
        exact ⟨pre, post ++ [(.flush a, [])], by simp [e1], e2.trans (List.prefix_append _ _)⟩
      · subst ha
        refine ⟨s.done, [], rfl, ?_⟩
        simp only [written] at h1
        rw [h1]; exact List.prefix_refl _
    · intro e he
      simp only [List.mem_append, List.mem_singleton] at he
      rcases he with he | he
      · exact h5 e he
      · exact ⟨s.obf, by rw [he]; rfl⟩
    · intro m hm; simp only [Pc.drain.injEq] at hm; omega

theorem linv_act {first : Bytes} {s : Loop} (h : LInv first s) (a : LAct) : LInv first (s.act a) := by
  obtain ⟨h1, h2, h3, h4, h5, h6⟩ := h
  cases a with
  | push p => exact ⟨h1, by simp [Loop.act, h2], h3, h4, h5, h6⟩
  | spill n =>
    refine ⟨?_, h2, ?_, ?_, h5, h6⟩
    · simp only [Loop.act, List.append_assoc, List.take_append_drop]; exact h1
    · intro hp; simp [Loop.act, h3 hp]
    · intro a ha
      obtain ⟨pre, post, e1, e2⟩ := h4 a ha
      exact ⟨pre, post, e1, e2.trans (List.prefix_append _ _)⟩
  | obf o => exact ⟨h1, h2, h3, h4, h5, h6⟩
  | turn =>
    have hflush : LInv first { s with wire := s.wire ++ s.buf, buf := [], pc := .wait } := by
      refine ⟨by simpa [written] using h1, h2, fun _ => rfl, ?_, h5, by simp⟩
      intro a ha
      obtain ⟨pre, post, e1, e2⟩ := h4 a ha
      exact ⟨pre, post, e1, e2.trans (List.prefix_append _ _)⟩
    unfold Loop.act
    cases hpc : s.pc with
    | wait =>
      cases hq : s.queue with
      | nil => simp only; exact ⟨h1, h2, h3, h4, h5, h6⟩
      | cons p q => exact linv_write (Nat.zero_le _) hq ⟨h1, h2, h3, h4, h5, h6⟩
    | drain n =>
      cases hq : s.queue with
      | nil => simp only; rw [hq] at hflush; exact hflush
      | cons p q =>
        simp only
        split
        · rename_i hlt
          exact linv_write (by omega) hq ⟨h1, h2, h3, h4, h5, h6⟩
        · exact hq ▸ hflush

theorem linv_run {first : Bytes} (as : List LAct) : ∀ {s : Loop}, LInv first s → LInv first (s.run as) := by
  induction as with
  | nil => intro s h; exact h
  | cons a as ih => intro s h; exact ih (linv_act h a)

theorem linv_start (o : Obf) (first : Option Bytes) :
    LInv (match first with | some b => rawFrame b | none => []) (Loop.start o first) := by
  refine ⟨?_, rfl, fun _ => rfl, by simp [Loop.start], by simp [Loop.start], by simp [Loop.start]⟩
  cases first <;> simp [Loop.start, written]

end Verif.Wire
