import Verif.Transfer.Props
/-
C88: a file pushed to the remote encrypted virtual file system (RE-VFS) can be pulled again.

Source:
  /repo/citadel_crypt/src/scramble/crypt_splitter.rs lines 243-260 (a push encrypts every group on its own with the local
    key of the sender), /repo/citadel_crypt/src/ratchets/mod.rs lines 132-165 (`local_encrypt`, `local_decrypt`),
  /repo/citadel_user/src/backend/file_io_backend.rs lines 354-410 (the receiver of a push writes the chunks one after the
    other),
  /repo/citadel_proto/src/proto/packet_processor/file_packet.rs lines 237-310 (a pull sends the stored file back as an
    ordinary file transfer with `max_group_size = None`),
  /repo/citadel_proto/src/proto/state_container/inbound_transfer.rs lines 397-405 (the puller decrypts every group it
    receives on its own).

Simplifications: the transfers themselves work (`Verif.Transfer.Props`: both files are the first ones of their
sessions); the local encryption is a pair of functions about which only what the theorems name is assumed. `enc i` is the
encryption of the `i`-th group (every call takes a fresh nonce).
-/
namespace Verif.Transfer

/-- `DEFAULT_BYTES_PER_GROUP`: streaming_crypt_scrambler.rs line 56. -/
def defaultGroup : Nat := 1024 * 1024 * 3

/-- The local encryption of one security level. -/
structure Local where
  enc : Nat → Bytes → Bytes
  /-- `local_decrypt`; the empty input is not decrypted (ratchets/mod.rs lines 153-156). -/
  dec : Bytes → Option Bytes

/-- The encrypted groups of a push, in order. -/
def encAll (L : Local) : Nat → List Bytes → List Bytes
  | _, [] => []
  | i, g :: gs => L.enc i g :: encAll L (i + 1) gs

/-- What the remote node stores for a push with groups of `size` bytes. -/
def push (L : Local) (size : Nat) (file : Bytes) : Bytes := (encAll L 0 (cut size file)).flatten

/-- Decrypt chunk by chunk; the first error ends the transfer (it is never reported as complete). -/
def decAll (L : Local) : List Bytes → Option (List Bytes)
  | [] => some []
  | x :: xs =>
    match L.dec x with
    | none => none
    | some p => (decAll L xs).map (p :: ·)

/-- What the puller has when the transfer of the stored bytes is complete. -/
def pull (L : Local) (size : Nat) (stored : Bytes) : Option Bytes :=
  (decAll L (cut size stored)).map List.flatten

/-- Decryption inverts encryption. -/
def Local.Correct (L : Local) : Prop := ∀ i p, L.dec (L.enc i p) = some p

/-- The ciphertext `c` cannot be truncated or extended without being refused (it is authenticated). -/
def Local.Rejects (L : Local) (c : Bytes) : Prop :=
  ∀ x q, L.dec x = some q → x ≠ [] → (x <+: c ∨ c <+: x) → x = c

/-- Ciphertexts are longer than their plaintexts by a constant. -/
def Local.Expands (L : Local) (o : Nat) : Prop := 0 < o ∧ ∀ i p, (L.enc i p).length = p.length + o

theorem cut_single {size : Nat} (hs : 0 < size) {l : Bytes} (hl : l ≠ []) (hle : l.length ≤ size) :
    cut size l = [l] := by
  rw [cut_cons hs hl, List.take_of_length_le hle, List.drop_eq_nil_of_le hle, cut_nil]

/-- **C88 (partial).** A non-empty file which fits into one group of the push, and whose ciphertext fits into one group of
the pull, is pulled as it was pushed. Missing: larger files, see `C88_exact`. -/
theorem C88_round_trip_partial (L : Local) (hL : L.Correct) (hd : L.dec [] = some []) {size psize : Nat}
    (hs : 0 < size) (hp : 0 < psize) {file : Bytes} (hf : file ≠ []) (h1 : file.length ≤ size)
    (h2 : (L.enc 0 file).length ≤ psize) : pull L psize (push L size file) = some file := by
  have hne : L.enc 0 file ≠ [] := fun h => by
    have := hL 0 file
    rw [h, hd] at this
    exact hf (Option.some.inj this).symm
  have e : push L size file = L.enc 0 file := by
    simp [push, cut_single hs hf h1, encAll]
  rw [e, pull, cut_single hp hne h2]
  simp [decAll, hL 0 file]

theorem encAll_ne {L : Local} {i : Nat} {gs : List Bytes} (h : gs ≠ []) :
    encAll L i gs ≠ [] := by
  cases gs with
  | nil => exact absurd rfl h
  | cons g gs => simp [encAll]

/-- If the groups of the pull end where the encrypted groups of the push end, everything fits. -/
theorem cut_encAll {L : Local} {o size : Nat} (hE : L.Expands o) (hs : 0 < size) (file : Bytes) (i : Nat) :
    cut (size + o) (encAll L i (cut size file)).flatten = encAll L i (cut size file) := by
  generalize hn : file.length = n
  induction n using Nat.strongRecOn generalizing file i with
  | _ n ih =>
    by_cases hf : file = []
    · subst hf; rw [cut_nil]; exact cut_nil _
    · have hp := List.length_pos_iff.mpr hf
      rw [cut_cons hs hf]
      simp only [encAll, List.flatten_cons]
      have hlen : (L.enc i (file.take size)).length = min size file.length + o := by
        rw [hE.2, List.length_take]
      have hne : L.enc i (file.take size) ≠ [] := fun h => by
        rw [h] at hlen; simp at hlen; omega
      rcases Nat.lt_or_ge size file.length with hlt | hge
      · have hlen' : (L.enc i (file.take size)).length = size + o := by omega
        rw [cut_cons (by omega) (by simp [hne])]
        rw [List.take_append_of_le_length (by omega), List.take_of_length_le (by omega),
          List.drop_append_of_le_length (by omega), List.drop_eq_nil_of_le (by omega), List.nil_append,
          ih (file.drop size).length (by rw [List.length_drop]; omega) _ _ rfl]
      · rw [List.drop_eq_nil_of_le hge, cut_nil]
        simp only [encAll, List.flatten_nil, List.append_nil]
        exact cut_single (by omega) hne (by omega)

theorem decAll_encAll {L : Local} (hL : L.Correct) (gs : List Bytes) (i : Nat) :
    decAll L (encAll L i gs) = some gs := by
  induction gs generalizing i with
  | nil => rfl
  | cons g gs ih => simp [encAll, decAll, hL i g, ih]

/-- **C88 (exact).** A non-empty file is pulled as it was pushed if and only if it was pushed as one group and its
ciphertext fits into one group of the pull, or the sizes of the groups differ by exactly the growth of the
ciphertext. In all other cases the pull fails. -/
theorem C88_exact (L : Local) {o : Nat} (hL : L.Correct) (hE : L.Expands o) {size psize : Nat}
    (hs : 0 < size) (hp : 0 < psize) {file : Bytes} (hf : file ≠ []) (hR : L.Rejects (L.enc 0 (file.take size))) :
    (pull L psize (push L size file) = some file ↔
      (file.length ≤ size ∧ file.length + o ≤ psize) ∨ size + o = psize) ∧
    (¬ ((file.length ≤ size ∧ file.length + o ≤ psize) ∨ size + o = psize) →
      pull L psize (push L size file) = none) := by
  have hpos := List.length_pos_iff.mpr hf
  -- the first group
  have hc : cut size file = file.take size :: cut size (file.drop size) := cut_cons hs hf
  have hstored : push L size file =
      L.enc 0 (file.take size) ++ (encAll L 1 (cut size (file.drop size))).flatten := by
    rw [push, hc]; rfl
  have hlen : (L.enc 0 (file.take size)).length = min size file.length + o := by rw [hE.2, List.length_take]
  have ho := hE.1
  have hne : push L size file ≠ [] := fun h => by
    rw [hstored] at h
    have := congrArg List.length h
    rw [List.length_append] at this
    rw [hlen, List.length_nil] at this
    omega
  have back : (file.length ≤ size ∧ file.length + o ≤ psize) ∨ size + o = psize →
      pull L psize (push L size file) = some file := by
    rintro (⟨h1, h2⟩ | h)
    · have e : push L size file = L.enc 0 file := by simp [push, cut_single hs hf h1, encAll]
      have hl2 := hE.2 0 file
      have hne' : L.enc 0 file ≠ [] := fun h => by rw [h] at hl2; simp at hl2; omega
      rw [e, pull, cut_single hp hne' (by omega)]
      simp [decAll, hL 0 file]
    · subst h
      rw [pull, push, cut_encAll hE hs, decAll_encAll hL]
      simp [C87_cut_flatten hs]
  have fwd : ∀ r, pull L psize (push L size file) = some r →
      (file.length ≤ size ∧ file.length + o ≤ psize) ∨ size + o = psize := by
    intro r hr
    rw [pull, cut_cons hp hne] at hr
    cases hd : L.dec ((push L size file).take psize) with
    | none => simp [decAll, hd] at hr
    | some q =>
      have hxne : (push L size file).take psize ≠ [] := fun h => by
        rcases List.take_eq_nil_iff.mp h with h | h
        · omega
        · exact hne h
      have hcmp : (push L size file).take psize <+: L.enc 0 (file.take size) ∨
          L.enc 0 (file.take size) <+: (push L size file).take psize := by
        have h1 : (push L size file).take psize <+: push L size file := List.take_prefix _ _
        have h2 : L.enc 0 (file.take size) <+: push L size file := by rw [hstored]; exact List.prefix_append _ _
        exact List.prefix_or_prefix_of_prefix h1 h2
      have hx := hR _ q hd hxne hcmp
      have hxl := congrArg List.length hx
      rw [List.length_take, hlen] at hxl
      rcases Nat.lt_or_ge size file.length with hlt | hge
      · right
        have hd' : file.drop size ≠ [] := fun h => by
          have := congrArg List.length h
          rw [List.length_drop] at this
          simp at this
          omega
        have hsl : (push L size file).length =
            min size file.length + o + (encAll L 1 (cut size (file.drop size))).flatten.length := by
          rw [hstored, List.length_append, hlen]
        rw [cut_cons hs hd'] at hsl
        simp only [encAll, List.flatten_cons, List.length_append, hE.2] at hsl
        omega
      · left
        refine ⟨hge, ?_⟩
        have e : push L size file = L.enc 0 file := by simp [push, cut_single hs hf hge, encAll]
        rw [e, hE.2] at hxl
        omega
  refine ⟨⟨fwd file, back⟩, fun hn => ?_⟩
  cases hr : pull L psize (push L size file) with
  | none => rfl
  | some r => exact absurd (fwd r hr) hn

/-- **C88 (exact, default sizes).** With the default sizes (3 MiB for both directions) exactly the files of up to 3 MiB
minus the growth of the ciphertext come back. -/
theorem C88_default_sizes (L : Local) {o : Nat} (hL : L.Correct) (hE : L.Expands o) {file : Bytes}
    (hf : file ≠ []) (hR : L.Rejects (L.enc 0 (file.take defaultGroup))) :
    pull L defaultGroup (push L defaultGroup file) = some file ↔ file.length + o ≤ defaultGroup := by
  have hd : 0 < defaultGroup := by decide
  rw [(C88_exact L hL hE hd hd hf hR).1]
  have := hE.1
  omega

/-! ### Example and counterexample -/

/-- A toy encryption with one byte of growth. Plaintexts longer than two bytes which begin with 7, 8 get another first
byte, so that no other ciphertext begins with the one of `[7, 8]`. -/
def toyEnc (p : Bytes) : Bytes :=
  match p with
  | 7 :: 8 :: b :: r => (6 :: 8 :: b :: r) ++ [1]
  | p => p ++ [0]

def toy : Local where
  enc := fun _ p => toyEnc p
  dec := fun x =>
    if x = [] then some []
    else if toyEnc x.dropLast = x then some x.dropLast
    else if toyEnc (7 :: x.dropLast.tail) = x then some (7 :: x.dropLast.tail) else none

theorem toy_dec_enc {x q : Bytes} (hx : x ≠ []) (h : toy.dec x = some q) : toyEnc q = x := by
  simp only [toy, hx, if_false] at h
  split at h
  · rename_i h'; simp only [Option.some.injEq] at h; rw [← h]; exact h'
  · split at h
    · rename_i h'; simp only [Option.some.injEq] at h; rw [← h]; exact h'
    · simp at h

theorem toyEnc_cases (p : Bytes) :
    (∃ b r, p = 7 :: 8 :: b :: r ∧ toyEnc p = (6 :: 8 :: b :: r) ++ [1]) ∨
    ((∀ b r, p ≠ 7 :: 8 :: b :: r) ∧ toyEnc p = p ++ [0]) := by
  unfold toyEnc
  split
  · rename_i b r; exact .inl ⟨b, r, rfl, rfl⟩
  · rename_i hp; exact .inr ⟨fun b r h => hp b r h, rfl⟩

theorem toy_correct : toy.Correct := by
  intro i p
  rcases toyEnc_cases p with ⟨b, r, rfl, he⟩ | ⟨_, he⟩
  · have h1 : toyEnc (6 :: 8 :: b :: r) = (6 :: 8 :: b :: r) ++ [0] := by
      rcases toyEnc_cases (6 :: 8 :: b :: r) with ⟨b', r', h, _⟩ | ⟨_, h⟩
      · simp at h
      · exact h
    simp only [toy, he, List.dropLast_concat, h1, List.tail_cons]
    simp
  · simp only [toy, he, List.dropLast_concat]
    simp

theorem toy_expands : toy.Expands 1 := by
  refine ⟨by decide, fun i p => ?_⟩
  simp only [toy]
  unfold toyEnc
  split <;> simp

theorem toy_rejects : toy.Rejects [7, 8, 0] := by
  intro x q h hx hp
  have he := toy_dec_enc hx h
  subst he
  rcases toyEnc_cases q with ⟨b, r, _, he⟩ | ⟨hq, he⟩
  · rw [he] at hp
    rcases hp with ⟨y, hy⟩ | ⟨y, hy⟩ <;> simp at hy
  · rw [he] at hp ⊢
    match q, hq, hp with
    | [], _, hp => rcases hp with ⟨y, hy⟩ | ⟨y, hy⟩ <;> simp at hy
    | [a], _, hp => rcases hp with ⟨y, hy⟩ | ⟨y, hy⟩ <;> simp at hy
    | [a, b], _, hp => rcases hp with ⟨y, hy⟩ | ⟨y, hy⟩ <;> simp at hy <;> simp [hy]
    | a :: b :: d :: r, hq, hp =>
      rcases hp with ⟨y, hy⟩ | ⟨y, hy⟩
      · have := congrArg List.length hy
        simp at this
      · simp at hy
        obtain ⟨rfl, rfl, _⟩ := hy
        exact absurd rfl (hq _ _)

/-- The round trip of a file of two bytes. -/
example : pull toy 3 (push toy 4 [7, 8]) = some [7, 8] :=
  C88_round_trip_partial toy toy_correct rfl (by decide) (by decide) (by decide) (by decide) (by decide)

/-- **C88 is false in general.** A file of two groups (here: of two bytes each) cannot be pulled with groups of the same
size. -/
theorem C88_counterexample : pull toy 2 (push toy 2 [7, 8, 9]) = none :=
  (C88_exact toy toy_correct toy_expands (size := 2) (psize := 2) (file := [7, 8, 9]) (by decide) (by decide)
    (by decide) toy_rejects).2 (by decide)

end Verif.Transfer
