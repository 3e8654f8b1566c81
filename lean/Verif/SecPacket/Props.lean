import Verif.SecPacket.Lemmas

/-! Properties C17, C18, C60: secure message packets and partitioned buffers. -/
namespace Verif.SecPacket

/-- The state after the payload and the header have been written. -/
theorem build_eq (checks : Bool) (n : Nat) (payload header ext : Bytes) :
    build checks n payload header ext =
      if n % 2 ^ 32 = 0 ∨ ¬ payload.length + 4 < 2 ^ 32 then .err
      else if header.length ≠ n % 2 ^ 32 then .panic
      else if ext = [] then .ok (header ++ toBE 4 payload.length ++ payload)
      else if n % 2 ^ 32 + (payload.length + 4) < 2 ^ 32 then .ok (header ++ toBE 4 payload.length ++ payload ++ ext)
      else .panic := by
  obtain ⟨p0, e0, r0⟩ := new_refines (n := 3) (by decide)
  have hrep : List.replicate 3 ([] : Bytes) = [[], [], []] := rfl
  rw [hrep] at r0
  obtain ⟨p1, e1, r1⟩ := reserve_refines r0 0 (n % 2 ^ 32) (by simp)
  simp only [List.set_cons_zero] at r1
  unfold build newPacket
  simp only [e0, Res.bind, e1]
  generalize hz : (List.replicate (n % 2 ^ 32) 0 : Bytes) = z at r1
  have hzl : z.length = n % 2 ^ 32 := by rw [← hz]; simp
  unfold writePayload
  simp only
  by_cases hp : payload.length + 4 < 2 ^ 32
  · rw [if_pos hp]
    by_cases hn : n % 2 ^ 32 = 0
    · have : reserve p1 1 (payload.length + 4) = .err := by
        unfold reserve
        rw [if_neg]
        intro hc
        have := ((reservable_iff r1 1).1 hc).2.1 z (by simp)
        exact this (List.eq_nil_of_length_eq_zero (by omega))
      rw [this, if_pos (Or.inl hn)]
      rfl
    · have hzne : z ≠ [] := by intro h; rw [h] at hzl; simp at hzl; omega
      obtain ⟨p2, e2, r2⟩ := reserve_refines r1 1 (payload.length + 4) (by simp [hzne])
      simp only [List.set_cons_zero, List.set_cons_succ] at r2
      rw [e2]
      simp only [Res.bind]
      have hzlt : n % 2 ^ 32 < 2 ^ 32 := Nat.mod_lt _ (by decide)
      generalize hy : (List.replicate (payload.length + 4) 0 : Bytes) = y at r2
      have hyl : y.length = payload.length + 4 := by rw [← hy]; simp
      have w2 := write_eq (L := [z]) (P := y) (R := [[]]) r2 checks (by simpa [hzl] using hzlt)
      simp only [List.length_singleton] at w2
      rw [w2]
      have hcopy : copyFrom payload (y.drop 4) = .ok payload := by
        unfold copyFrom; rw [if_pos (by simp [hyl])]
      simp only [hyl, Nat.le_add_left, if_true, hcopy, Res.bind]
      have r3 := write_refines (L := [z]) (P := y) (R := [[]]) (out := toBE 4 payload.length ++ payload) r2
        (by simp [hyl]; omega)
      generalize ({ p2 with buffer := ([z] : List Bytes).flatten ++ (toBE 4 payload.length ++ payload) ++ ([[]] : List Bytes).flatten } : PBuf) = p3 at r3 ⊢
      unfold writeHeader
      simp only
      have w3 := write_eq (L := []) (P := z) (R := [toBE 4 payload.length ++ payload, []]) r3 checks (by simp)
      simp only [List.length_nil] at w3
      rw [w3]
      rw [if_neg (by push Not; exact ⟨hn, hp⟩)]
      by_cases hh : header.length = n % 2 ^ 32
      · have hcopy : copyFrom header z = .ok header := by
          unfold copyFrom; rw [if_pos (by omega)]
        simp only [hcopy, Res.bind]
        rw [if_neg (by simpa using hh)]
        have r4 := write_refines (L := []) (P := z) (R := [toBE 4 payload.length ++ payload, []]) (out := header) r3
          (by omega)
        generalize ({ p3 with buffer := ([] : List Bytes).flatten ++ header ++ ([toBE 4 payload.length ++ payload, []] : List Bytes).flatten } : PBuf) = p4 at r4 ⊢
        unfold writeExtension
        simp only
        by_cases hx : ext = []
        · subst hx
          rw [if_pos (show ([] : Bytes).length = 0 from rfl), if_pos rfl, r4.buffer]
          simp
        · have hxl : ext.length ≠ 0 := by simpa using hx
          rw [if_neg hxl, if_neg hx]
          have hhne : header ≠ [] := by intro h; rw [h] at hh; simp at hh; omega
          have hene : toBE 4 payload.length ++ payload ≠ [] := by
            intro h; have := congrArg List.length h; simp at this
          obtain ⟨p5, e5, r5⟩ := reserve_refines r4 2 ext.length (by
            refine ⟨by simp, ?_, by simp⟩
            intro x hx'
            simp only [List.nil_append, List.take_succ_cons, List.take_zero, List.mem_cons, List.not_mem_nil, or_false] at hx'
            rcases hx' with rfl | rfl
            · exact hhne
            · exact hene)
          simp only [List.nil_append, List.set_cons_zero, List.set_cons_succ] at r5
          rw [e5]
          simp only [Res.bind]
          generalize hu : (List.replicate ext.length 0 : Bytes) = u at r5
          have hul : u.length = ext.length := by rw [← hu]; simp
          have hlen : ([header, toBE 4 payload.length ++ payload] : List Bytes).flatten.length =
              n % 2 ^ 32 + (payload.length + 4) := by simp [hh]; omega
          by_cases ho : n % 2 ^ 32 + (payload.length + 4) < 2 ^ 32
          · rw [if_pos ho]
            have w5 := write_eq (L := [header, toBE 4 payload.length ++ payload]) (P := u) (R := []) r5 checks
              (by rw [hlen]; exact ho) (copyFrom ext)
            simp only [List.length_cons, List.length_nil, Nat.zero_add, Nat.reduceAdd] at w5
            rw [w5]
            have hcopy : copyFrom ext u = .ok ext := by
              unfold copyFrom; rw [if_pos (by omega)]
            simp only [hcopy, Res.bind]
            simp
          · rw [if_neg ho]
            have : writeWindow checks p5 2 (copyFrom ext) = .panic := by
              cases checks with
              | true =>
                have := range_checked (L := [header, toBE 4 payload.length ++ payload]) (P := u) (R := []) r5
                  (by rw [hlen]; exact ho)
                simp only [List.length_cons, List.length_nil, Nat.zero_add, Nat.reduceAdd] at this
                unfold writeWindow
                rw [this]; rfl
              | false =>
                have hb : p5.buffer.length = n % 2 ^ 32 + (payload.length + 4) + ext.length := by
                  rw [r5.buffer]; simp [hh, hul]; omega
                have hs : (p5.layout.take 2).sum = n % 2 ^ 32 + (payload.length + 4) := by
                  rw [r5.layout]; simp [hh]; omega
                have hl3 : p5.layout.length = 3 := by rw [r5.layout]; simp
                unfold writeWindow range sumU32
                rw [hl3, if_pos (by decide), hs, if_neg ho]
                simp only [Bool.false_eq_true, if_false, Res.bind, if_true, Nat.reduceAdd]
                have hm : (n % 2 ^ 32 + (payload.length + 4)) % 2 ^ 32 + 2 ^ 32 = n % 2 ^ 32 + (payload.length + 4) := by
                  omega
                rw [if_pos ⟨by omega, Nat.le_refl _⟩]
                unfold copyFrom
                rw [if_neg (by simp only [List.length_take, List.length_drop]; omega)]
            rw [this]
      · have hcopy : copyFrom header z = .panic := by
          unfold copyFrom; rw [if_neg (by omega)]
        simp only [hcopy, Res.bind]
        rw [if_pos (by simpa using hh)]
  · rw [if_neg hp, if_pos (Or.inr hp)]

/-- **C17.** Whatever header size, payload, header and extension: if writing them succeeds, the bytes start with the
header, and splitting the rest gives back the payload and the extension. -/
theorem C17_roundtrip (checks : Bool) (n : Nat) (payload header ext bytes : Bytes)
    (h : build checks n payload header ext = .ok bytes) :
    bytes.take header.length = header ∧ decompose (bytes.drop header.length) = some (payload, ext) := by
  rw [build_eq] at h
  have main : payload.length + 4 < 2 ^ 32 → bytes = header ++ (toBE 4 payload.length ++ (payload ++ ext)) →
      bytes.take header.length = header ∧ decompose (bytes.drop header.length) = some (payload, ext) := by
    rintro hp rfl
    refine ⟨List.take_left' rfl, ?_⟩
    rw [List.drop_left' rfl]
    have hb : fromBE (toBE 4 payload.length) = payload.length := fromBE_toBE (by omega)
    have h1 : (toBE 4 payload.length ++ (payload ++ ext)).take 4 = toBE 4 payload.length := List.take_left' (by simp)
    have h2 : (toBE 4 payload.length ++ (payload ++ ext)).drop 4 = payload ++ ext := List.drop_left' (by simp)
    unfold decompose extractPayload
    rw [if_neg (by simp)]
    simp only [h1, h2, hb]
    rw [if_neg (by simp)]
    simp
  split at h
  · cases h
  · rename_i h1
    push Not at h1
    split at h
    · cases h
    · split at h
      · rename_i hx
        cases h
        exact main h1.2 (by simp [hx])
      · split at h
        · cases h
          exact main h1.2 (by simp)
        · cases h

/-- Writing succeeds for every header of the declared size, unless the sizes do not fit 32 bits. -/
theorem C17_write_succeeds (checks : Bool) (n : Nat) (payload header ext : Bytes) (hn : 1 ≤ n) (hh : header.length = n)
    (hsize : n + payload.length + 4 < 2 ^ 32) : ∃ bytes, build checks n payload header ext = .ok bytes := by
  rw [build_eq]
  have hm : n % 2 ^ 32 = n := Nat.mod_eq_of_lt (by omega)
  rw [hm, if_neg (by omega), if_neg (by simpa using hh)]
  split
  · exact ⟨_, rfl⟩
  · rw [if_pos (by omega)]; exact ⟨_, rfl⟩

/-- Finding: `get_range` adds partition sizes as `u32`. A payload that `write_payload` accepts makes the later extension
write panic when header and payload together reach 2^32 bytes, with and without overflow checks. -/
theorem C17_overflow_panics (checks : Bool) (n : Nat) (payload header ext : Bytes) (hn : 1 ≤ n) (hn' : n < 2 ^ 32)
    (hh : header.length = n) (hx : ext ≠ []) (hp : payload.length + 4 < 2 ^ 32) (ho : 2 ^ 32 ≤ n + payload.length + 4) :
    build checks n payload header ext = .panic := by
  rw [build_eq]
  have hm : n % 2 ^ 32 = n := Nat.mod_eq_of_lt hn'
  rw [hm, if_neg (by omega), if_neg (by simpa using hh), if_neg hx, if_neg (by omega)]

/-- **C18.** For every byte string: splitting fails, or the payload has the encoded length and prefix, payload and rest are
exactly the input. -/
theorem C18_extract_in_bounds (input : Bytes) :
    (decompose input = none ∧ (input.length < 4 ∨ input.length - 4 < fromBE (input.take 4))) ∨
    ∃ payload rest, decompose input = some (payload, rest) ∧ 4 ≤ input.length ∧
      input = input.take 4 ++ payload ++ rest ∧ payload.length = fromBE (input.take 4) := by
  unfold decompose extractPayload
  by_cases h4 : input.length < 4
  · rw [if_pos h4]; exact Or.inl ⟨rfl, Or.inl h4⟩
  · rw [if_neg h4]
    simp only
    by_cases hl : (input.drop 4).length < fromBE (input.take 4)
    · rw [if_pos hl]
      refine Or.inl ⟨rfl, Or.inr ?_⟩
      simpa using hl
    · rw [if_neg hl]
      refine Or.inr ⟨_, _, rfl, by omega, ?_, ?_⟩
      · rw [List.append_assoc, List.take_append_drop, List.take_append_drop]
      · rw [List.length_take]; omega

/-- **C60.** For any number of partitions and any sequence of reservations and writes that does not panic, the buffer is the
concatenation of the separately kept partitions, and every window shows exactly its own partition. -/
theorem C60_partitions_are_separate_partial (checks : Bool) (n : Nat) (hn : n ≠ 0) (ops : List BOp) (p q : PBuf)
    (hnew : newBuf n = .ok p) (hrun : runBuf checks p ops = .ok q) (hsize : checks = true ∨ q.buffer.length < 2 ^ 32) :
    q.buffer = (ideal (List.replicate n []) ops).flatten ∧
    ∀ i w, readWindow checks q i = .ok w → (ideal (List.replicate n []) ops)[i]? = some w := by
  obtain ⟨p', h1, h2⟩ := new_refines hn
  rw [hnew] at h1; cases h1
  obtain ⟨h3, -⟩ := run_refines checks ops p _ h2 q hrun hsize
  refine ⟨h3.buffer, fun i w hw => ?_⟩
  by_cases hi : i < (ideal (List.replicate n []) ops).length
  · obtain ⟨L, P, R, e, rfl⟩ := split_at _ i hi
    rw [e] at h3 ⊢
    by_cases hs : L.flatten.length < 2 ^ 32
    · rw [read_eq h3 checks hs] at hw
      cases hw; simp
    · rcases hsize with rfl | hsize
      · unfold readWindow at hw
        rw [range_checked h3 hs] at hw; cases hw
      · exfalso
        rw [h3.buffer] at hsize
        simp at hsize hs
        omega
  · unfold readWindow at hw
    rw [range_out h3 checks hi] at hw; cases hw

/-- Without overflow checks the windows overlap as soon as the first two of three partitions together reach 2^32 bytes (for
example 2^31 each): the last window then starts before the end of the second partition. -/
theorem C60_counterexample_wrapping (a b c : Nat) (ha : 0 < a) (hb : 0 < b) (ha' : a < 2 ^ 32) (hb' : b < 2 ^ 32)
    (hab : 2 ^ 32 ≤ a + b) :
    ∃ q, runBuf false ⟨[0, 0, 0], []⟩ [.reserve 0 a, .reserve 1 b, .reserve 2 c] = .ok q ∧
      range false q 2 = .ok (a + b - 2 ^ 32, a + b + c) ∧ range false q 1 = .ok (a, a + b) := by
  have ha0 : a ≠ 0 := by omega
  have hb0 : b ≠ 0 := by omega
  refine ⟨⟨[a, b, c], List.replicate a 0 ++ List.replicate b 0 ++ List.replicate c 0⟩, ?_, ?_, ?_⟩
  · simp [runBuf, reserve, reservable, ha0, hb0]
  · have h1 : sumU32 false [a, b] = .ok (a + b - 2 ^ 32) := by
      have hs : [a, b].sum = a + b := by simp
      unfold sumU32
      rw [hs, if_neg (by omega), if_neg (by decide)]
      have : (a + b) % 2 ^ 32 = a + b - 2 ^ 32 := by omega
      rw [this]
    unfold range
    simp only [List.length_cons, List.length_nil, List.take_succ_cons, List.take_zero, h1, Res.bind]
    simp
  · have h1 : sumU32 false [a] = .ok a := by
      have hs : [a].sum = a := by simp
      unfold sumU32
      rw [hs, if_pos ha']
    unfold range
    simp only [List.length_cons, List.length_nil, List.take_succ_cons, List.take_zero, h1, Res.bind]
    simp

/-- A concrete packet. -/
example : build true 2 [9, 9, 9] [3, 3] [4] = .ok [3, 3, 0, 0, 0, 3, 9, 9, 9, 4] := by decide
/-- A hostile length field is refused; a correct one is split. -/
example : decompose [0, 0, 0, 200, 1, 2] = none ∧ decompose [0, 0, 0, 1, 1, 2] = some ([1], [2]) := by decide
/-- A run with an out-of-order reservation (refused) and writes in any order. -/
example : runBuf true ⟨[0, 0, 0], []⟩ [.reserve 1 2, .reserve 0 2, .reserve 1 1, .write 1 [7], .reserve 2 1, .write 0 [5, 6]] =
    .ok ⟨[2, 1, 1], [5, 6, 7, 0]⟩ := by decide

end Verif.SecPacket
