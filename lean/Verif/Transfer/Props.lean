import Verif.Transfer.Lemmas
/-
C87: a file the receiver reports as received is the file that was sent.
-/
namespace Verif.Transfer

/-- Two endpoints have nothing left to do. -/
def Stuck (c : Cfg) (x : St) : Prop := ∀ y, ¬ Step c x y

theorem reported_position {c : Cfg} (hW : c.WF) {x : St} (h : Reach c x) (hr : x.reported = true) :
    x.r.disk = (c.groups.take c.stop).map List.flatten := by
  obtain ⟨k, m, sent, a, I⟩ := inv_reach hW h
  rw [I.hr, I.rep hr]; rfl

theorem reported_pos {c : Cfg} (hW : c.WF) {x : St} (h : Reach c x) (hr : x.reported = true) : 0 < c.n := by
  obtain ⟨k, m, sent, a, I⟩ := inv_reach hW h
  have h1 := I.rep hr
  have h2 := stop_pos c
  have h3 : k ≤ x.s.nxt := by rcases I.pos with h | h | h <;> omega
  have := I.nx
  omega

/-- **C87 (exact).** In every execution: when the receiver reports the file as received, it has stored exactly the first
`max 1 (n - start)` of the `n` groups, where `start` is the id of the first group (a counter of the session). -/
theorem C87_stored_when_reported {c : Cfg} (hW : c.WF) {x : St} (h : Reach c x) (hr : x.reported = true) :
    x.stored = ((c.groups.take (max 1 (c.n - c.start))).map List.flatten).flatten := by
  unfold St.stored
  rw [reported_position hW h hr]; rfl

/-- **C87 (partial).** A file which is reported as received is complete, if its first group has the id 0 (the first
file of a session) or if it has one group only. Missing: the other files, see `C87_exact`. -/
theorem C87_received_is_complete_partial {c : Cfg} (hW : c.WF) (hc : c.start = 0 ∨ c.n = 1) {x : St}
    (h : Reach c x) (hr : x.reported = true) : x.stored = c.content := by
  have hp := reported_pos hW h hr
  rw [C87_stored_when_reported hW h hr]
  have : c.n ≤ max 1 (c.n - c.start) := by omega
  rw [List.take_of_length_le this]; rfl

/-- **C87 (exact).** The stored file is the one that was sent in no other case. -/
theorem C87_exact {c : Cfg} (hW : c.WF) {x : St} (h : Reach c x) (hr : x.reported = true) :
    x.stored = c.content ↔ c.start = 0 ∨ c.n = 1 := by
  refine ⟨fun he => ?_, fun hc => C87_received_is_complete_partial hW hc h hr⟩
  refine Decidable.byContradiction fun hne => ?_
  have hp := reported_pos hW h hr
  have hlt : max 1 (c.n - c.start) < c.n := by omega
  generalize hs : max 1 (c.n - c.start) = s at *
  rw [C87_stored_when_reported hW h hr, hs] at he
  have hsplit : c.content = ((c.groups.take s).map List.flatten).flatten ++
      ((c.groups.drop s).map List.flatten).flatten := by
    rw [← List.flatten_append, ← List.map_append, List.take_append_drop]; rfl
  rw [hsplit] at he
  have hnil : ((c.groups.drop s).map List.flatten).flatten = [] := by
    have := congrArg List.length he
    rw [List.length_append] at this
    exact List.eq_nil_of_length_eq_zero (by omega)
  have hlen : s < c.groups.length := hlt
  rw [List.drop_eq_getElem_cons hlen] at hnil
  simp only [List.map_cons, List.flatten_cons, List.append_eq_nil_iff] at hnil
  exact (hW _ (List.getElem_mem hlen)).2 hnil.1

/-- **C87.** When the sender reports the transfer as complete, the receiver has stored the file — for every first id. -/
theorem C87_sender_complete {c : Cfg} (hW : c.WF) {x : St} (h : Reach c x) (hs : Status.complete ∈ x.s.said) :
    x.stored = c.content := by
  obtain ⟨k, m, sent, a, I⟩ := inv_reach hW h
  obtain ⟨hn, ha⟩ := I.said.mp hs
  have hw := waves_pos hW (i := c.n - 1) (by omega)
  have hc := I.cnt (c.n - 1)
  have hg : c.n - 1 < k := by
    have hm := I.hm
    simp only [got] at hc
    split at hc
    · assumption
    · split at hc
      · rename_i h1; subst h1; omega
      · omega
  have hk : c.n ≤ k := by omega
  unfold St.stored
  rw [I.hr]
  simp only [rAt]
  rw [List.take_of_length_le hk]; rfl

/-- **C87.** Neither endpoint runs into an error of the protocol or into the `unwrap` of
`on_group_header_ack_received`, whatever the order of the events. -/
theorem C87_no_error {c : Cfg} (hW : c.WF) {x : St} (h : Reach c x) :
    x.s.panicked = false ∧ x.r.err = false := by
  obtain ⟨k, m, sent, a, I⟩ := inv_reach hW h
  exact ⟨I.pan, by rw [I.hr]; rfl⟩

/-- **C87.** There is no infinite execution. -/
theorem C87_terminates {c : Cfg} (hW : c.WF) (f : Nat → St) (h0 : Reach c (f 0)) :
    ¬ ∀ i, Step c (f i) (f (i + 1)) := by
  intro hs
  have hr : ∀ i, Reach c (f i) := fun i => by
    induction i with
    | zero => exact h0
    | succ i ih => exact .step ih (hs i)
  have hd : ∀ i, work c (f i) + i ≤ work c (f 0) := fun i => by
    induction i with
    | zero => omega
    | succ i ih => have := work_lt hW (hr i) (hs i); omega
  have := hd (work c (f 0) + 1)
  omega

/-- **C87.** When nothing is left to do, the receiver has reported a file with at least one group as received.  The
sender has reported the completion if and only if the first id is 0 or there is one group only; otherwise the user of
the sender has been told that the transfer was rejected. -/
theorem C87_at_the_end {c : Cfg} (hW : c.WF) (hn : 0 < c.n) {x : St} (h : Reach c x) (hst : Stuck c x) :
    x.reported = true ∧ (Status.complete ∈ x.s.said ↔ c.start = 0 ∨ c.n = 1) ∧
    (x.s.rejected = true ↔ ¬ (c.start = 0 ∨ c.n = 1)) := by
  obtain ⟨k, m, sent, a, I⟩ := inv_reach hW h
  have hsl := stop_le c hn
  have hsp := stop_pos c
  have hex : c.stop = c.n ↔ c.start = 0 ∨ c.n = 1 := by unfold Cfg.stop; omega
  have hR : x.toR = [] := by
    cases hR : x.toR with
    | nil => rfl
    | cons mm rest => exact absurd (.recv x mm rest hR) (hst _)
  have hS : x.toS = [] := by
    cases hS : x.toS with
    | nil => rfl
    | cons u rest => exact absurd (.hear x u rest false hS) (hst _)
  have hrep : k = c.stop → x.reported = true := fun hk => by
    cases hrep : x.reported with
    | true => rfl
    | false =>
      refine absurd (.finish x (c.start + k - 1) ?_ hrep) (hst _)
      rw [I.hr]; simp [rAt, hk]
  have hnotoken : x.s.wait = true → x.s.tokens = 0 := fun hw => by
    rcases Nat.eq_zero_or_pos x.s.tokens with h | h
    · exact h
    · exact absurd (.wake x hw h) (hst _)
  have hwaitF : x.s.wait = false → x.s.nxt = c.n := fun hw => by
    have := I.nx
    rcases Nat.lt_or_ge x.s.nxt c.n with h | h
    · exact absurd (.send x hw h) (hst _)
    · omega
  have hheld : ∀ i, k = c.stop → held c x i = 0 := fun i hk => by simp [held, hrep hk]
  have hheld' : ∀ i, held c x i = 0 := fun i => by
    rcases Nat.lt_or_ge k c.stop with hk | hk
    · exact held_lt I hk i
    · exact hheld i (Nat.le_antisymm I.hk hk)
  have hcnt : ∀ i, a i = got c k m i := fun i => by
    have := I.cnt i
    rw [hS, hheld' i] at this
    simpa using this
  rcases I.pos with ⟨hkn, hm0, _, _⟩ | ⟨hkn, hR', hs1, hs0⟩ | ⟨hkn, hm2, _, hR'⟩
  · -- everything handled
    have hk0 : k ≠ 0 := fun h0 => by
      have := I.w0 (by omega)
      have := hwaitF this
      omega
    have ha : a (k - 1) = (c.waves (k - 1)).length := by
      rw [hcnt]; simp only [got]; rw [if_pos (by omega)]
    have hwf : x.s.wait = false := by
      cases hw : x.s.wait with
      | false => rfl
      | true =>
        have := I.tok3 (k - 1) (by omega) hw (hnotoken hw)
        omega
    have hnn := hwaitF hwf
    have hks : k = c.stop := by have := I.hk; omega
    have hsn : c.stop = c.n := by omega
    refine ⟨hrep hks, ?_, ?_⟩
    · rw [I.said, ← hex]
      refine ⟨fun _ => hsn, fun _ => ⟨hn, ?_⟩⟩
      rw [show c.n - 1 = k - 1 by omega]; exact ha
    · rw [← hex]
      constructor
      · intro hr; have := I.rej hr; omega
      · intro hr; exact absurd hsn hr
  · -- the header of the next group was refused
    rw [hR] at hR'
    have hlen := congrArg List.length hR'
    have hks : k = c.stop ∧ m = 1 := by
      rcases Nat.lt_or_ge k c.stop with hk | hk
      · exfalso
        have hm := I.hm
        cases sent with
        | true => rw [List.length_drop, full_len] at hlen; simp at hlen; omega
        | false =>
          have hm1 := hs0 rfl
          simp [full] at hlen
          have := I.hT k
          rw [hS, if_pos ⟨hkn, rfl, rfl, by omega, hk⟩] at this
          simp at this
      · have hks : k = c.stop := Nat.le_antisymm I.hk hk
        refine ⟨hks, ?_⟩
        have := I.hmF hks
        cases sent with
        | true => have := hs1 rfl; omega
        | false => simp [full] at hlen; omega
    obtain ⟨hks, hm1⟩ := hks
    have hnx := I.nx
    have hsn : ¬ c.stop = c.n := by omega
    refine ⟨hrep hks, ?_, ?_⟩
    · rw [I.said, ← hex]
      refine ⟨fun ⟨_, h⟩ => ?_, fun h => absurd h hsn⟩
      have hw := waves_pos hW (i := c.n - 1) (by omega)
      rw [hcnt] at h
      simp only [got] at h
      rw [if_neg (by omega)] at h
      split at h <;> omega
    · rw [← hex]
      refine ⟨fun _ => hsn, fun _ => ?_⟩
      have := I.hF c.stop
      rw [hS] at this
      cases hr : x.s.rejected with
      | true => rfl
      | false => rw [if_pos ⟨rfl, hks, hm1, hr⟩] at this; simp at this
  · rw [hR] at hR'
    have := congrArg List.length hR'
    simp at this

/-- An empty file has no group: nobody ever reports anything. -/
theorem C87_empty_never {c : Cfg} (hW : c.WF) (hn : c.n = 0) {x : St} (h : Reach c x) :
    x.reported = false ∧ Status.complete ∉ x.s.said := by
  constructor
  · cases hr : x.reported with
    | false => rfl
    | true => have := reported_pos hW h hr; omega
  · intro hs
    obtain ⟨k, m, sent, a, I⟩ := inv_reach hW h
    have := (I.said.mp hs).1
    omega

/-! ### The groups of a file -/

theorem cut_nil (size : Nat) : cut size [] = [] := by unfold cut; simp

theorem cut_cons {size : Nat} (hs : 0 < size) {l : List UInt8} (hl : l ≠ []) :
    cut size l = l.take size :: cut size (l.drop size) := by
  rw [cut]
  rw [dif_neg]
  simp only [not_or]
  exact ⟨hl, by omega⟩

/-- **C87.** The groups are the file, in this order and without a gap, … -/
theorem C87_cut_flatten {size : Nat} (hs : 0 < size) (l : List UInt8) : (cut size l).flatten = l := by
  generalize hn : l.length = n
  induction n using Nat.strongRecOn generalizing l with
  | _ n ih =>
    by_cases hl : l = []
    · subst hl; rw [cut_nil]; rfl
    · have hp := List.length_pos_iff.mpr hl
      rw [cut_cons hs hl, List.flatten_cons, ih (l.drop size).length (by rw [List.length_drop]; omega) _ rfl,
        List.take_append_drop]

/-- … their number is the announced one, … -/
theorem C87_cut_length {size : Nat} (hs : 0 < size) (l : List UInt8) :
    (cut size l).length = groupCount size l.length := by
  generalize hn : l.length = n
  induction n using Nat.strongRecOn generalizing l with
  | _ n ih =>
    by_cases hl : l = []
    · subst hl
      rw [cut_nil, ← hn]
      simp only [groupCount, List.length_nil, Nat.zero_add]
      exact (Nat.div_eq_of_lt (by omega)).symm
    · have hp := List.length_pos_iff.mpr hl
      rw [cut_cons hs hl, List.length_cons, ih (l.drop size).length (by rw [List.length_drop]; omega) _ rfl,
        List.length_drop, hn]
      simp only [groupCount]
      rcases Nat.lt_or_ge size n with h | h
      · rw [show n + size - 1 = (n - size + size - 1) + size by omega, Nat.add_div_right _ hs]
      · rw [show n - size + size - 1 = size - 1 by omega, Nat.div_eq_of_lt (by omega),
          show n + size - 1 = (n - 1) + size by omega, Nat.add_div_right _ hs, Nat.div_eq_of_lt (by omega)]

/-- … and each of them holds between one and `size` bytes. -/
theorem C87_cut_sizes {size : Nat} (hs : 0 < size) (l : List UInt8) :
    ∀ g ∈ cut size l, g ≠ [] ∧ g.length ≤ size := by
  generalize hn : l.length = n
  induction n using Nat.strongRecOn generalizing l with
  | _ n ih =>
    by_cases hl : l = []
    · subst hl; rw [cut_nil]; simp
    · have hp := List.length_pos_iff.mpr hl
      rw [cut_cons hs hl]
      intro g hg
      simp only [List.mem_cons] at hg
      rcases hg with rfl | hg
      · refine ⟨fun h => ?_, by rw [List.length_take]; omega⟩
        rcases List.take_eq_nil_iff.mp h with h | h
        · omega
        · exact hl h
      · exact ih (l.drop size).length (by rw [List.length_drop]; omega) _ rfl g hg

/-! ### Sessions -/

/-- The first id of a file sent to the server after files with these numbers of groups: each of them takes one id and
reserves `groups_needed.saturating_sub(1)` further ones; session.rs lines 1475, 1520-1524 and
/repo/citadel_crypt/src/endpoint_crypto_container.rs lines 111, 326-329. -/
def firstId (before : List Nat) : Nat := (before.map fun n => 1 + (n - 1)).sum

/-- **C87.** Every file with several groups which is not the first one of its session is stored truncated although the
receiver reports it as received. -/
theorem C87_second_file_truncated {c : Cfg} (hW : c.WF) (before : List Nat) (hb : before ≠ [])
    (hs : c.start = firstId before) (hn : 2 ≤ c.n) {x : St} (h : Reach c x) (hr : x.reported = true) :
    x.stored ≠ c.content := by
  intro he
  have := (C87_exact hW h hr).mp he
  have hpos : 0 < firstId before := by
    cases before with
    | nil => exact absurd rfl hb
    | cons n l => simp only [firstId, List.map_cons, List.sum_cons]; omega
  omega

/-! ### Examples and the counterexample -/

/-- A second file, of two groups with one wave each. -/
def second : Cfg := { start := 1, groups := [[[1]], [[2]]] }

/-- The same file at the begin of a session. -/
def first : Cfg := { start := 0, groups := [[[1], [5]], [[2]]] }

theorem second_wf : second.WF := by
  intro g hg
  simp only [second, List.mem_cons, List.not_mem_nil, or_false] at hg
  rcases hg with rfl | rfl <;> simp

theorem first_wf : first.WF := by
  intro g hg
  simp only [first, List.mem_cons, List.not_mem_nil, or_false] at hg
  rcases hg with rfl | rfl <;> simp

/-- One run: everything is handled at once. -/
def runOf (c : Cfg) : Nat → St → St
  | 0, x => x
  | f + 1, x =>
    match x.toS with
    | u :: rest =>
      runOf c f { x with s := (hear c x.s true u).1, toS := rest, toR := x.toR ++ (hear c x.s true u).2 }
    | [] =>
      match x.toR with
      | mm :: rest => runOf c f { x with r := (recv c.n x.r mm).1, toR := rest, toS := x.toS ++ (recv c.n x.r mm).2 }
      | [] =>
        match x.r.done with
        | some gid =>
          if x.reported = false then runOf c f { x with reported := true, toS := x.toS ++ [.wack gid] }
          else x
        | none =>
          if 0 < x.s.tokens ∧ x.s.wait = true then
            runOf c f { x with s := { x.s with wait := false, tokens := x.s.tokens - 1 } }
          else if x.s.wait = false ∧ x.s.nxt < c.n then
            runOf c f { x with
              s := { x.s with
                nxt := x.s.nxt + 1, wait := true
                trans := upd x.s.trans (c.start + x.s.nxt) (some ⟨x.s.nxt, 0, true⟩) }
              toR := x.toR ++ [.hdr (c.start + x.s.nxt) (c.waves x.s.nxt).length] }
          else x

theorem runOf_reach (c : Cfg) : ∀ (f : Nat) (x : St), Reach c x → Reach c (runOf c f x)
  | 0, _, h => h
  | f + 1, x, h => by
    unfold runOf
    split
    · rename_i u rest hS
      exact runOf_reach c f _ (.step h (.hear x u rest true hS))
    · split
      · rename_i mm rest hR
        have := runOf_reach c f _ (.step h (.recv x mm rest hR))
        exact this
      · split
        · rename_i gid hd
          split
          · rename_i hr
            exact runOf_reach c f _ (.step h (.finish x gid hd hr))
          · exact h
        · split
          · rename_i hw
            exact runOf_reach c f _ (.step h (.wake x hw.2 hw.1))
          · split
            · rename_i hw
              exact runOf_reach c f _ (.step h (.send x hw.1 hw.2))
            · exact h

/-- **C87 is false in general.** The second file of a session is reported as received after its first group; the rest
of the file is lost. -/
theorem C87_counterexample : ∃ x, Reach second x ∧ x.reported = true ∧ x.stored = [1] ∧ second.content = [1, 2] :=
  ⟨runOf second 30 init, runOf_reach _ _ _ .init, by decide, by decide, by decide⟩

/-- The hypotheses of the positive statements are met: the same file as the first one of a session arrives. -/
example : ∃ x, Reach first x ∧ x.reported = true ∧ Status.complete ∈ x.s.said ∧ x.stored = [1, 5, 2] ∧
    first.content = [1, 5, 2] :=
  ⟨runOf first 30 init, runOf_reach _ _ _ .init, by decide, by decide, by decide, by decide⟩

example : second.start = firstId [1] ∧ 2 ≤ second.n := by decide

example : cut 2 [1, 2, 3, 4, 5] = [[1, 2], [3, 4], [5]] ∧ groupCount 2 5 = 3 := by
  constructor
  · simp [cut]
  · decide

end Verif.Transfer
