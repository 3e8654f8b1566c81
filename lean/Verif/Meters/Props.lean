import Verif.Meters.Lemmas

/-! # Properties C260-C263 -/

namespace Verif.Meters

/-! ## C260: threads that confirm at the same time lose no confirmation -/

/-- In every order of reads and stores the atomic has the largest of what was stored. -/
theorem C260_newest (es : List Event) :
    (∀ t ∈ (run fresh es).stored, u64 t ≤ (run fresh es).last) ∧
      ((run fresh es).last = 0 ∨ ∃ t ∈ (run fresh es).stored, (run fresh es).last = u64 t) :=
  ⟨(ok_run es _ ok_fresh).upper, (ok_run es _ ok_fresh).mem⟩

/-- It never goes back. -/
theorem C260_forward (es fs : List Event) : (run fresh es).last ≤ (run fresh (es ++ fs)).last := by
  rw [run_append]
  exact last_run fs _

/-- A thread that is late does not undo what another stored. -/
example : (run fresh [.pass 5, .read, .pass 4, .read, .store 1, .store 0]).last = 9 := by decide

/-! ## C261: expired is just more than a minute of silence -/

theorem C261_expired (es : List Event) (h : (run fresh es).now < 2 ^ 64) :
    (run fresh es).expired = true ↔ (run fresh es).silent := by
  have hk := ok_run es _ ok_fresh
  generalize run fresh es = s at h hk
  obtain ⟨_, h2, h3, h4⟩ := hk
  have he : u64 expireNs = minute := by decide
  simp only [Expiry.expired, Expiry.silent, he, u64_of_lt h, gt_iff_lt, decide_eq_true_eq]
  constructor
  · intro hx
    refine ⟨by omega, ?_⟩
    intro t ht
    have h5 := h3 t ht
    rw [u64_of_lt (Nat.lt_of_le_of_lt (h2 t ht) h)] at h5
    omega
  · rintro ⟨h5, h6⟩
    rcases h4 with h4 | ⟨t, ht, h4⟩
    · omega
    · have := h6 t ht
      rw [u64_of_lt (Nat.lt_of_le_of_lt (h2 t ht) h)] at h4
      omega

/-- After a confirmation is stored, nothing expires for a minute from when it was read. -/
theorem C261_kept (es fs : List Event) (t : Nat) (ht : t ∈ (run fresh es).stored)
    (h : (run fresh (es ++ fs)).now < 2 ^ 64) (hm : (run fresh (es ++ fs)).now ≤ t + minute) :
    (run fresh (es ++ fs)).expired = false := by
  have hk := ok_run es _ ok_fresh
  have hl := C260_forward es fs
  have hn := now_run fs (run fresh es)
  rw [← run_append] at hn
  have h1 := hk.upper t ht
  rw [u64_of_lt (by have := hk.stored t ht; omega)] at h1
  have he : u64 expireNs = minute := by decide
  simp only [Expiry.expired, he, u64_of_lt h, gt_iff_lt, decide_eq_false_iff_not]
  omega

example : (run fresh [.pass 5, .read, .pass minute, .store 0]).expired = false ∧
    (run fresh [.pass 5, .read, .store 0, .pass (minute + 1)]).expired = true := by
  decide +kernel

/-! ## C262: the rate is the bytes of a sample over the time since the last one -/

/-- Refuted: of two samples that are less than a second apart the rate is divided by zero. -/
theorem C262_counterexample (s r : Stats) (h : s.timestamp < r.timestamp)
    (h' : r.timestamp < s.timestamp + 1000000000) : (s.add r).rate.2 = 0 := by
  show (r.timestamp - s.timestamp).tdiv 1000000000 = 0
  exact Int.tdiv_eq_zero_of_lt (by omega) (by omega)

/-- Refuted also: a transfer that sends the same bytes each time, all of which are in the total, has
the rate zero. -/
theorem C262_counterexample_steady (s r : Stats) (h : r.window = s.window) :
    (s.add r).rate.1 = 0 ∧ (s.add r).total = (s.total + r.window).bmod (2 ^ 64) :=
  ⟨by show r.window - s.window = 0; omega, rfl⟩

/-- Partial: it is defined for samples a second apart or more, and then over the whole seconds.
What is missing: shorter times, the parts of a second, and that the bytes are those of the
sample and not the change from the last. -/
theorem C262_partial (s r : Stats) (h : s.timestamp + 1000000000 ≤ r.timestamp) :
    0 < (s.add r).rate.2 ∧ (s.add r).rate.2 * 1000000000 ≤ r.timestamp - s.timestamp ∧
      r.timestamp - s.timestamp < ((s.add r).rate.2 + 1) * 1000000000 ∧
      (s.add r).rate.1 = r.window - s.window := by
  have h1 : (s.add r).rate.2 = (r.timestamp - s.timestamp) / 1000000000 :=
    Int.tdiv_eq_ediv_of_nonneg (by omega)
  rw [h1]
  refine ⟨by omega, by omega, by omega, rfl⟩

/-! ## C263: the total is the sum of all samples -/

/-- Up to the wrap of 64 bits. -/
theorem C263_total (s : Stats) (l : List (Int × Int)) :
    ∃ k : Int, (addAll s l).total = s.total + (l.map Prod.snd).sum + k * 2 ^ 64 := by
  have h : ((addAll s l).total - (s.total + (l.map Prod.snd).sum)) % 2 ^ 64 = 0 := total_addAll l s
  exact ⟨((addAll s l).total - (s.total + (l.map Prod.snd).sum)) / 2 ^ 64, by omega⟩

/-- And in the range of 64 bits. -/
theorem C263_range (s r : Stats) : -2 ^ 63 ≤ (s.add r).total ∧ (s.add r).total < 2 ^ 63 := by
  have h1 := @Int.le_bmod (s.total + r.window) (2 ^ 64) (by decide)
  have h2 := @Int.bmod_lt (s.total + r.window) (2 ^ 64) (by decide)
  show -2 ^ 63 ≤ (s.total + r.window).bmod (2 ^ 64) ∧ (s.total + r.window).bmod (2 ^ 64) < 2 ^ 63
  omega

example : (addAll (Stats.new 0 0) [(1000000000, 50000), (2000000000, 60000)]).total = 110000 ∧
    (addAll (Stats.new 0 0) [(1000000000, 50000), (2000000000, 60000)]).rate = (10000, 1) := by decide

end Verif.Meters
