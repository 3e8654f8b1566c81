import Verif.NetSelect.Model
import Mathlib.Data.List.Induction

namespace Verif.NetSelect

theorem after_snoc (ops : List Op) (op : Op) : after (ops ++ [op]) = step (after ops) op := by
  unfold after; rw [List.foldl_append]; rfl

/-- A message that ends the other endpoint. -/
def Msg.final : Msg → Bool
  | .localWon => true
  | .adjacentWins => true
  | .bothFail => true
  | _ => false

/-- The outcome a node reports is consistent with its state. -/
def LocOk (x : Node) : Prop :=
  (x.loc = .pending ∧ x.ret = none) ∨ (∃ v, x.loc = .obtained ∧ x.ret = some (some v)) ∨ (x.loc = .error ∧ x.ret = some none)

/-- How the system looks after the preferred endpoint has decided with the final message `f`. -/
def Decided (s : Sys) (f : Msg) (nres : Option Nat × Bool) : Prop :=
  (s.n.finished = none ∧ ∃ l, s.toN = l ++ [f] ∧ ∀ m ∈ l, m.final = false) ∨ s.n.finished = some nres

structure Inv (s : Sys) : Prop where
  locP : LocOk s.p
  locN : LocOk s.n
  succN : ∀ m ∈ s.toP, m.success = true → ∃ v, s.n.ret = some (some v)
  failN : ∀ m ∈ s.toP, m.failure = true → s.n.ret = some none
  running : s.p.finished = none → s.n.finished = none ∧ (∀ m ∈ s.toN, m.final = false) ∧
    (s.p.ret = none ∧ s.n.ret = none ∨ s.toP ≠ [] ∨ s.toN ≠ [])
  decided : ∀ r, s.p.finished = some r →
    (∃ v, s.p.ret = some (some v) ∧ r = (some v, false) ∧ Decided s .localWon (none, true)) ∨
    (∃ v, s.n.ret = some (some v) ∧ r = (none, true) ∧ Decided s .adjacentWins (some v, false)) ∨
    (s.p.ret = some none ∧ s.n.ret = some none ∧ r = (none, false) ∧ Decided s .bothFail (none, false))

theorem info_success {x : Node} (h : (Msg.ping (info x)).success = true) : ∃ v, x.ret = some (some v) := by
  unfold info at h
  cases hr : x.ret with
  | none => rw [hr] at h; simp [Msg.success] at h
  | some r =>
    cases r with
    | none => rw [hr] at h; simp [Msg.success] at h
    | some v => exact ⟨v, rfl⟩

theorem info_failure {x : Node} (h : (Msg.ping (info x)).failure = true) : x.ret = some none := by
  unfold info at h
  cases hr : x.ret with
  | none => rw [hr] at h; simp [Msg.failure] at h
  | some r =>
    cases r with
    | none => rfl
    | some v => rw [hr] at h; simp [Msg.failure] at h

theorem complete_loc (x : Node) (r : Option Nat) : LocOk (complete x r).1 := by
  cases r with
  | none => exact Or.inr (Or.inr ⟨rfl, rfl⟩)
  | some v => exact Or.inr (Or.inl ⟨v, rfl, rfl⟩)

theorem complete_final (x : Node) (r : Option Nat) : (complete x r).2.final = false := by
  cases r <;> rfl

theorem inv_init : Inv init where
  locP := Or.inl ⟨rfl, rfl⟩
  locN := Or.inl ⟨rfl, rfl⟩
  succN := by intro m hm; cases hm
  failN := by intro m hm; cases hm
  running := by intro _; exact ⟨rfl, (by intro m hm; cases hm), Or.inl ⟨rfl, rfl⟩⟩
  decided := by intro r h; cases h

theorem inv_step (s : Sys) (op : Op) (h : Inv s) : Inv (step s op) := by
  cases op with
  | completeP r =>
    simp only [step]
    split
    · rename_i hc
      obtain ⟨hn, hfin, hne⟩ := h.running hc.2
      refine ⟨complete_loc _ _, h.locN, h.succN, h.failN, fun _ => ⟨hn, ?_, Or.inr (Or.inr (by simp))⟩, fun r hr => ?_⟩
      · intro m hm
        rcases List.mem_append.1 hm with hm | hm
        · exact hfin m hm
        · rw [List.mem_singleton] at hm; subst hm; exact complete_final _ _
      · have : (complete s.p ‹Option Nat›).1.finished = s.p.finished := rfl
        rw [this, hc.2] at hr; cases hr
    · exact h
  | completeN r =>
    simp only [step]
    split
    · rename_i hc
      have hret : (complete s.n r).1.ret = some r := rfl
      have hf' : (complete s.n r).1.finished = s.n.finished := rfl
      refine ⟨h.locP, complete_loc _ _, ?_, ?_, fun hp => ?_, fun r' hr => ?_⟩
      · intro m hm hs
        rcases List.mem_append.1 hm with hm | hm
        · obtain ⟨v, hv⟩ := h.succN m hm hs; rw [hc.1] at hv; cases hv
        · rw [List.mem_singleton] at hm; subst hm
          cases r with
          | none => cases hs
          | some v => exact ⟨v, rfl⟩
      · intro m hm hs
        rcases List.mem_append.1 hm with hm | hm
        · have := h.failN m hm hs; rw [hc.1] at this; cases this
        · rw [List.mem_singleton] at hm; subst hm
          cases r with
          | none => rfl
          | some v => cases hs
      · obtain ⟨hn, hfin, hne⟩ := h.running hp
        exact ⟨hn, hfin, Or.inr (Or.inl (by simp))⟩
      · rcases h.decided r' hr with ⟨v, h1, h2, h3⟩ | ⟨v, h1, h2, h3⟩ | ⟨h0, h1, h2, h3⟩
        · exact Or.inl ⟨v, h1, h2, h3⟩
        · rw [hc.1] at h1; cases h1
        · rw [hc.1] at h1; cases h1
    · exact h
  | deliverP =>
    simp only [step]
    split
    · exact h
    · rename_i m rest hto
      split
      · rename_i hp
        obtain ⟨hn, hfin, -⟩ := h.running hp
        have hs : m.success = true → ∃ v, s.n.ret = some (some v) := h.succN m (by rw [hto]; simp)
        have hf : m.failure = true → s.n.ret = some none := h.failN m (by rw [hto]; simp)
        have hs' : ∀ m ∈ rest, m.success = true → ∃ v, s.n.ret = some (some v) :=
          fun m hm => h.succN m (by rw [hto]; exact List.mem_cons_of_mem _ hm)
        have hf' : ∀ m ∈ rest, m.failure = true → s.n.ret = some none :=
          fun m hm => h.failN m (by rw [hto]; exact List.mem_cons_of_mem _ hm)
        have ping : Inv { s with p := s.p, toP := rest, toN := s.toN ++ [.ping (info s.p)] } := by
          refine ⟨h.locP, h.locN, hs', hf', fun _ => ⟨hn, ?_, Or.inr (Or.inr (by simp))⟩, fun r hr => ?_⟩
          · intro m hm
            rcases List.mem_append.1 hm with hm | hm
            · exact hfin m hm
            · rw [List.mem_singleton] at hm; subst hm; rfl
          · rw [hp] at hr; cases hr
        have done : ∀ (f : Msg) (r : Option Nat × Bool),
            ((∃ v, s.p.ret = some (some v) ∧ r = (some v, false) ∧ f = .localWon) ∨
             (∃ v, s.n.ret = some (some v) ∧ r = (none, true) ∧ f = .adjacentWins) ∨
             (s.p.ret = some none ∧ s.n.ret = some none ∧ r = (none, false) ∧ f = .bothFail)) →
            Inv { s with p := { s.p with finished := some r }, toP := rest, toN := s.toN ++ [f] } := by
          intro f r hcase
          refine ⟨?_, h.locN, hs', hf', (fun hx => by cases hx), fun r' hr => ?_⟩
          · rcases h.locP with h1 | ⟨v, h1⟩ | h1
            · exact Or.inl h1
            · exact Or.inr (Or.inl ⟨v, h1⟩)
            · exact Or.inr (Or.inr h1)
          · obtain rfl := Option.some.inj hr
            have dec : ∀ x, Decided { s with p := { s.p with finished := some r }, toP := rest, toN := s.toN ++ [f] } f x :=
              fun x => Or.inl ⟨hn, s.toN, rfl, hfin⟩
            rcases hcase with ⟨v, h1, h2, rfl⟩ | ⟨v, h1, h2, rfl⟩ | ⟨h0, h1, h2, rfl⟩
            · exact Or.inl ⟨v, h1, h2, dec _⟩
            · exact Or.inr (Or.inl ⟨v, h1, h2, dec _⟩)
            · exact Or.inr (Or.inr ⟨h0, h1, h2, dec _⟩)
        rcases h.locP with ⟨hl, hr⟩ | ⟨v, hl, hr⟩ | ⟨hl, hr⟩
        · by_cases hm : m.success = true
          · have : recvP s.p m = ({ s.p with finished := some (none, true) }, .adjacentWins) := by
              simp [recvP, hl, hm]
            rw [this]
            obtain ⟨v, hv⟩ := hs hm
            exact done .adjacentWins (none, true) (Or.inr (Or.inl ⟨v, hv, rfl, rfl⟩))
          · have : recvP s.p m = (s.p, .ping (info s.p)) := by simp [recvP, hl, hm]
            rw [this]; exact ping
        · have : recvP s.p m = ({ s.p with finished := some (some v, false) }, .localWon) := by
            simp [recvP, hl, ownResult, hr]
          rw [this]
          exact done .localWon (some v, false) (Or.inl ⟨v, hr, rfl, rfl⟩)
        · by_cases hm : m.success = true
          · have : recvP s.p m = ({ s.p with finished := some (none, true) }, .adjacentWins) := by
              simp [recvP, hl, hm]
            rw [this]
            obtain ⟨v, hv⟩ := hs hm
            exact done .adjacentWins (none, true) (Or.inr (Or.inl ⟨v, hv, rfl, rfl⟩))
          · by_cases hm2 : m.failure = true
            · have : recvP s.p m = ({ s.p with finished := some (none, false) }, .bothFail) := by
                simp [recvP, hl, hm, hm2]
              rw [this]
              exact done .bothFail (none, false) (Or.inr (Or.inr ⟨hr, hf hm2, rfl, rfl⟩))
            · have : recvP s.p m = (s.p, .ping (info s.p)) := by simp [recvP, hl, hm, hm2]
              rw [this]; exact ping
      · exact h
  | deliverN =>
    simp only [step]
    split
    · exact h
    · rename_i m rest hto
      split
      · rename_i hn
        have notfinal : m.final = false → Inv { s with n := s.n, toN := rest, toP := s.toP ++ [.ping (info s.n)] } := by
          intro hm
          refine ⟨h.locP, h.locN, ?_, ?_, fun hp => ?_, fun r hr => ?_⟩
          · intro m' hm' hs
            rcases List.mem_append.1 hm' with hm' | hm'
            · exact h.succN m' hm' hs
            · rw [List.mem_singleton] at hm'; subst hm'; exact info_success hs
          · intro m' hm' hs
            rcases List.mem_append.1 hm' with hm' | hm'
            · exact h.failN m' hm' hs
            · rw [List.mem_singleton] at hm'; subst hm'; exact info_failure hs
          · obtain ⟨h1, h2, h3⟩ := h.running hp
            exact ⟨h1, fun m' hm' => h2 m' (by rw [hto]; exact List.mem_cons_of_mem _ hm'), Or.inr (Or.inl (by simp))⟩
          · have dec : ∀ f x, f.final = true → Decided s f x →
                Decided { s with n := s.n, toN := rest, toP := s.toP ++ [.ping (info s.n)] } f x := by
              intro f x hff hd
              rcases hd with ⟨h1, l, h2, h3⟩ | h1
              · left
                refine ⟨h1, ?_⟩
                rw [hto] at h2
                cases l with
                | nil =>
                  simp only [List.nil_append, List.cons.injEq] at h2
                  rw [h2.1, hff] at hm; cases hm
                | cons a l =>
                  simp only [List.cons_append, List.cons.injEq] at h2
                  exact ⟨l, h2.2, fun m' hm' => h3 m' (List.mem_cons_of_mem _ hm')⟩
              · rw [hn] at h1; cases h1
            rcases h.decided r hr with ⟨v, h1, h2, h3⟩ | ⟨v, h1, h2, h3⟩ | ⟨h0, h1, h2, h3⟩
            · exact Or.inl ⟨v, h1, h2, dec _ _ rfl h3⟩
            · exact Or.inr (Or.inl ⟨v, h1, h2, dec _ _ rfl h3⟩)
            · exact Or.inr (Or.inr ⟨h0, h1, h2, dec _ _ rfl h3⟩)
        have isfinal : ∀ (x : Option Nat × Bool), m.final = true →
            ((m = .localWon ∧ x = (none, true)) ∨ (m = .adjacentWins ∧ x = (ownResult s.n, false)) ∨
              (m = .bothFail ∧ x = (none, false))) →
            Inv { s with n := { s.n with finished := some x }, toN := rest, toP := s.toP ++ [] } := by
          intro x hm hx
          have hpf : s.p.finished ≠ none := by
            intro hp
            have := (h.running hp).2.1 m (by rw [hto]; simp)
            rw [hm] at this; cases this
          have last : ∀ f y, Decided s f y → m = f := by
            intro f y hd
            rcases hd with ⟨h1, l, h2, h3⟩ | h1
            · rw [hto] at h2
              cases l with
              | nil => simp only [List.nil_append, List.cons.injEq] at h2; exact h2.1
              | cons a l =>
                simp only [List.cons_append, List.cons.injEq] at h2
                have := h3 a (by simp)
                rw [← h2.1, hm] at this; cases this
            · rw [hn] at h1; cases h1
          refine ⟨h.locP, ?_, ?_, ?_, fun hp => absurd hp hpf, fun r hr => ?_⟩
          · rcases h.locN with h1 | ⟨v, h1⟩ | h1
            · exact Or.inl h1
            · exact Or.inr (Or.inl ⟨v, h1⟩)
            · exact Or.inr (Or.inr h1)
          · intro m' hm'; rw [List.append_nil] at hm'; exact h.succN m' hm'
          · intro m' hm'; rw [List.append_nil] at hm'; exact h.failN m' hm'
          · rcases h.decided r hr with ⟨v, h1, h2, h3⟩ | ⟨v, h1, h2, h3⟩ | ⟨h0, h1, h2, h3⟩
            · have := last _ _ h3; subst this
              rcases hx with ⟨-, rfl⟩ | ⟨hx, -⟩ | ⟨hx, -⟩
              · exact Or.inl ⟨v, h1, h2, Or.inr rfl⟩
              · cases hx
              · cases hx
            · have := last _ _ h3; subst this
              rcases hx with ⟨hx, -⟩ | ⟨-, rfl⟩ | ⟨hx, -⟩
              · cases hx
              · refine Or.inr (Or.inl ⟨v, h1, h2, Or.inr ?_⟩)
                simp [ownResult, h1]
              · cases hx
            · have := last _ _ h3; subst this
              rcases hx with ⟨hx, -⟩ | ⟨hx, -⟩ | ⟨-, rfl⟩
              · cases hx
              · cases hx
              · exact Or.inr (Or.inr ⟨h0, h1, h2, Or.inr rfl⟩)
        cases m with
        | obtained => exact notfinal rfl
        | error => exact notfinal rfl
        | ping i => exact notfinal rfl
        | localWon => exact isfinal (none, true) rfl (Or.inl ⟨rfl, rfl⟩)
        | adjacentWins => exact isfinal (ownResult s.n, false) rfl (Or.inr (Or.inl ⟨rfl, rfl⟩))
        | bothFail => exact isfinal (none, false) rfl (Or.inr (Or.inr ⟨rfl, rfl⟩))
      · exact h

theorem inv_after (ops : List Op) : Inv (after ops) := by
  induction ops using List.reverseRecOn with
  | nil => exact inv_init
  | append_singleton ops op ih => rw [after_snoc]; exact inv_step _ _ ih

end Verif.NetSelect
