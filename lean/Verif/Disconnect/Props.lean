import Verif.Disconnect.Model
import Mathlib.Data.List.Induction

/-! Property C38: a disconnect is announced at most once. -/
namespace Verif.Disconnect

theorem run_append (t : Tracker) (a b : List Op) :
    run t (a ++ b) = ((run (run t a).1 b).1, (run t a).2 ++ (run (run t a).1 b).2) := by
  induction a generalizing t with
  | nil => simp [run]
  | cons op a ih => simp [run, ih]

/-- The calls after which a p2p disconnect of `(ticket, peer)` may be announced afresh (a new connection was
established, or the session was cleared). -/
def RenewsP2p (ticket peer : Nat) (op : Op) : Prop := op = .clearP2pPeer ticket peer ∨ op = .clearSessionP2p ticket

/-- The calls after which a c2s disconnect of `ticket` may be announced afresh. -/
def RenewsC2s (ticket : Nat) (op : Op) : Prop := op = .clearSessionC2s ticket

theorem p2p_kept (t : Tracker) (ops : List Op) (k p : Nat) (hm : (k, p) ∈ t.p2p)
    (hn : ∀ op ∈ ops, ¬ RenewsP2p k p op) : (k, p) ∈ (run t ops).1.p2p := by
  induction ops generalizing t with
  | nil => exact hm
  | cons op ops ih =>
    apply ih
    · have hop := hn op (List.mem_cons_self ..)
      cases op with
      | tryC2s a => exact hm
      | tryP2p a b => simp only [step, tryP2p, setInsert]; split <;> simp [hm]
      | clearP2pPeer a b =>
        have : ¬ (k = a ∧ p = b) := by rintro ⟨rfl, rfl⟩; exact hop (Or.inl rfl)
        have h2 : (k, p) ≠ (a, b) := fun he => this (by simpa using he)
        simp only [step, clearP2pPeer, List.mem_filter]
        exact ⟨hm, decide_eq_true h2⟩
      | clearSessionC2s a => exact hm
      | clearSessionP2p a =>
        have : ¬ (k = a) := by rintro rfl; exact hop (Or.inr rfl)
        simpa [step, clearSessionP2p, hm] using this
    · exact fun o ho => hn o (List.mem_cons_of_mem _ ho)

theorem c2s_kept (t : Tracker) (ops : List Op) (k : Nat) (hm : k ∈ t.c2s)
    (hn : ∀ op ∈ ops, ¬ RenewsC2s k op) : k ∈ (run t ops).1.c2s := by
  induction ops generalizing t with
  | nil => exact hm
  | cons op ops ih =>
    apply ih
    · have hop := hn op (List.mem_cons_self ..)
      cases op with
      | tryC2s a => simp only [step, tryC2s, setInsert]; split <;> simp [hm]
      | tryP2p a b => exact hm
      | clearP2pPeer a b => exact hm
      | clearSessionC2s a =>
        have : ¬ (k = a) := by rintro rfl; exact hop rfl
        simpa [step, clearSessionC2s, hm] using this
      | clearSessionP2p a => exact hm
    · exact fun o ho => hn o (List.mem_cons_of_mem _ ho)

theorem p2p_absent (t : Tracker) (ops : List Op) (k p : Nat) (hm : (k, p) ∉ t.p2p)
    (hn : Op.tryP2p k p ∉ ops) : (k, p) ∉ (run t ops).1.p2p := by
  induction ops generalizing t with
  | nil => exact hm
  | cons op ops ih =>
    apply ih
    · cases op with
      | tryC2s a => exact hm
      | tryP2p a b =>
        have : ¬ (k = a ∧ p = b) := by rintro ⟨rfl, rfl⟩; exact hn (List.mem_cons_self ..)
        simp only [step, tryP2p, setInsert]; split
        · exact hm
        · simpa [hm] using this
      | clearP2pPeer a b => simp [step, clearP2pPeer, hm]
      | clearSessionC2s a => exact hm
      | clearSessionP2p a => simp [step, clearSessionP2p, hm]
    · exact fun h => hn (List.mem_cons_of_mem _ h)

theorem c2s_absent (t : Tracker) (ops : List Op) (k : Nat) (hm : k ∉ t.c2s)
    (hn : Op.tryC2s k ∉ ops) : k ∉ (run t ops).1.c2s := by
  induction ops generalizing t with
  | nil => exact hm
  | cons op ops ih =>
    apply ih
    · cases op with
      | tryC2s a =>
        have : ¬ (k = a) := by rintro rfl; exact hn (List.mem_cons_self ..)
        simp only [step, tryC2s, setInsert]; split
        · exact hm
        · simpa [hm] using this
      | tryP2p a b => exact hm
      | clearP2pPeer a b => exact hm
      | clearSessionC2s a => simp [step, clearSessionC2s, hm]
      | clearSessionP2p a => exact hm
    · exact fun h => hn (List.mem_cons_of_mem _ h)

/-- After a try, the key is recorded, whatever the answer. -/
theorem p2p_recorded (t : Tracker) (k p : Nat) : (k, p) ∈ (step t (.tryP2p k p)).1.p2p := by
  simp only [step, tryP2p, setInsert]; split <;> simp_all
theorem c2s_recorded (t : Tracker) (k : Nat) : k ∈ (step t (.tryC2s k)).1.c2s := by
  simp only [step, tryC2s, setInsert]; split <;> simp_all

theorem p2p_answer (t : Tracker) (k p : Nat) : (step t (.tryP2p k p)).2 = some (decide ((k, p) ∉ t.p2p)) := by
  simp only [step, tryP2p, setInsert]; split <;> simp_all
theorem c2s_answer (t : Tracker) (k : Nat) : (step t (.tryC2s k)).2 = some (decide (k ∉ t.c2s)) := by
  simp only [step, tryC2s, setInsert]; split <;> simp_all

/-- **C38 (peer connections, at most once).** Whatever calls are made by whichever code paths, if two reports for the
same session and peer are both told to notify the application, then in between the connection was established again (or
the session cleared). The same holds from any starting state, and whatever the answer to the first report was. -/
theorem C38_p2p_at_most_once (t : Tracker) (before between : List Op) (ticket peer : Nat)
    (h : (step (run t (before ++ Op.tryP2p ticket peer :: between)).1 (.tryP2p ticket peer)).2 = some true) :
    ∃ op ∈ between, RenewsP2p ticket peer op := by
  by_contra hc
  push Not at hc
  rw [run_append] at h
  simp only [run] at h
  have := p2p_kept _ between ticket peer (p2p_recorded (run t before).1 ticket peer) hc
  rw [p2p_answer] at h
  simp [this] at h

/-- **C38 (client-server sessions, at most once).** -/
theorem C38_c2s_at_most_once (t : Tracker) (before between : List Op) (ticket : Nat)
    (h : (step (run t (before ++ Op.tryC2s ticket :: between)).1 (.tryC2s ticket)).2 = some true) :
    ∃ op ∈ between, RenewsC2s ticket op := by
  by_contra hc
  push Not at hc
  rw [run_append] at h
  simp only [run] at h
  have := c2s_kept _ between ticket (c2s_recorded (run t before).1 ticket) hc
  rw [c2s_answer] at h
  simp [this] at h

/-- **C38 (not lost).** The first report since the start, or since the connection was established again, is told to
notify: de-duplication never swallows a disconnect altogether, and reports for other sessions or peers do not
interfere. -/
theorem C38_first_is_announced (ticket peer : Nat) (ops : List Op) :
    (Op.tryP2p ticket peer ∉ ops →
      (step (run new ops).1 (.tryP2p ticket peer)).2 = some true) ∧
    (Op.tryC2s ticket ∉ ops → (step (run new ops).1 (.tryC2s ticket)).2 = some true) ∧
    (∀ t before renew, RenewsP2p ticket peer renew → Op.tryP2p ticket peer ∉ ops →
      (step (run t (before ++ renew :: ops)).1 (.tryP2p ticket peer)).2 = some true) ∧
    (∀ t before renew, RenewsC2s ticket renew → Op.tryC2s ticket ∉ ops →
      (step (run t (before ++ renew :: ops)).1 (.tryC2s ticket)).2 = some true) := by
  refine ⟨?_, ?_, ?_, ?_⟩
  · intro h
    have := p2p_absent new ops ticket peer (by simp [new]) h
    rw [p2p_answer]; simp [this]
  · intro h
    have := c2s_absent new ops ticket (by simp [new]) h
    rw [c2s_answer]; simp [this]
  · intro t before renew hr h
    rw [run_append]
    simp only [run]
    have := p2p_absent (step (run t before).1 renew).1 ops ticket peer
      (by rcases hr with rfl | rfl <;> simp [step, clearP2pPeer, clearSessionP2p]) h
    rw [p2p_answer]; simp [this]
  · intro t before renew hr h
    rw [run_append]
    simp only [run]
    have := c2s_absent (step (run t before).1 renew).1 ops ticket
      (by cases hr; simp [step, clearSessionC2s]) h
    rw [c2s_answer]; simp [this]

/-- Three racing reports, a reconnect, two more: announced exactly twice; another peer is independent. -/
example : (run new [.tryP2p 1 7, .tryP2p 1 8, .tryP2p 1 7, .tryC2s 1, .tryP2p 1 7, .clearP2pPeer 1 7, .tryP2p 1 7,
    .tryP2p 1 7, .tryC2s 1]).2.map Prod.snd =
    [some true, some true, some false, some true, some false, none, some true, some false, some false] := by decide

end Verif.Disconnect
