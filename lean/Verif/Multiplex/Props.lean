import Verif.Multiplex.Lemmas

/-! Properties C45 (conversation ids are never reused), C52 (both ends agree on the id), C53 (hostile peer). -/
namespace Verif.Multiplex
open Verif

/-- **C45.** For two honest endpoints and every history of opens, closes and cancelled opens, and every number of
pre-reserved ids: at each endpoint the ids of the conversations handed out are strictly increasing over time (hence
never reused, open or closed), and no assertion fails. -/
theorem C45_ids_strictly_increase (cap : Nat) (ops : List Op) :
    let s := run (init cap) ops
    s.a.opened.reverse.Pairwise (· < ·) ∧ s.b.opened.reverse.Pairwise (· < ·) ∧
    s.a.panicked = false ∧ s.b.panicked = false := by
  have h := inv_run cap ops
  exact ⟨List.pairwise_reverse.2 h.a.desc, List.pairwise_reverse.2 h.b.desc, h.a.ok, h.b.ok⟩

/-- Id 2 is opened, closed and not handed out again; beyond the two pre-reserved ids the peers negotiate. -/
example : let s := run (init 2) [.aOpen, .bOpen, .aOpen, .aClose 2, .aOpen, .bOpen, .bClose 2, .bOpen, .aCancel,
      .aOpen, .bOpenCancelled]
    s.a.opened = [4, 3, 2, 1] ∧ s.b.opened = [4, 3, 2, 1] := by decide

/-- **C52 (partial).** If no open is cancelled half-way, the n-th conversation opened at A and the n-th opened at B both
have id n, and every handshake that completes at A was answered with A's own id. Missing: cancelled opens, for which
the claim is false (see `C52_counterexample_after_cancel`). -/
theorem C52_ids_agree_partial (cap : Nat) (ops : List Op) (h1 : Op.aCancel ∉ ops) (h2 : Op.bOpenCancelled ∉ ops) :
    let s := run (init cap) ops
    s.a.opened.reverse = List.range' 1 s.a.opened.length ∧ s.b.opened.reverse = List.range' 1 s.b.opened.length ∧
    (∀ e ∈ s.log, e.1 = e.2) := by
  have h := pinv_run cap ops h1 h2
  have ha := h.base.aCons
  have hb := h.bCons
  refine ⟨?_, ?_, h.log⟩
  · show (run (init cap) ops).a.opened.reverse = List.range' 1 (run (init cap) ops).a.opened.length
    rw [ha]; simp
  · show (run (init cap) ops).b.opened.reverse = List.range' 1 (run (init cap) ops).b.opened.length
    rw [hb]; simp

/-- A history without cancellations in which the handshake is used. -/
example : let ops : List Op := [.aOpen, .bOpen, .aOpen, .bOpen, .aAnswer, .aOpen, .aClose 1, .bOpen, .aAnswer]
    Op.aCancel ∉ ops ∧ Op.bOpenCancelled ∉ ops ∧ (run (init 1) ops).log = [(3, 3), (2, 2)] ∧
    (run (init 1) ops).b.opened = [3, 2, 1] := by decide

/-- **C52 is false with cancellation.** A cancels its open of id 2 and retries with id 3; B's single open takes the stale
proposal 2. A's retry completes believing in id 3 while the peer answered 2 (the mismatch is only logged): the two ends
hold different ids for the conversation. Here `cap` = 1, as if the pre-reserved ids were used up. -/
theorem C52_counterexample_after_cancel :
    let s := run (init 1) [.aOpen, .bOpen, .aOpen, .aCancel, .aOpen, .bOpen, .aAnswer]
    s.log = [(3, 2)] ∧ s.a.opened.head? = some 3 ∧ s.b.opened.head? = some 2 := by decide

/-- **C53 is false (id reuse under a hostile peer).** Whatever ids an endpoint has handed out so far, a peer that
proposes an id whose conversation has already been closed gets it opened a second time, without any failure. -/
theorem C53_counterexample_id_reuse (s : State) (id : Nat) (rest : List Nat)
    (hused : getNextPrereserved s.b = none) (hop : id ∈ s.b.opened) (hclosed : s.b.subs.get? id = none)
    (hok : s.b.panicked = false) :
    let s' := step { s with toB := id :: rest } .bOpen
    s'.b.opened = id :: s.b.opened ∧ ¬ s'.b.opened.Nodup ∧ s'.b.panicked = false := by
  have e : step { s with toB := id :: rest } .bOpen =
      { s with b := subscribe s.b id, toB := rest, toA := s.toA ++ [id] } := by
    simp only [step, hused]
  refine ⟨by rw [e]; rfl, ?_, ?_⟩
  · rw [e]; simp [subscribe, hop]
  · rw [e]; simp [subscribe, hok, AMap.contains, hclosed]

/-- **C53 is false (crash under a hostile peer).** Proposing an id that is still open makes the endpoint panic. -/
theorem C53_counterexample_crash (s : State) (id : Nat) (rest : List Nat) (b : Bool)
    (hused : getNextPrereserved s.b = none) (hopen : s.b.subs.get? id = some b) :
    (step { s with toB := id :: rest } .bOpen).b.panicked = true := by
  simp only [step, hused]
  simp [subscribe, AMap.contains, hopen]

/-- Both situations are reachable: after one conversation was opened and closed / one is open. -/
example : let s := run (init 1) [.bOpen, .bClose 1]
    getNextPrereserved s.b = none ∧ 1 ∈ s.b.opened ∧ s.b.subs.get? 1 = none ∧ s.b.panicked = false := by decide
example : let s := run (init 1) [.bOpen]
    getNextPrereserved s.b = none ∧ s.b.subs.get? 1 = some false := by decide

/-- **C53 (partial).** Against an arbitrary peer: if the ids it proposes are strictly increasing and above the
pre-reserved range, the endpoint hands out strictly increasing ids and never panics. Missing: any other peer; the code
does not check the order of the proposals. -/
theorem C53_increasing_proposals_safe_partial (cap : Nat) (ops : List BOp)
    (hinc : (proposals ops).Pairwise (· < ·)) (hcap : ∀ id ∈ proposals ops, cap < id) :
    let n := brun (newNode cap) ops
    n.opened.reverse.Pairwise (· < ·) ∧ n.panicked = false := by
  suffices h : NInv cap (brun (newNode cap) ops) by
    exact ⟨List.pairwise_reverse.2 h.desc, h.ok⟩
  exact (ninv_brun cap ops hinc hcap).1

/-- The hypotheses are met by a peer that skips ids. -/
example : let ops : List BOp := [.openWith 5, .openWith 7, .close 1, .close 7, .openWith 9]
    (proposals ops).Pairwise (· < ·) ∧ (∀ id ∈ proposals ops, 1 < id) ∧ (brun (newNode 1) ops).opened = [9, 7, 1] := by
  decide

end Verif.Multiplex
