import Verif.Service.Spec

namespace Verif.Service

theorem run_append (s : Node) (as bs : List Act) :
    s.run (as ++ bs) = (((s.run as).1.run bs).1, (s.run as).2 ++ ((s.run as).1.run bs).2) := by
  induction as generalizing s with
  | nil => simp [Node.run]
  | cons a as ih => simp [Node.run, ih]

theorem readBy_append (i : Nat) (xs ys : List (Nat × Out)) :
    readBy i (xs ++ ys) = readBy i xs ++ readBy i ys := by simp [readBy]

theorem sentTo_append (i : Nat) (xs ys : List (Nat × Out)) :
    sentTo i (xs ++ ys) = sentTo i xs ++ sentTo i ys := by simp [sentTo]

theorem seenBy_append (i : Nat) (xs ys : List (Nat × Out)) :
    seenBy i (xs ++ ys) = seenBy i xs ++ seenBy i ys := by simp [seenBy]

theorem arrived_cons (i : Nat) (a : Act) (as : List Act) :
    arrived i (a :: as) = arrived i [a] ++ arrived i as := by
  have : a :: as = [a] ++ as := rfl
  rw [this]; simp only [arrived, List.filterMap_append, List.flatten_append]

theorem written_cons (i : Nat) (a : Act) (as : List Act) :
    written i (a :: as) = written i [a] ++ written i as := by
  have : a :: as = [a] ++ as := rfl
  rw [this]; simp only [written, List.filterMap_append]

theorem fill_bytes (c : Bytes) (q : List Bytes) :
    (fill c q).1 ++ (fill c q).2.flatten = c ++ q.flatten := by
  induction q generalizing c with
  | nil => cases c <;> simp [fill]
  | cons m q ih => cases c <;> simp [fill, ih]

/-- The bytes on their way to the service. -/
def Svc.inside (v : Svc) : Bytes := v.chunk ++ v.toSvc.flatten ++ v.inbox.flatten

/-- The state takes steps of client `i`. -/
def Node.live (s : Node) (i : Nat) : Prop := s.up = true ∧ (s.svc i).over = false

instance (s : Node) (i : Nat) : Decidable (s.live i) := by unfold Node.live; infer_instance

/-- What one event does to the bytes and packets of a service. -/
theorem svc_step (v : Svc) (e : Ev) (i : Nat) :
    readBy i ((v.step e).2.map fun o => (i, o)) ++ (v.step e).1.inside
      = v.inside ++ (match e with | .arrive m => m | _ => []) ∧
    sentTo i ((v.step e).2.map fun o => (i, o)) ++ (v.step e).1.fromSvc
      = v.fromSvc ++ (match e with | .write m => [m] | _ => []) := by
  cases e with
  | arrive m => simp [Svc.step, readBy, sentTo, Svc.inside]
  | forward =>
    simp only [Svc.step]
    cases h : v.inbox <;> simp [readBy, sentTo, Svc.inside, h]
  | read n =>
    simp only [Svc.step]
    by_cases hn : n = 0
    · simp [hn, readBy, sentTo]
    · simp only [hn, if_false]
      have hf := fill_bytes v.chunk v.toSvc
      generalize fill v.chunk v.toSvc = r at hf
      obtain ⟨c, q⟩ := r
      cases c with
      | nil =>
        simp only at hf ⊢
        simp only [readBy, sentTo, Svc.inside, List.map_cons, List.map_nil, List.filterMap_cons,
          List.filterMap_nil, List.flatten_nil, List.nil_append, List.append_nil, and_true]
        rw [← hf]; simp
      | cons b c =>
        simp only at hf ⊢
        simp only [readBy, sentTo, Svc.inside, List.map_cons, List.map_nil, List.filterMap_cons,
          List.filterMap_nil, if_true, List.flatten_cons, List.flatten_nil, List.append_nil,
          List.nil_append, and_true]
        rw [← hf]
        simp only [← List.append_assoc, List.take_append_drop]
  | write m => simp [Svc.step, readBy, sentTo, Svc.inside]
  | send =>
    simp only [Svc.step]
    cases h : v.fromSvc <;> simp [readBy, sentTo, Svc.inside, h]
  | stop => simp [Svc.step, readBy, sentTo, Svc.inside]

theorem other_outs (i j : Nat) (h : j ≠ i) (os : List Out) :
    readBy i (os.map fun o => (j, o)) = [] ∧ sentTo i (os.map fun o => (j, o)) = [] ∧
    seenBy i (os.map fun o => (j, o)) = [] := by
  induction os with
  | nil => simp [readBy, sentTo, seenBy]
  | cons o os ih =>
    obtain ⟨h1, h2, h3⟩ := ih
    refine ⟨?_, ?_, ?_⟩
    · have : readBy i ((o :: os).map fun o => (j, o))
          = readBy i [(j, o)] ++ readBy i (os.map fun o => (j, o)) := by
        rw [← readBy_append]; rfl
      rw [this, h1]; cases o <;> simp [readBy, h]
    · have : sentTo i ((o :: os).map fun o => (j, o))
          = sentTo i [(j, o)] ++ sentTo i (os.map fun o => (j, o)) := by
        rw [← sentTo_append]; rfl
      rw [this, h2]; cases o <;> simp [sentTo, h]
    · have : seenBy i ((o :: os).map fun o => (j, o))
          = seenBy i [(j, o)] ++ seenBy i (os.map fun o => (j, o)) := by
        rw [← seenBy_append]; rfl
      rw [this, h3]; simp [seenBy, h]

/-- What one act does to client `i`. -/
theorem node_step (s : Node) (a : Act) (i : Nat) :
    ((s.step a).1.live i → s.live i) ∧
    readBy i (s.step a).2 ++ ((s.step a).1.svc i).inside
      = (s.svc i).inside ++ (if s.live i then arrived i [a] else []) ∧
    sentTo i (s.step a).2 ++ ((s.step a).1.svc i).fromSvc
      = (s.svc i).fromSvc ++ (if s.live i then written i [a] else []) := by
  cases a with
  | node =>
    simp only [Node.step, Node.live]
    by_cases h : s.asked = true <;> simp [h, readBy, sentTo, arrived, written]
  | «at» j e =>
    by_cases hl : s.up = true ∧ (s.svc j).over = false
    · simp only [Node.step]
      rw [if_pos hl]
      by_cases hj : j = i
      · subst hj
        obtain ⟨h1, h2⟩ := svc_step (s.svc j) e j
        refine ⟨fun _ => hl, ?_, ?_⟩
        · have hlive : s.live j := hl
          simp only [put, if_true, hlive]
          rw [h1]
          cases e <;> simp [arrived]
        · have hlive : s.live j := hl
          simp only [put, if_true, hlive]
          rw [h2]
          cases e <;> simp [written]
      · obtain ⟨o1, o2, _⟩ := other_outs i j hj ((s.svc j).step e).2
        have hij : ¬ i = j := fun h => hj h.symm
        rw [o1, o2]
        refine ⟨?_, ?_, ?_⟩
        · simp only [Node.live, put, hij, if_false]; exact id
        · simp only [put, hij, if_false]
          cases e <;> simp [arrived, hj]
        · simp only [put, hij, if_false]
          cases e <;> simp [written, hj]
    · simp only [Node.step]
      rw [if_neg hl]
      refine ⟨id, ?_, ?_⟩
      · by_cases hj : j = i
        · subst hj
          have : ¬ s.live j := hl
          simp [this, readBy]
        · cases e <;> simp [arrived, readBy, hj]
      · by_cases hj : j = i
        · subst hj
          have : ¬ s.live j := hl
          simp [this, sentTo]
        · cases e <;> simp [written, sentTo, hj]

theorem read_prefix (s : Node) (as : List Act) (i : Nat) :
    readBy i (s.run as).2 <+: (s.svc i).inside ++ (if s.live i then arrived i as else []) := by
  induction as generalizing s with
  | nil => simp [Node.run, readBy]
  | cons a as ih =>
    obtain ⟨hl, hr, _⟩ := node_step s a i
    have hi := ih (s.step a).1
    simp only [Node.run, readBy_append]
    obtain ⟨t, ht⟩ := hi
    by_cases h1 : s.live i
    · by_cases h2 : (s.step a).1.live i
      · rw [if_pos h1, arrived_cons]
        rw [if_pos h2] at ht
        rw [if_pos h1] at hr
        exact ⟨t, by rw [List.append_assoc, ht, ← List.append_assoc, hr, List.append_assoc]⟩
      · rw [if_pos h1, arrived_cons]
        rw [if_neg h2, List.append_nil] at ht
        rw [if_pos h1] at hr
        exact ⟨t ++ arrived i as, by
          rw [← List.append_assoc, List.append_assoc (readBy i _), ht, hr, List.append_assoc]⟩
    · have h2 : ¬ (s.step a).1.live i := fun h => h1 (hl h)
      rw [if_neg h1]
      rw [if_neg h2, List.append_nil] at ht
      rw [if_neg h1] at hr
      exact ⟨t, by rw [List.append_assoc, ht, hr]⟩

theorem sent_prefix (s : Node) (as : List Act) (i : Nat) :
    sentTo i (s.run as).2 <+: (s.svc i).fromSvc ++ (if s.live i then written i as else []) := by
  induction as generalizing s with
  | nil => simp [Node.run, sentTo]
  | cons a as ih =>
    obtain ⟨hl, _, hr⟩ := node_step s a i
    have hi := ih (s.step a).1
    simp only [Node.run, sentTo_append]
    obtain ⟨t, ht⟩ := hi
    by_cases h1 : s.live i
    · by_cases h2 : (s.step a).1.live i
      · rw [if_pos h1, written_cons]
        rw [if_pos h2] at ht
        rw [if_pos h1] at hr
        exact ⟨t, by rw [List.append_assoc, ht, ← List.append_assoc, hr, List.append_assoc]⟩
      · rw [if_pos h1, written_cons]
        rw [if_neg h2, List.append_nil] at ht
        rw [if_pos h1] at hr
        exact ⟨t ++ written i as, by
          rw [← List.append_assoc, List.append_assoc (sentTo i _), ht, hr, List.append_assoc]⟩
    · have h2 : ¬ (s.step a).1.live i := fun h => h1 (hl h)
      rw [if_neg h1]
      rw [if_neg h2, List.append_nil] at ht
      rw [if_neg h1] at hr
      exact ⟨t, by rw [List.append_assoc, ht, hr]⟩

/-- A node none of whose services has ended. -/
def Node.fresh (s : Node) : Prop := s.up = true ∧ s.asked = false ∧ ∀ i, (s.svc i).over = false

theorem svc_over (v : Svc) (e : Ev) (h : v.over = false) (he : e ≠ .stop) :
    (v.step e).1.over = false := by
  cases e with
  | read n =>
    simp only [Svc.step]
    split
    · exact h
    · split <;> exact h
  | forward => simp only [Svc.step]; split <;> exact h
  | send => simp only [Svc.step]; split <;> exact h
  | stop => exact absurd rfl he
  | _ => exact h

theorem fresh_step (s : Node) (a : Act) (h : s.fresh) (ha : a.stops = false) :
    (s.step a).1.fresh := by
  obtain ⟨h1, h2, h3⟩ := h
  cases a with
  | node => simp only [Node.step, h2]; exact ⟨h1, h2, h3⟩
  | «at» j e =>
    have he : e ≠ .stop := by rintro rfl; simp [Act.stops] at ha
    have ho := svc_over (s.svc j) e (h3 j) he
    simp only [Node.step]
    rw [if_pos ⟨h1, h3 j⟩]
    refine ⟨h1, by simp [h2, ho], fun i => ?_⟩
    simp only [put]
    split
    · exact ho
    · exact h3 i

theorem fresh_run (s : Node) (as : List Act) (h : s.fresh) (ha : ∀ a ∈ as, a.stops = false) :
    (s.run as).1.fresh := by
  induction as generalizing s with
  | nil => exact h
  | cons a as ih =>
    exact ih _ (fresh_step s a h (ha a (by simp))) (fun b hb => ha b (by simp [hb]))

/-- In a run without an end, nothing is lost. -/
theorem fresh_all (s : Node) (as : List Act) (i : Nat) (h : s.fresh)
    (ha : ∀ a ∈ as, a.stops = false) :
    readBy i (s.run as).2 ++ ((s.run as).1.svc i).inside = (s.svc i).inside ++ arrived i as ∧
    sentTo i (s.run as).2 ++ ((s.run as).1.svc i).fromSvc = (s.svc i).fromSvc ++ written i as := by
  induction as generalizing s with
  | nil => simp [Node.run, readBy, sentTo, arrived, written]
  | cons a as ih =>
    obtain ⟨_, h1, h2⟩ := node_step s a i
    have hl : s.live i := ⟨h.1, h.2.2 i⟩
    rw [if_pos hl] at h1 h2
    obtain ⟨i1, i2⟩ := ih _ (fresh_step s a h (ha a (by simp))) (fun b hb => ha b (by simp [hb]))
    simp only [Node.run, readBy_append, sentTo_append]
    rw [arrived_cons, written_cons]
    refine ⟨?_, ?_⟩
    · rw [List.append_assoc, i1, ← List.append_assoc, h1, List.append_assoc]
    · rw [List.append_assoc, i2, ← List.append_assoc, h2, List.append_assoc]

/-- Sending as often as there are packets sends them all. -/
theorem send_all (s : Node) (i : Nat) (hl : s.live i) :
    sentTo i (s.run (List.replicate (s.svc i).fromSvc.length (.at i .send))).2
      = (s.svc i).fromSvc := by
  generalize hq : (s.svc i).fromSvc = q
  induction q generalizing s with
  | nil => simp [Node.run, sentTo]
  | cons m q ih =>
    obtain ⟨h1, h2⟩ := hl
    have hs : (s.svc i).step .send = ({ s.svc i with fromSvc := q }, [.sent m]) := by
      simp [Svc.step, hq]
    have hn : s.step (.at i .send) =
        ({ s with svc := put s.svc i { s.svc i with fromSvc := q },
                  asked := s.asked || (s.svc i).over }, [(i, .sent m)]) := by
      simp only [Node.step]
      rw [if_pos ⟨h1, h2⟩, hs]; rfl
    simp only [List.length_cons, List.replicate_succ, Node.run, hn, sentTo_append]
    rw [ih { s with svc := put s.svc i { s.svc i with fromSvc := q },
                    asked := s.asked || (s.svc i).over } ⟨h1, by simp [put, h2]⟩ (by simp [put])]
    simp [sentTo]

/-- Forwarding as often as there are packets brings them all to the service. -/
theorem forward_all (s : Node) (i : Nat) (hl : s.live i) :
    let t := s.run (List.replicate (s.svc i).inbox.length (.at i .forward))
    t.2 = [] ∧ t.1.live i ∧ (t.1.svc i).inbox = [] ∧ (t.1.svc i).chunk = (s.svc i).chunk ∧
    (t.1.svc i).toSvc = (s.svc i).toSvc ++ (s.svc i).inbox := by
  generalize hq : (s.svc i).inbox = q
  induction q generalizing s with
  | nil => simp [Node.run, hl, hq]
  | cons m q ih =>
    obtain ⟨h1, h2⟩ := hl
    have hs : (s.svc i).step .forward
        = ({ s.svc i with inbox := q, toSvc := (s.svc i).toSvc ++ [m] }, []) := by
      simp [Svc.step, hq]
    have hn : s.step (.at i .forward) =
        ({ s with svc := put s.svc i { s.svc i with inbox := q, toSvc := (s.svc i).toSvc ++ [m] },
                  asked := s.asked || (s.svc i).over }, []) := by
      simp only [Node.step]
      rw [if_pos ⟨h1, h2⟩, hs]; rfl
    simp only [List.length_cons, List.replicate_succ, Node.run, hn]
    obtain ⟨i1, i2, i3, i4, i5⟩ := ih
      { s with svc := put s.svc i { s.svc i with inbox := q, toSvc := (s.svc i).toSvc ++ [m] },
               asked := s.asked || (s.svc i).over } ⟨h1, by simp [put, h2]⟩ (by simp [put])
    refine ⟨by simp [i1], i2, i3, ?_, ?_⟩
    · rw [i4]; simp [put]
    · rw [i5]; simp [put]

/-- Reading one byte at a time reads all that is in the queue. -/
theorem read_all (s : Node) (i : Nat) (hl : s.live i) :
    readBy i (s.run (List.replicate ((s.svc i).chunk ++ (s.svc i).toSvc.flatten).length
      (.at i (.read 1)))).2 = (s.svc i).chunk ++ (s.svc i).toSvc.flatten := by
  generalize hq : (s.svc i).chunk ++ (s.svc i).toSvc.flatten = q
  induction q generalizing s with
  | nil => simp [Node.run, readBy]
  | cons b q ih =>
    obtain ⟨h1, h2⟩ := hl
    have hf := fill_bytes (s.svc i).chunk (s.svc i).toSvc
    rw [hq] at hf
    have hne : (fill (s.svc i).chunk (s.svc i).toSvc).1 ≠ [] := by
      have key : ∀ (q : List Bytes) (c : Bytes), c ++ q.flatten ≠ [] → (fill c q).1 ≠ [] := by
        intro q
        induction q with
        | nil => intro c h; cases c <;> simp_all [fill]
        | cons m q ih => intro c h; cases c <;> simp_all [fill]
      exact key _ _ (by rw [hq]; simp)
    generalize hr : fill (s.svc i).chunk (s.svc i).toSvc = r at hf hne
    obtain ⟨c, w⟩ := r
    cases c with
    | nil => simp at hne
    | cons b' c =>
      simp only [List.cons_append, List.cons.injEq] at hf
      obtain ⟨rfl, hf⟩ := hf
      have hs : (s.svc i).step (.read 1)
          = ({ s.svc i with chunk := c, toSvc := w }, [.got [b']]) := by
        simp [Svc.step, hr]
      have hn : s.step (.at i (.read 1)) =
          ({ s with svc := put s.svc i { s.svc i with chunk := c, toSvc := w },
                    asked := s.asked || (s.svc i).over }, [(i, .got [b'])]) := by
        simp only [Node.step]
        rw [if_pos ⟨h1, h2⟩, hs]; rfl
      simp only [List.length_cons, List.replicate_succ, Node.run, hn, readBy_append]
      rw [ih { s with svc := put s.svc i { s.svc i with chunk := c, toSvc := w },
                      asked := s.asked || (s.svc i).over } ⟨h1, by simp [put, h2]⟩
          (by simp [put, hf])]
      simp [readBy]

/-- A node that is down gives nothing any more. -/
theorem down_run (s : Node) (as : List Act) (h : s.up = false) : (s.run as).2 = [] := by
  induction as generalizing s with
  | nil => rfl
  | cons a as ih =>
    have h1 : (s.step a).1.up = false ∧ (s.step a).2 = [] := by
      cases a <;> simp only [Node.step] <;> split <;> simp_all
    simp [Node.run, h1.2, ih _ h1.1]

end Verif.Service
