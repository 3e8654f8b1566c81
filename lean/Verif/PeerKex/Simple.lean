/-
The runs in which one peer asks once and the other answers once: all the worlds they pass.
-/
import Verif.PeerKex.Lemmas

namespace Verif.PeerKex

/-- No user does anything. -/
def Act.quiet : Act → Bool
  | .serve _ _ => true
  | .deliver _ _ => true
  | .punched _ _ _ => true
  | _ => false

/-- The key of the one exchange. -/
def theKey (p : Nat) : Key := ⟨⟨.a, 2⟩, ⟨.b, 3⟩, p⟩

section
variable (ca cb pa pb : Nat)

def sa1 : Slot := { who := .a, me := ca, peer := cb, psk := some pa, asked := true }
def sa2 : Slot :=
  { who := .a, me := ca, peer := cb, psk := some pa, asked := true, kem := some ⟨some (.alice ⟨.a, 2⟩), 2, pa, none⟩ }
def sa3 : Slot :=
  { who := .a, me := ca, peer := cb, psk := some pa, kem := some ⟨none, 2, pa, some 4⟩,
    vconn := some ⟨theKey pa, 2, true⟩, punches := [⟨4, theKey pa, 2, false⟩], made := [(theKey pa, 2)] }
def sa4 : Slot :=
  { who := .a, me := ca, peer := cb, psk := some pa, kem := some ⟨none, 2, pa, some 4⟩,
    vconn := some ⟨theKey pa, 2, true⟩, told := [.channel (theKey pa) 2], made := [(theKey pa, 2)] }
def saf : Slot := { who := .a, me := ca, peer := cb, psk := some pa, asked := true, told := [.failed] }
def sb0 : Slot := { who := .b, me := cb, peer := ca }
def sb1 : Slot := { who := .b, me := cb, peer := ca, told := [.request] }
def sb2 : Slot := { who := .b, me := cb, peer := ca, psk := some pb, asked := true, told := [.request] }
def sb3 : Slot :=
  { who := .b, me := cb, peer := ca, psk := some pb, asked := true, told := [.request],
    kem := some ⟨some (.bob ⟨.a, 2⟩ ⟨.b, 3⟩), 2, pb, none⟩ }
def sb4 : Slot :=
  { who := .b, me := cb, peer := ca, psk := some pb, kem := some ⟨none, 2, pb, some 5⟩,
    vconn := some ⟨theKey pb, 2, true⟩, punches := [⟨5, theKey pb, 2, false⟩], told := [.request],
    made := [(theKey pb, 2)] }
def sb5 : Slot :=
  { who := .b, me := cb, peer := ca, psk := some pb, kem := some ⟨none, 2, pb, some 5⟩,
    vconn := some ⟨theKey pb, 2, true⟩, told := [.request, .channel (theKey pb) 2], made := [(theKey pb, 2)] }

/-- Before the answer. -/
inductive Seg1 : World → Prop where
  | p1 : Seg1 { a := sa1 ca cb pa, b := sb0 ca cb, upA := [.request] }
  | p2 : Seg1 { a := sa1 ca cb pa, b := sb0 ca cb, downB := [.request], postA := true }
  | p3 : Seg1 { a := sa1 ca cb pa, b := sb1 ca cb, postA := true, next := 2 }

/-- After it, up to the first stage of the exchange at Alice. -/
inductive Seg2 : World → Prop where
  | p4 : Seg2 { a := sa1 ca cb pa, b := sb2 ca cb pb, upB := [.accept], postA := true, next := 2 }
  | p5 : Seg2 { a := sa1 ca cb pa, b := sb2 ca cb pb, downA := [.accept], linked := true, next := 2 }
  | p6 : Seg2 { a := sa2 ca cb pa, b := sb2 ca cb pb, upA := [.stage0 ⟨.a, 2⟩ 2], linked := true, next := 3 }
  | p7 : Seg2 { a := sa2 ca cb pa, b := sb2 ca cb pb, downB := [.stage0 ⟨.a, 2⟩ 2], linked := true, next := 3 }
  | p8 : Seg2 { a := sa2 ca cb pa, b := sb3 ca cb pb, upB := [.stage1 ⟨.a, 2⟩ ⟨.b, 3⟩ pb 2], linked := true, next := 4 }
  | p9 : Seg2
      { a := sa2 ca cb pa, b := sb3 ca cb pb, downA := [.stage1 ⟨.a, 2⟩ ⟨.b, 3⟩ pb 2], linked := true, next := 4 }
  /-- Different passwords. -/
  | f10 (h : pa ≠ pb) : Seg2 { a := saf ca cb pa, b := sb3 ca cb pb, upA := [.error], linked := true, next := 5 }
  | f11 (h : pa ≠ pb) : Seg2 { a := saf ca cb pa, b := sb3 ca cb pb, linked := true, next := 5 }
  /-- The same password; `s` is Alice's slot, before or after the end of hole punching. -/
  | p10 (h : pa = pb) (s : Slot) (hs : s = sa3 ca cb pa ∨ s = sa4 ca cb pa) :
      Seg2 { a := s, b := sb3 ca cb pb, upA := [.stage2], linked := true, next := 5 }
  | p11 (h : pa = pb) (s : Slot) (hs : s = sa3 ca cb pa ∨ s = sa4 ca cb pa) :
      Seg2 { a := s, b := sb3 ca cb pb, downB := [.stage2], linked := true, next := 5 }
  | p12 (h : pa = pb) (s s' : Slot) (hs : s = sa3 ca cb pa ∨ s = sa4 ca cb pa)
      (hs' : s' = sb4 ca cb pb ∨ s' = sb5 ca cb pb) :
      Seg2 { a := s, b := s', linked := true, next := 6 }
end

theorem seg1_step {ca cb pa : Nat} {w : World} (h : Seg1 ca cb pa w) (t : Act) (ht : t.quiet = true) :
    Seg1 ca cb pa (step w t) := by
  cases t with
  | connect i p => cases ht
  | respond i p => cases ht
  | dropped i id => cases ht
  | punched i n u => cases h <;> cases i <;> first | exact .p1 | exact .p2 | exact .p3
  | serve i k =>
    cases h <;> cases i <;> cases k <;>
      first | exact .p1 | exact .p2 | exact .p3
  | deliver i k =>
    cases h <;> cases i <;> cases k <;>
      first | exact .p1 | exact .p2 | exact .p3

theorem punched_a {ca cb pa : Nat} {s : Slot} (hs : s = sa3 ca cb pa ∨ s = sa4 ca cb pa) (n : Nat) (u : Bool) :
    (punched s n u).2 = [] ∧ ((punched s n u).1 = sa3 ca cb pa ∨ (punched s n u).1 = sa4 ca cb pa) := by
  rcases hs with rfl | rfl
  · by_cases e : n = 4
    · subst e; cases u <;> exact ⟨rfl, .inr rfl⟩
    · have : punched (sa3 ca cb pa) n u = (sa3 ca cb pa, []) := by
        simp [punched, sa3, Ne.symm e]
      rw [this]; exact ⟨rfl, .inl rfl⟩
  · exact ⟨rfl, .inr rfl⟩

theorem punched_b {ca cb pb : Nat} {s : Slot} (hs : s = sb4 ca cb pb ∨ s = sb5 ca cb pb) (n : Nat) (u : Bool) :
    (punched s n u).2 = [] ∧ ((punched s n u).1 = sb4 ca cb pb ∨ (punched s n u).1 = sb5 ca cb pb) := by
  rcases hs with rfl | rfl
  · by_cases e : n = 5
    · subst e; cases u <;> exact ⟨rfl, .inr rfl⟩
    · have : punched (sb4 ca cb pb) n u = (sb4 ca cb pb, []) := by
        simp [punched, sb4, Ne.symm e]
      rw [this]; exact ⟨rfl, .inl rfl⟩
  · exact ⟨rfl, .inr rfl⟩

theorem seg2_step {ca cb pa pb : Nat} {w : World} (h : Seg2 ca cb pa pb w) (t : Act) (ht : t.quiet = true) :
    Seg2 ca cb pa pb (step w t) := by
  cases t with
  | connect i p => cases ht
  | respond i p => cases ht
  | dropped i id => cases ht
  | punched i n u =>
    cases h with
    | p10 h s hs =>
      cases i
      · obtain ⟨q1, q2⟩ := punched_a hs n u
        have := Seg2.p10 h _ q2
        simpa [step, World.did, World.slot, World.setSlot, World.setUp, World.up, q1] using this
      · exact .p10 h s hs
    | p11 h s hs =>
      cases i
      · obtain ⟨q1, q2⟩ := punched_a hs n u
        have := Seg2.p11 h _ q2
        simpa [step, World.did, World.slot, World.setSlot, World.setUp, World.up, q1] using this
      · exact .p11 h s hs
    | p12 h s s' hs hs' =>
      cases i
      · obtain ⟨q1, q2⟩ := punched_a hs n u
        have := Seg2.p12 h _ s' q2 hs'
        simpa [step, World.did, World.slot, World.setSlot, World.setUp, World.up, q1] using this
      · obtain ⟨q1, q2⟩ := punched_b hs' n u
        have := Seg2.p12 h s _ hs q2
        simpa [step, World.did, World.slot, World.setSlot, World.setUp, World.up, q1] using this
    | f10 h => cases i <;> exact .f10 h
    | f11 h => cases i <;> exact .f11 h
    | p4 => cases i <;> exact .p4
    | p5 => cases i <;> exact .p5
    | p6 => cases i <;> exact .p6
    | p7 => cases i <;> exact .p7
    | p8 => cases i <;> exact .p8
    | p9 => cases i <;> exact .p9
  | serve i k =>
    cases h with
    | p10 h s hs => cases i <;> cases k <;> first | exact .p10 h s hs | exact .p11 h s hs
    | p11 h s hs => cases i <;> cases k <;> exact .p11 h s hs
    | p12 h s s' hs hs' => cases i <;> cases k <;> exact .p12 h s s' hs hs'
    | f10 h => cases i <;> cases k <;> first | exact .f10 h | exact .f11 h
    | f11 h => cases i <;> cases k <;> exact .f11 h
    | p4 => cases i <;> cases k <;> first | exact .p4 | exact .p5
    | p5 => cases i <;> cases k <;> exact .p5
    | p6 => cases i <;> cases k <;> first | exact .p6 | exact .p7
    | p7 => cases i <;> cases k <;> exact .p7
    | p8 => cases i <;> cases k <;> first | exact .p8 | exact .p9
    | p9 => cases i <;> cases k <;> exact .p9
  | deliver i k =>
    cases h with
    | p10 h s hs => cases i <;> cases k <;> exact .p10 h s hs
    | p11 h s hs =>
      cases i <;> cases k <;> first | exact .p11 h s hs | exact .p12 h s _ hs (.inl rfl)
    | p12 h s s' hs hs' => cases i <;> cases k <;> exact .p12 h s s' hs hs'
    | f10 h => cases i <;> cases k <;> exact .f10 h
    | f11 h => cases i <;> cases k <;> exact .f11 h
    | p4 => cases i <;> cases k <;> exact .p4
    | p5 => cases i <;> cases k <;> first | exact .p5 | exact .p6
    | p6 => cases i <;> cases k <;> exact .p6
    | p7 => cases i <;> cases k <;> first | exact .p7 | exact .p8
    | p8 => cases i <;> cases k <;> exact .p8
    | p9 =>
      cases i
      · cases k
        · by_cases e : pa = pb
          · subst e
            have := Seg2.p10 (ca := ca) (cb := cb) (rfl : pa = pa) _ (.inl rfl)
            simpa [step, World.did, World.slot, World.setSlot, World.setUp, World.setDown, World.up, World.down, handle,
              onStage1, sa2, sa3, create, cancel, theKey] using this
          · have := Seg2.f10 (ca := ca) (cb := cb) e
            simpa [step, World.did, World.slot, World.setSlot, World.setUp, World.setDown, World.up, World.down, handle,
              onStage1, sa2, saf, create, cancel, fail, tell, e] using this
        · exact .p9
      · cases k <;> exact .p9

theorem seg1_run {ca cb pa : Nat} (l : List Act) (hq : ∀ t ∈ l, t.quiet = true) :
    ∀ w, Seg1 ca cb pa w → Seg1 ca cb pa (run w l) := by
  induction l with
  | nil => intro w h; exact h
  | cons t ts ih =>
    intro w h
    exact ih (fun t ht => hq t (List.mem_cons_of_mem _ ht)) _ (seg1_step h t (hq t (List.mem_cons_self ..)))

theorem seg2_run {ca cb pa pb : Nat} (l : List Act) (hq : ∀ t ∈ l, t.quiet = true) :
    ∀ w, Seg2 ca cb pa pb w → Seg2 ca cb pa pb (run w l) := by
  induction l with
  | nil => intro w h; exact h
  | cons t ts ih =>
    intro w h
    exact ih (fun t ht => hq t (List.mem_cons_of_mem _ ht)) _ (seg2_step h t (hq t (List.mem_cons_self ..)))

theorem run_append (w : World) (l l' : List Act) : run w (l ++ l') = run (run w l) l' := by
  induction l generalizing w with
  | nil => rfl
  | cons t ts ih => exact ih _

/-- Every world of such a run. -/
theorem simple_worlds (ca cb pa pb : Nat) (l l' : List Act) (hq : ∀ t ∈ l, t.quiet = true)
    (hq' : ∀ t ∈ l', t.quiet = true) :
    Seg1 ca cb pa (run (start ca cb) (.connect .a pa :: l ++ .respond .b pb :: l')) ∨
      Seg2 ca cb pa pb (run (start ca cb) (.connect .a pa :: l ++ .respond .b pb :: l')) := by
  rw [List.cons_append, run, run_append, run]
  have h1 : Seg1 ca cb pa (run (step (start ca cb) (.connect .a pa)) l) := seg1_run l hq _ .p1
  generalize run (step (start ca cb) (.connect .a pa)) l = w at h1 ⊢
  cases h1 with
  | p1 => exact .inl (seg1_run l' hq' _ .p1)
  | p2 => exact .inl (seg1_run l' hq' _ .p2)
  | p3 => exact .inr (seg2_run l' hq' _ .p4)

end Verif.PeerKex
