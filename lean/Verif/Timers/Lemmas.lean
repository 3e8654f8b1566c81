import Verif.Timers.Model
/-! Invariants of the timers. -/
namespace Verif.Timers

/-- The group ids that were registered for `cid`, in order. -/
def idsOf (cid : Nat) : List Act → List Nat
  | [] => []
  | .insert idx c _ :: as => if c = cid then idx :: idsOf cid as else idsOf cid as
  | _ :: as => idsOf cid as

/-- Every session begins with these numbers of timers; timer 0 is the only one-shot. -/
def Done (s : St) (n : Nat) : Prop := ∃ c ∈ s.calls, c.ran = n ∧ (c.res = .complete ∨ n = 0)

structure Inv (s : St) : Prop where
  nodup : s.ended = false → (s.expirations.map Exp.key).Nodup
  owner : ∀ e ∈ s.expirations, ∃ t, s.entries.get? e.key = some t ∧ t.n = e.owner
  calls : ∀ c ∈ s.calls, c.owner = c.ran
  alive : s.panicked = false
  pend : s.ended = false → ∀ n < s.next, Done s n ∨ ∃ e ∈ s.expirations, e.owner = n
  back : s.ended = false → ∀ k t, s.entries.get? k = some t → ∃ e ∈ s.expirations, e.key = k
  one : ∀ e ∈ s.expirations, ∀ i c, e.key = .oneshot i c → e.owner = 0

theorem inv_empty : Inv empty := by
  constructor <;> simp [empty]

theorem inv_insertReserved {s : St} (h : Inv s) (he : s.ended = false) {k : Key} (p : Nat)
    (hk : s.entries.get? k = none) (h1 : ∀ i c, k = .oneshot i c → s.next = 0) :
    Inv (insertReserved s k p) := by
  have hne : ∀ e ∈ s.expirations, e.key ≠ k := by
    intro e hm hc
    obtain ⟨t, ht, -⟩ := h.owner e hm
    rw [hc, hk] at ht
    cases ht
  constructor
  · intro _
    simp only [insertReserved, List.map_append, List.map_cons, List.map_nil]
    rw [List.nodup_append]
    refine ⟨h.nodup he, by simp, ?_⟩
    intro a ha b hb
    simp only [List.mem_singleton] at hb
    obtain ⟨e, hm, rfl⟩ := List.mem_map.1 ha
    rw [hb]
    exact hne e hm
  · intro e hm
    simp only [insertReserved, List.mem_append, List.mem_singleton] at hm
    rcases hm with hm | rfl
    · obtain ⟨t, ht, hn⟩ := h.owner e hm
      exact ⟨t, by simp only [insertReserved]; rw [AMap.get?_insert_ne _ _ (hne e hm)]; exact ht, hn⟩
    · exact ⟨_, by simp only [insertReserved]; rw [AMap.get?_insert_self], rfl⟩
  · exact h.calls
  · exact h.alive
  · intro _ n hn
    simp only [insertReserved] at hn
    by_cases hlt : n < s.next
    · rcases h.pend he n hlt with hd | ⟨e, hm, ho⟩
      · exact Or.inl hd
      · exact Or.inr ⟨e, by simp [insertReserved, hm], ho⟩
    · refine Or.inr ⟨{ key := k, deadline := s.now + p, owner := s.next }, by simp [insertReserved], ?_⟩
      show s.next = n
      omega
  · intro _ k' t ht
    by_cases hkk : k' = k
    · exact ⟨{ key := k, deadline := s.now + p, owner := s.next }, by simp [insertReserved], hkk.symm⟩
    · simp only [insertReserved] at ht
      rw [AMap.get?_insert_ne _ _ hkk] at ht
      obtain ⟨e, hm, hke⟩ := h.back he k' t ht
      exact ⟨e, by simp [insertReserved, hm], hke⟩
  · intro e hm i c hke
    simp only [insertReserved, List.mem_append, List.mem_singleton] at hm
    rcases hm with hm | rfl
    · exact h.one e hm i c hke
    · exact h1 i c hke

/-- What an expiry does, when the key is there and is the only one. -/
theorem inv_expire {s : St} (h : Inv s) (he : s.ended = false) {j : Nat} {e : Exp} (hj : s.expirations[j]? = some e)
    (r : Res) : Inv (expire { s with expirations := s.expirations.eraseIdx j } e r) := by
  have hm : e ∈ s.expirations := List.mem_of_getElem? hj
  obtain ⟨t, ht, hn⟩ := h.owner e hm
  have hlt : j < s.expirations.length := by
    rcases Nat.lt_or_ge j s.expirations.length with hl | hl
    · exact hl
    · rw [List.getElem?_eq_none hl] at hj; cases hj
  have hsplit : s.expirations = s.expirations.take j ++ e :: s.expirations.drop (j + 1) := by
    have hj' : s.expirations[j] = e := by
      rw [List.getElem?_eq_getElem hlt] at hj; exact Option.some.inj hj
    rw [← hj', ← List.drop_eq_getElem_cons hlt, List.take_append_drop]
  have herase : s.expirations.eraseIdx j = s.expirations.take j ++ s.expirations.drop (j + 1) :=
    List.eraseIdx_eq_take_drop_succ ..
  have hsub : ∀ x ∈ s.expirations.eraseIdx j, x ∈ s.expirations := fun x hx => List.mem_of_mem_eraseIdx hx
  have hnd := h.nodup he
  have hkeys : ∀ x ∈ s.expirations.eraseIdx j, x.key ≠ e.key := by
    rw [hsplit] at hnd
    simp only [List.map_append, List.map_cons] at hnd
    rw [List.nodup_append, List.nodup_cons] at hnd
    intro x hx hxe
    rw [herase] at hx
    rcases List.mem_append.1 hx with hx | hx
    · exact hnd.2.2 x.key (List.mem_map_of_mem hx) e.key (by simp) hxe
    · exact hnd.2.1.1 (by rw [← hxe]; exact List.mem_map_of_mem hx)
  have hnd' : ((s.expirations.eraseIdx j).map Exp.key).Nodup :=
    List.Nodup.sublist (List.Sublist.map _ (List.eraseIdx_sublist ..)) hnd
  have hin : ∀ x ∈ s.expirations, x = e ∨ x ∈ s.expirations.eraseIdx j := by
    intro x hx
    rw [hsplit] at hx
    rw [herase]
    simp only [List.mem_append, List.mem_cons] at hx ⊢
    rcases hx with hx | rfl | hx
    · exact Or.inr (Or.inl hx)
    · exact Or.inl rfl
    · exact Or.inr (Or.inr hx)
  have hown : ∀ x ∈ s.expirations.eraseIdx j, ∃ t, s.entries.get? x.key = some t ∧ t.n = x.owner :=
    fun x hx => h.owner x (hsub x hx)
  have hown' : ∀ x ∈ s.expirations.eraseIdx j,
      ∃ t, (s.entries.erase e.key).get? x.key = some t ∧ t.n = x.owner := by
    intro x hx
    obtain ⟨t, ht, hn⟩ := hown x hx
    exact ⟨t, by rw [AMap.get?_erase_ne _ (hkeys x hx)]; exact ht, hn⟩
  have hcalls : ∀ c ∈ s.calls ++ [({ owner := e.owner, ran := t.n, at_ := s.now, res := r } : Call)],
      c.owner = c.ran := by
    intro c hc
    rcases List.mem_append.1 hc with hc | hc
    · exact h.calls c hc
    · simp only [List.mem_singleton] at hc
      subst hc
      exact hn.symm
  have hdone : ∀ n, Done s n → ∃ c ∈ s.calls ++ [({ owner := e.owner, ran := t.n, at_ := s.now, res := r } : Call)],
      c.ran = n ∧ (c.res = .complete ∨ n = 0) := by
    rintro n ⟨c, hc, hx⟩
    exact ⟨c, List.mem_append_left _ hc, hx⟩
  have hone : ∀ x ∈ s.expirations.eraseIdx j, ∀ i c, x.key = .oneshot i c → x.owner = 0 :=
    fun x hx => h.one x (hsub x hx)
  -- the timer leaves: what remains pending
  have hpend : (r = .complete ∨ e.owner = 0) → ∀ n < s.next,
      (∃ c ∈ s.calls ++ [({ owner := e.owner, ran := t.n, at_ := s.now, res := r } : Call)],
        c.ran = n ∧ (c.res = .complete ∨ n = 0)) ∨ ∃ x ∈ s.expirations.eraseIdx j, x.owner = n := by
    intro hr n hlt
    rcases h.pend he n hlt with hd | ⟨x, hx, ho⟩
    · exact Or.inl (hdone n hd)
    · rcases hin x hx with rfl | hx
      · refine Or.inl ⟨_, List.mem_append_right _ (List.mem_singleton.2 rfl), by simp [hn, ho], ?_⟩
        rcases hr with hr | hr
        · exact Or.inl hr
        · exact Or.inr (by omega)
      · exact Or.inr ⟨x, hx, ho⟩
  have hback : ∀ k t', (s.entries.erase e.key).get? k = some t' → ∃ x ∈ s.expirations.eraseIdx j, x.key = k := by
    intro k t' hk
    by_cases hke : k = e.key
    · rw [hke, AMap.get?_erase_self] at hk; cases hk
    · rw [AMap.get?_erase_ne _ hke] at hk
      obtain ⟨x, hx, hxk⟩ := h.back he k t' hk
      rcases hin x hx with rfl | hx
      · exact absurd hxk.symm hke
      · exact ⟨x, hx, hxk⟩
  -- the timer goes on with a new deadline
  have hgo : ∀ d, Inv { s with
      expirations := s.expirations.eraseIdx j ++ [{ key := e.key, deadline := d, owner := t.n }]
      calls := s.calls ++ [{ owner := e.owner, ran := t.n, at_ := s.now, res := r }] } := by
    intro d
    constructor
    · intro _
      simp only [List.map_append, List.map_cons, List.map_nil]
      rw [List.nodup_append]
      refine ⟨hnd', by simp, ?_⟩
      intro a ha b hb
      obtain ⟨x, hx, rfl⟩ := List.mem_map.1 ha
      rw [List.mem_singleton.1 hb]
      exact hkeys x hx
    · intro x hx
      rcases List.mem_append.1 hx with hx | hx
      · exact hown x hx
      · rw [List.mem_singleton.1 hx]
        exact ⟨t, ht, rfl⟩
    · exact hcalls
    · exact h.alive
    · intro _ n hlt
      rcases h.pend he n hlt with hd | ⟨x, hx, ho⟩
      · exact Or.inl (hdone n hd)
      · rcases hin x hx with rfl | hx
        · exact Or.inr ⟨_, List.mem_append_right _ (List.mem_singleton.2 rfl), by show t.n = n; rw [hn, ho]⟩
        · exact Or.inr ⟨x, List.mem_append_left _ hx, ho⟩
    · intro _ k t' hk
      obtain ⟨x, hx, hxk⟩ := h.back he k t' hk
      rcases hin x hx with rfl | hx
      · exact ⟨_, List.mem_append_right _ (List.mem_singleton.2 rfl), hxk⟩
      · exact ⟨x, List.mem_append_left _ hx, hxk⟩
    · intro x hx i c hxk
      rcases List.mem_append.1 hx with hx | hx
      · exact hone x hx i c hxk
      · rw [List.mem_singleton.1 hx] at hxk ⊢
        show t.n = 0
        rw [hn]
        exact h.one e hm i c hxk
  unfold expire
  simp only [ht]
  cases hek : e.key with
  | oneshot i c =>
    have h0 : e.owner = 0 := h.one e hm i c hek
    rw [hek] at hown' hback
    simp only
    constructor
    · intro _; exact hnd'
    · exact hown'
    · exact hcalls
    · exact h.alive
    · intro _; exact hpend (Or.inr h0)
    · intro _; exact hback
    · exact hone
  | periodic i c =>
    rw [hek] at hown' hback hgo
    cases r with
    | complete =>
      simp only
      constructor
      · intro _; exact hnd'
      · exact hown'
      · exact hcalls
      · exact h.alive
      · intro _; exact hpend (Or.inl rfl)
      · intro _; exact hback
      · exact hone
    | endSession =>
      simp only
      constructor
      · intro hf; cases hf
      · exact hown
      · exact hcalls
      · exact h.alive
      · intro hf; cases hf
      · intro hf; cases hf
      · exact hone
    | adjust p => simp only; exact hgo _
    | incomplete => simp only; exact hgo _

/-- All keys of the map lie below the next one. -/
def Below (hi : Nat → Nat) (s : St) : Prop :=
  ∀ i cid t, s.entries.get? (.periodic i cid) = some t → i < hi cid + reservedIdx + s.rolling

theorem get?_expire {s : St} {e : Exp} {r : Res} {k : Key} {t : Entry}
    (h : (expire s e r).entries.get? k = some t) : s.entries.get? k = some t := by
  unfold expire at h
  split at h
  · exact h
  · split at h
    · simp only [AMap.get?_erase] at h
      split at h
      · cases h
      · exact h
    · split at h
      · simp only [AMap.get?_erase] at h
        split at h
        · cases h
        · exact h
      all_goals exact h

theorem rolling_expire (s : St) (e : Exp) (r : Res) : (expire s e r).rolling = s.rolling := by
  unfold expire
  split
  · rfl
  · split
    · rfl
    · split <;> rfl

theorem next_expire (s : St) (e : Exp) (r : Res) : (expire s e r).next = s.next := by
  unfold expire
  split
  · rfl
  · split
    · rfl
    · split <;> rfl

/-- A set of inserts whose ids never decrease keeps the invariant. -/
theorem inv_run : ∀ (acts : List Act) (s : St) (hi : Nat → Nat), Inv s → Below hi s → 0 < s.next →
    (∀ cid, (idsOf cid acts).Pairwise (· ≤ ·)) → (∀ cid, ∀ i ∈ idsOf cid acts, hi cid ≤ i) →
    (∀ cid, ∀ i ∈ idsOf cid acts, i + reservedIdx + s.rolling + acts.length ≤ usize) →
    Inv (run s acts) := by
  intro acts
  induction acts with
  | nil => intro s hi h _ _ _ _ _; exact h
  | cons a as ih =>
    intro s hi h hb h0 hp hlo hup
    cases a with
    | tick d =>
      refine ih _ hi ⟨h.nodup, h.owner, h.calls, h.alive, h.pend, h.back, h.one⟩ hb h0 hp hlo ?_
      intro cid i hm
      have := hup cid i hm
      simp only [List.length_cons] at this
      show i + reservedIdx + s.rolling + as.length ≤ usize
      omega
    | fire j r =>
      have hup' : ∀ cid, ∀ i ∈ idsOf cid as, i + reservedIdx + s.rolling + as.length ≤ usize := by
        intro cid i hm
        have := hup cid i hm
        simp only [List.length_cons] at this
        omega
      show Inv (run (step s (.fire j r)) as)
      unfold step
      simp only
      split
      · exact ih s hi h hb h0 hp hlo hup'
      · rename_i hpe
        have he : s.ended = false := by
          cases hx : s.ended
          · rfl
          · simp [hx] at hpe
        split
        · exact ih s hi h hb h0 hp hlo hup'
        · rename_i e hj
          split
          · exact ih s hi h hb h0 hp hlo hup'
          · refine ih _ hi (inv_expire h he hj r) ?_ ?_ hp hlo ?_
            · intro i cid t ht
              rw [rolling_expire]
              have := get?_expire ht
              exact hb i cid t this
            · rw [next_expire]; exact h0
            · rw [rolling_expire]; exact hup'
    | insert idx cid p =>
      show Inv (run (step s (.insert idx cid p)) as)
      unfold step
      simp only
      have hidx : idx ∈ idsOf cid (.insert idx cid p :: as) := by simp [idsOf]
      have hsub : ∀ c i, i ∈ idsOf c as → i ∈ idsOf c (.insert idx cid p :: as) := by
        intro c i hm
        simp only [idsOf]
        split
        · exact List.mem_cons_of_mem _ hm
        · exact hm
      have hp' : ∀ c, (idsOf c as).Pairwise (· ≤ ·) := by
        intro c
        have := hp c
        simp only [idsOf] at this
        split at this
        · exact (List.pairwise_cons.1 this).2
        · exact this
      have hup' : ∀ c, ∀ i ∈ idsOf c as, i + reservedIdx + (s.rolling + 1) + as.length ≤ usize := by
        intro c i hm
        have := hup c i (hsub c i hm)
        simp only [List.length_cons] at this
        omega
      split
      · refine ih s hi h hb h0 hp' (fun c i hm => hlo c i (hsub c i hm)) ?_
        intro c i hm
        have := hup' c i hm
        omega
      · rename_i hpe
        have he : s.ended = false := by
          cases hx : s.ended
          · rfl
          · simp [hx] at hpe
        have hge : hi cid ≤ idx := hlo cid idx hidx
        have hlt : idx + reservedIdx + s.rolling < usize := by
          have := hup cid idx hidx
          simp only [List.length_cons] at this
          omega
        have hkey : ordinaryKey idx cid s.rolling = .periodic (idx + reservedIdx + s.rolling) cid := by
          unfold ordinaryKey
          rw [Nat.mod_eq_of_lt hlt]
        unfold insertOrdinary
        rw [hkey]
        have hnone : s.entries.get? (.periodic (idx + reservedIdx + s.rolling) cid) = none := by
          cases hg : s.entries.get? (.periodic (idx + reservedIdx + s.rolling) cid) with
          | none => rfl
          | some t =>
            have := hb _ _ _ hg
            omega
        have hs : Inv { s with rolling := s.rolling + 1 } :=
          ⟨h.nodup, h.owner, h.calls, h.alive, h.pend, h.back, h.one⟩
        refine ih _ (fun c => if c = cid then idx else hi c)
          (inv_insertReserved hs he p hnone (fun i c hk => by cases hk)) ?_ (Nat.succ_pos _) hp' ?_ hup'
        · intro i c t ht
          simp only [insertReserved] at ht ⊢
          by_cases hk : Key.periodic i c = .periodic (idx + reservedIdx + s.rolling) cid
          · cases hk
            simp only [if_true]
            omega
          · rw [AMap.get?_insert_ne _ _ hk] at ht
            have := hb i c t ht
            by_cases hc : c = cid
            · subst hc
              simp only [if_true]
              omega
            · simp only [hc, if_false]
              omega
        · intro c i hm
          by_cases hc : c = cid
          · subst hc
            simp only [if_true]
            have := hp c
            simp only [idsOf, if_true] at this
            exact (List.pairwise_cons.1 this).1 i hm
          · simp only [hc, if_false]
            exact hlo c i (hsub c i hm)

theorem start_facts (server : Bool) (rp : Nat) : Inv (start server rp) ∧ Below (fun _ => 0) (start server rp) ∧
    0 < (start server rp).next ∧ (start server rp).rolling = 0 := by
  refine ⟨?_, ?_, ?_, ?_⟩
  · have h1 := inv_insertReserved inv_empty rfl (k := .oneshot 0 0) 20000 rfl (fun _ _ _ => rfl)
    cases server
    · have h2 := inv_insertReserved h1 rfl (k := .periodic 1 0) rp rfl (fun _ _ hk => by cases hk)
      have h3 := inv_insertReserved h2 rfl (k := .periodic 2 0) (15 * 60000) rfl (fun _ _ hk => by cases hk)
      exact inv_insertReserved h3 rfl (k := .periodic 3 0) 60000 rfl (fun _ _ hk => by cases hk)
    · have h3 := inv_insertReserved h1 rfl (k := .periodic 2 0) (15 * 60000) rfl (fun _ _ hk => by cases hk)
      exact inv_insertReserved h3 rfl (k := .periodic 3 0) 60000 rfl (fun _ _ hk => by cases hk)
  · intro i cid t ht
    have hm := AMap.get?_mem ht
    have : ∀ x ∈ (start server rp).entries, ∀ i cid, x.1 = .periodic i cid → i < 10 := by
      cases server <;> simp [start, insertReserved, empty, AMap.insert, AMap.erase] <;> omega
    have := this _ hm i cid rfl
    simp only [reservedIdx]
    omega
  · cases server <;> exact Nat.succ_pos _
  · cases server <;> rfl

theorem inv_session (server : Bool) (rp : Nat) (acts : List Act)
    (hp : ∀ cid, (idsOf cid acts).Pairwise (· ≤ ·))
    (hup : ∀ cid, ∀ i ∈ idsOf cid acts, i + 10 + acts.length ≤ 2 ^ 64) :
    Inv (run (start server rp) acts) := by
  obtain ⟨h1, h2, h3, h4⟩ := start_facts server rp
  refine inv_run acts _ (fun _ => 0) h1 h2 h3 hp (fun _ _ _ => Nat.zero_le _) ?_
  intro cid i hm
  rw [h4]
  exact hup cid i hm

/-! ### A timer that was overwritten -/

/-- Nothing in the map is timer `n`, and no later timer will get this number. -/
def Lost (n : Nat) (s : St) : Prop :=
  (∀ x ∈ s.entries, x.2.n ≠ n) ∧ n < s.next ∧ ∀ c ∈ s.calls, c.ran ≠ n

theorem lost_step {n : Nat} {s : St} (h : Lost n s) (a : Act) : Lost n (step s a) := by
  obtain ⟨h1, h2, h3⟩ := h
  cases a with
  | tick d => exact ⟨h1, h2, h3⟩
  | insert idx cid p =>
    unfold step
    simp only
    split
    · exact ⟨h1, h2, h3⟩
    · refine ⟨?_, Nat.lt_succ_of_lt h2, h3⟩
      intro x hx
      simp only [insertOrdinary, insertReserved, AMap.insert, AMap.erase, List.mem_cons, List.mem_filter] at hx
      rcases hx with rfl | hx
      · simp only
        omega
      · exact h1 x hx.1
  | fire j r =>
    unfold step
    simp only
    split
    · exact ⟨h1, h2, h3⟩
    · split
      · exact ⟨h1, h2, h3⟩
      · rename_i e hj
        split
        · exact ⟨h1, h2, h3⟩
        · have herase : ∀ k, ∀ x ∈ s.entries.erase k, x.2.n ≠ n := by
            intro k x hx
            simp only [AMap.erase, List.mem_filter] at hx
            exact h1 x hx.1
          unfold expire
          simp only
          split
          · exact ⟨h1, h2, h3⟩
          · rename_i t ht
            have hc : ∀ c ∈ s.calls ++ [({ owner := e.owner, ran := t.n, at_ := s.now, res := r } : Call)],
                c.ran ≠ n := by
              intro c hc
              rcases List.mem_append.1 hc with hc | hc
              · exact h3 c hc
              · rw [List.mem_singleton.1 hc]
                exact h1 _ (AMap.get?_mem ht)
            split
            · exact ⟨herase _, h2, hc⟩
            · split
              · exact ⟨herase _, h2, hc⟩
              · exact ⟨h1, h2, hc⟩
              · exact ⟨h1, h2, hc⟩
              · exact ⟨h1, h2, hc⟩

theorem lost_run {n : Nat} : ∀ (as : List Act) (s : St), Lost n s → Lost n (run s as) := by
  intro as
  induction as with
  | nil => intro s h; exact h
  | cons a as ih => intro s h; exact ih _ (lost_step h a)

/-! ### Not before the deadline -/

/-- Timer `n` is not called before `d`. -/
def NotBefore (n d : Nat) (s : St) : Prop :=
  (∀ e ∈ s.expirations, ∀ t, s.entries.get? e.key = some t → t.n = n → d ≤ e.deadline) ∧
    (∀ c ∈ s.calls, c.ran = n → d ≤ c.at_) ∧ n < s.next

theorem notBefore_step {n d : Nat} {s : St} (h : NotBefore n d s) (a : Act) : NotBefore n d (step s a) := by
  obtain ⟨h1, h2, h3⟩ := h
  cases a with
  | tick _ => exact ⟨h1, h2, h3⟩
  | insert idx cid p =>
    unfold step
    simp only
    split
    · exact ⟨h1, h2, h3⟩
    · refine ⟨?_, h2, Nat.lt_succ_of_lt h3⟩
      intro e hm t ht hn
      simp only [insertOrdinary, insertReserved] at hm ht
      rw [AMap.get?_insert] at ht
      split at ht
      · cases ht
        simp only at hn
        omega
      · rename_i hk
        rcases List.mem_append.1 hm with hm | hm
        · exact h1 e hm t ht hn
        · rw [List.mem_singleton.1 hm] at hk
          exact absurd rfl hk
  | fire j r =>
    unfold step
    simp only
    split
    · exact ⟨h1, h2, h3⟩
    · split
      · exact ⟨h1, h2, h3⟩
      · rename_i e hj
        split
        · exact ⟨h1, h2, h3⟩
        · rename_i hdue
          have hsub : ∀ x ∈ s.expirations.eraseIdx j, x ∈ s.expirations := fun x hx => List.mem_of_mem_eraseIdx hx
          have hm : e ∈ s.expirations := List.mem_of_getElem? hj
          unfold expire
          simp only
          split
          · exact ⟨fun x hx => h1 x (hsub x hx), h2, h3⟩
          · rename_i t ht
            have hnow : t.n = n → d ≤ s.now := fun hn => by
              have := h1 e hm t ht hn
              omega
            have hc : ∀ c ∈ s.calls ++ [({ owner := e.owner, ran := t.n, at_ := s.now, res := r } : Call)],
                c.ran = n → d ≤ c.at_ := by
              intro c hc
              rcases List.mem_append.1 hc with hc | hc
              · exact h2 c hc
              · rw [List.mem_singleton.1 hc]
                exact hnow
            have herase : ∀ x ∈ s.expirations.eraseIdx j, ∀ t', (s.entries.erase e.key).get? x.key = some t' →
                t'.n = n → d ≤ x.deadline := by
              intro x hx t' ht'
              rw [AMap.get?_erase] at ht'
              split at ht'
              · cases ht'
              · exact h1 x (hsub x hx) t' ht'
            have hgo : ∀ p, ∀ x ∈ s.expirations.eraseIdx j ++ [({ key := e.key, deadline := s.now + p, owner := t.n } : Exp)],
                ∀ t', s.entries.get? x.key = some t' → t'.n = n → d ≤ x.deadline := by
              intro p x hx t' ht' hn
              rcases List.mem_append.1 hx with hx | hx
              · exact h1 x (hsub x hx) t' ht' hn
              · rw [List.mem_singleton.1 hx] at ht' ⊢
                simp only at ht'
                rw [ht] at ht'
                cases ht'
                have := hnow hn
                simp only
                omega
            split
            · rename_i hek
              rw [hek] at herase
              refine ⟨?_, hc, h3⟩
              rw [hek]
              exact herase
            · rename_i hek
              rw [hek] at herase hgo
              split
              · refine ⟨?_, hc, h3⟩
                rw [hek]
                exact herase
              · exact ⟨fun x hx => h1 x (hsub x hx), hc, h3⟩
              · refine ⟨?_, hc, h3⟩
                rw [hek]
                exact hgo _
              · refine ⟨?_, hc, h3⟩
                rw [hek]
                exact hgo _

theorem notBefore_run {n d : Nat} : ∀ (as : List Act) (s : St), NotBefore n d s → NotBefore n d (run s as) := by
  intro as
  induction as with
  | nil => intro s h; exact h
  | cons a as ih => intro s h; exact ih _ (notBefore_step h a)

/-- Every number in the state has been given out. -/
def Old (s : St) : Prop :=
  (∀ x ∈ s.expirations, x.owner < s.next) ∧ (∀ x ∈ s.entries, x.2.n < s.next) ∧ ∀ c ∈ s.calls, c.ran < s.next

theorem old_step {s : St} (h : Old s) (a : Act) : Old (step s a) := by
  obtain ⟨h1, h2, h3⟩ := h
  cases a with
  | tick d => exact ⟨h1, h2, h3⟩
  | insert i c q =>
    unfold step
    simp only
    split
    · exact ⟨h1, h2, h3⟩
    · refine ⟨?_, ?_, fun x hx => Nat.lt_succ_of_lt (h3 x hx)⟩
      · intro x hx
        rcases List.mem_append.1 hx with hx | hx
        · exact Nat.lt_succ_of_lt (h1 x hx)
        · rw [List.mem_singleton.1 hx]; exact Nat.lt_succ_self _
      · intro x hx
        simp only [insertOrdinary, insertReserved, AMap.insert, AMap.erase, List.mem_cons,
          List.mem_filter] at hx
        rcases hx with rfl | hx
        · exact Nat.lt_succ_self _
        · exact Nat.lt_succ_of_lt (h2 x hx.1)
  | fire j r =>
    unfold step
    simp only
    split
    · exact ⟨h1, h2, h3⟩
    · split
      · exact ⟨h1, h2, h3⟩
      · rename_i e hj
        split
        · exact ⟨h1, h2, h3⟩
        · have hs : ∀ x ∈ s.expirations.eraseIdx j, x.owner < s.next :=
            fun x hx => h1 x (List.mem_of_mem_eraseIdx hx)
          have her : ∀ k, ∀ x ∈ s.entries.erase k, x.2.n < s.next := by
            intro k x hx
            simp only [AMap.erase, List.mem_filter] at hx
            exact h2 x hx.1
          unfold expire
          simp only
          split
          · exact ⟨hs, h2, h3⟩
          · rename_i t hget
            have hgo : ∀ k q, ∀ x ∈ s.expirations.eraseIdx j ++ [({ key := k, deadline := q, owner := t.n } : Exp)],
                x.owner < s.next := by
              intro k q x hx
              rcases List.mem_append.1 hx with hx | hx
              · exact hs x hx
              · rw [List.mem_singleton.1 hx]
                exact h2 _ (AMap.get?_mem hget)
            have hc : ∀ x ∈ s.calls ++ [({ owner := e.owner, ran := t.n, at_ := s.now, res := r } : Call)],
                x.ran < s.next := by
              intro x hx
              rcases List.mem_append.1 hx with hx | hx
              · exact h3 x hx
              · rw [List.mem_singleton.1 hx]
                exact h2 _ (AMap.get?_mem hget)
            split
            · exact ⟨hs, her _, hc⟩
            · split
              · exact ⟨hs, her _, hc⟩
              · exact ⟨hs, h2, hc⟩
              · exact ⟨hgo _ _, h2, hc⟩
              · exact ⟨hgo _ _, h2, hc⟩

theorem old_run : ∀ (as : List Act) (s : St), Old s → Old (run s as) := by
  intro as
  induction as with
  | nil => intro s h; exact h
  | cons a as ih => intro s h; exact ih _ (old_step h a)

theorem old_start (server : Bool) (rp : Nat) : Old (start server rp) := by
  cases server <;> simp [Old, start, insertReserved, empty, AMap.insert, AMap.erase]

theorem run_append : ∀ (as bs : List Act) (s : St), run s (as ++ bs) = run (run s as) bs := by
  intro as
  induction as with
  | nil => intro _ _; rfl
  | cons a as ih => intro bs s; exact ih bs _

end Verif.Timers
