import Verif.Rekey.Keep
/-
The invariant is preserved while the non-initiator drives.
-/
namespace Verif.Rekey

variable {maxR : Nat}

theorem Quiet.keep {s : Sys} (hw : Win s.i s.n) (h : Quiet s) (a : Act) : Inv maxR (coopStep maxR s a) := by
  obtain ⟨i, n, toI, toN⟩ := s
  have h0 : Inv maxR ⟨i, n, toI, toN⟩ := ⟨hw, .quiet h⟩
  obtain ⟨ver, mI, mN, old, cN, rm, hI, np, nz, bud⟩ := h
  dsimp only at hw ver mI mN old cN rm hI np nz bud
  have kI : (i.keys i.latest).isSome = true := hw.keyI (by omega)
  have kN : (n.keys n.latest).isSome = true := hw.keyN (by omega)
  rcases a with ⟨_ | _, fr⟩ | ⟨_ | _, fr⟩
  · -- the background task of the non-initiator
    apply step_bgN h0
    intro _
    -- with a proposal of its own
    have busy : n.tog = true → Busy n → ¬ Free n →
        (∀ n', Same n n' → Busy n' → NP n.latest n' toI) →
        ∃ r, bMacro maxR false n toN fr = r ∧ Inv maxR ⟨i, r.1, toI ++ r.2.2, r.2.1⟩ := by
      intro hg hb hf hnp
      have hnr : n.b ≠ .retain := by
        rcases hb.1 with h | ⟨a, h⟩ | h <;> rw [h] <;> intro h' <;> cases h'
      have nz' := nz.weaken (q' := False) (fun h => h.elim)
      have bud' : n.skipped + (inProc n ++ (toN ++ [])).length + budget i ≤ 2 := by
        simpa [nskip, hnr] using bud
      by_cases hin : n.b = .recv ∧ toN = []
      · obtain ⟨hb', e⟩ := hin
        subst e
        refine ⟨_, bMacro_recv_nil hb', ?_⟩
        simp only [List.append_nil]
        exact h0
      · obtain ⟨n', inn', hm, hs, hb', hc', hn', hbud'⟩ := busy_bg (maxR := maxR) (fr := fr) (tl := []) (y := [])
          kN ver (rm hnr) hg hb cN (by simpa using nz') bud' (fun h e => hin ⟨h, e⟩)
        simp only [List.append_nil] at hm hn' hbud'
        refine ⟨_, hm, ?_⟩
        simp only [List.append_nil]
        have hnr' : n'.b ≠ .retain := by
          rcases hb'.1 with h | ⟨a, h⟩ | h <;> rw [h] <;> intro h' <;> cases h'
        refine ⟨hw.same rfl rfl rfl (Nat.le_refl _) hs.keys hs.oldest hs.most (Nat.le_of_eq hs.latest.symm),
          .quiet ⟨?_, ?_, ?_, ?_, ?_, ?_, hI, ?_, ?_, ?_⟩⟩
        · dsimp only; rw [hs.latest]; exact ver
        · dsimp only; rw [hs.latest]; exact mI
        · dsimp only; rw [hs.latest, hs.most]; exact mN
        · dsimp only; rw [hs.oldest]; exact old
        · dsimp only; rw [hs.latest]; exact hc'
        · dsimp only; intro _; rw [hs.latest, hs.rmeta]; exact rm hnr
        · dsimp only; rw [hs.latest]; exact hnp n' hs hb'
        · refine hn'.weaken ?_
          intro hf'
          apply hf
          unfold Free at hf' ⊢
          dsimp only at hf'
          rw [hs.t, hs.declared, hs.latest] at hf'
          exact hf'
        · dsimp only
          simpa [nskip, hnr'] using hbud'
    cases np with
    | none ht hg hd hc hb hr =>
      have hf : Free n := ⟨ht, hd⟩
      rcases hb with hb | ⟨a, hb⟩
      · have e : inProc n = [] := inProc_recv hb
        rw [e, List.nil_append] at nz bud
        have hns : nskip n = n.skipped := by simp [nskip, hb]
        rw [hns] at bud
        cases toN with
        | nil =>
          refine ⟨_, bMacro_recv_nil hb, ?_⟩
          simp only [List.append_nil]
          exact h0
        | cons m tl =>
          simp only [List.length_cons] at bud
          have hs : n.skipped + 1 < maxStale := by unfold maxStale; omega
          rcases nz.head with ⟨a, u, hm, hu⟩ | ⟨a, hm, htr, hfr⟩
          · subst hm
            refine ⟨_, bMacro_a2b_stale hb kN (by omega) hs, ?_⟩
            simp only [List.append_nil]
            refine ⟨hw.same rfl rfl rfl (Nat.le_refl _) rfl rfl rfl (Nat.le_refl _),
              .quiet ⟨ver, mI, mN, old, ?_, ?_, hI, ?_, ?_, ?_⟩⟩
            · intro k hk
              exact del_none _ (cN k hk)
            · intro _; exact rm (by rw [hb]; intro h; cases h)
            · refine .none ht hg hd ?_ (Or.inl rfl) hr
              exact del_none _ hc
            · rw [inProc_recv rfl, List.nil_append]
              exact (nz.drop_old hu).weaken (fun _ => hf)
            · rw [inProc_recv rfl, List.nil_append]
              simp [nskip]
              omega
          · subst hm
            subst htr
            refine ⟨_, bMacro_a2b_ok hb kN ver (by rw [ver]; exact rm (by rw [hb]; intro h; cases h))
              (by intro h; rw [hr] at h; cases h), ?_⟩
            simp only [List.append_nil]
            refine ⟨hw.same rfl rfl rfl (Nat.le_refl _) rfl rfl rfl (Nat.le_refl _),
              .quiet ⟨ver, mI, mN, old, cN, ?_, hI, ?_, ?_, ?_⟩⟩
            · intro _; exact rm (by rw [hb]; intro h; cases h)
            · exact .none ht hg hd hc (Or.inr ⟨a, rfl⟩) hr
            · simp only [inProc, List.append_nil]
              rw [← ver]
              exact nz.weaken (fun _ => hf)
            · simp [inProc, nskip]
              simp at bud
              omega
      · have e : inProc n = [.aliceToBob a n.latest n.latest] := by simp [inProc, hb]
        rw [e] at nz
        rcases nz.head with ⟨a', u, hm, hu⟩ | ⟨a', hm, htr, hti, hci, hdi, hL⟩
        · injection hm with _ hm _; omega
        · injection hm with hm _ _
          subst hm
          have htr' : toN = [] := by simpa using htr
          subst htr'
          have hbi : i.b = .recv ∧ i.role = .idle := by
            rcases hI with h | h
            · exact ⟨h.1, h.2.1⟩
            · exact absurd (Or.inr h.1) hL
          refine ⟨_, bMacro_bToggle_commit hb (Or.inl hg), ?_⟩
          simp only [List.append_nil]
          refine ⟨hw.same rfl rfl rfl (Nat.le_refl _) rfl rfl rfl (Nat.le_refl _),
            .ibob ⟨⟨hti, hdi, ?_, ?_, ht⟩, ver.symm, ?_, old, ?_, rfl, ?_, rfl, rfl, hbi.1, hbi.2, ?_⟩⟩
          · intro k hk
            dsimp only at hk ⊢
            rcases Nat.lt_or_ge i.latest k with hlt | hge
            · exact nz.hi k (by omega)
            · apply Classical.byContradiction
              intro hne
              obtain ⟨u, c, e, _⟩ := nz.lo hf hbi.1 k hge hne
              rw [hti] at e; cases e
          · intro k
            dsimp only
            by_cases hk : k = n.latest + 1
            · rw [hk]; exact hc
            · exact cN k hk
          · dsimp only; omega
          · dsimp only; rw [ver]; exact rm (by rw [hb]; intro h; cases h)
          · dsimp only; omega
          · refine ⟨a, hci, .start (Or.inr rfl) hr ?_, ?_⟩
            · dsimp only; omega
            · intro h; cases h
    | fin ht hd hc hb hr =>
      refine ⟨_, bMacro_retain hb kN, ?_⟩
      simp only [List.append_nil]
      have e : inProc n = [] := by simp [inProc, hb]
      rw [e, List.nil_append] at nz bud
      refine ⟨hw.same rfl rfl rfl (Nat.le_refl _) rfl rfl rfl (Nat.le_refl _),
        .quiet ⟨ver, mI, mN, old, ?_, fun _ => rfl, hI, ?_, ?_, ?_⟩⟩
      · intro k hk
        dsimp only
        rw [cN k hk]
        simp
      · refine .none ht rfl hd ?_ (Or.inl rfl) rfl
        simpa using hc
      · rw [inProc_recv rfl, List.nil_append]
        exact nz.weaken id
      · rw [inProc_recv rfl, List.nil_append]
        simp [nskip, hb] at bud ⊢
        omega
    | t8 c ht hg hd hc hb =>
      refine busy hg hb (fun hf => ?_) (fun n' hs hb' => ?_)
      · rw [hf.1] at ht; cases ht
      · exact .t8 c (by rw [hs.t]; exact ht) (by rw [hs.tog]; exact hg) (by rw [hs.declared]; exact hd)
          (by rw [hs.cons]; exact hc) hb'
    | t11 c ht hg hd hc hb =>
      refine busy hg hb (fun hf => ?_) (fun n' hs hb' => ?_)
      · rw [hf.1] at ht; cases ht
      · exact .t11 c (by rw [hs.t]; exact ht) (by rw [hs.tog]; exact hg) (by rw [hs.declared]; exact hd)
          (by rw [hs.cons]; exact hc) hb'
    | t15 c ht hg hd hc hb =>
      refine busy hg hb (fun hf => ?_) (fun n' hs hb' => ?_)
      · rw [hf.1] at ht; cases ht
      · exact .t15 c (by rw [hs.t]; exact ht) (by rw [hs.tog]; exact hg) (by rw [hs.declared]; exact hd)
          (by rw [hs.cons]; exact hc) hb'
    | out c ht hg hd hc hb =>
      refine busy hg hb (fun hf => ?_) (fun n' hs hb' => ?_)
      · have := hf.2; omega
      · exact .out c (by rw [hs.t]; exact ht) (by rw [hs.tog]; exact hg) (by rw [hs.declared]; exact hd)
          (by rw [hs.cons]; exact hc) hb'
  · -- the background task of the initiator
    apply step_bgI h0
    intro he
    rcases hI with ⟨hb, hr, hrm⟩ | ⟨hb, hr⟩
    · have empty : toI = [] → ∃ r, bMacro maxR true i toI fr = r ∧ Inv maxR ⟨r.1, n, r.2.1, toN ++ r.2.2⟩ := by
        intro e
        subst e
        refine ⟨_, bMacro_recv_nil hb, ?_⟩
        simp only [List.append_nil]
        exact h0
      cases np with
      | out c ht hg hd hc hbn =>
        refine ⟨_, bMacro_a2b_ok hb kI ver.symm (by rw [hrm]; exact ver) (by intro h; rw [hr] at h; cases h), ?_⟩
        simp only [List.append_nil]
        have hnr : n.b ≠ .retain := by
          rcases hbn.1 with h | ⟨a, h⟩ | h <;> rw [h] <;> intro h' <;> cases h'
        refine ⟨hw.same rfl rfl rfl (Nat.le_refl _) rfl rfl rfl (Nat.le_refl _),
          .bob ⟨ver, mN, old, cN, rm hnr, ?_, rfl, ⟨c, ⟨ht, hg, hd, hc, hbn⟩, .start (Or.inl rfl) hr mI⟩, ?_, ?_⟩⟩
        · dsimp only; rw [hrm]; exact ver
        · refine noise_bg nz rfl rfl rfl rfl ?_
          unfold Late; simp
        · dsimp only
          have := budget_congr (x := i) (x' := { i with b := BPc.bToggle c }) rfl rfl rfl
          rw [this]
          simpa [nskip, hnr] using bud
      | none => exact empty rfl
      | fin => exact empty rfl
      | t8 => exact empty rfl
      | t11 => exact empty rfl
      | t15 => exact empty rfl
    · refine ⟨_, bMacro_retain hb kI, ?_⟩
      simp only [List.append_nil]
      have hx := bgEnabled_check he (by rw [hb]; rfl)
      obtain ⟨nz', hbud⟩ := noise_retain (x' := { i with
        cons := fun j => if i.latest < j then i.cons j else none, role := .idle, tog := false
        rmeta := i.latest, skipped := 0, b := .recv }) nz (Or.inr hb) rfl rfl rfl rfl rfl hx
      refine ⟨hw.same rfl rfl rfl (Nat.le_refl _) rfl rfl rfl (Nat.le_refl _),
        .quiet ⟨ver, mI, mN, old, cN, rm, Or.inl ⟨rfl, rfl, rfl⟩, np, nz', ?_⟩⟩
      dsimp only
      rw [hbud]
      exact bud
  · -- the trigger task of the non-initiator
    apply step_trigN
    obtain ⟨np', f, hc, hf⟩ := np_trig (fr := fr) np rfl kN
    refine ⟨hw.frameN f, .quiet ⟨?_, ?_, ?_, ?_, ?_, ?_, hI, ?_, ?_, ?_⟩⟩
    · dsimp only; rw [f.latest]; exact ver
    · dsimp only; rw [f.latest]; exact mI
    · dsimp only; rw [f.latest, f.most]; exact mN
    · dsimp only; rw [f.oldest]; exact old
    · dsimp only; rw [f.latest]; intro k hk; rw [hc k hk]; exact cN k hk
    · dsimp only; rw [f.latest, f.b, f.rmeta]; exact rm
    · dsimp only; rw [f.latest]; exact np'
    · dsimp only
      rw [inProc_congr f.b f.latest]
      exact nz.weaken hf
    · dsimp only
      rw [inProc_congr f.b f.latest]
      unfold nskip
      rw [f.b, f.skipped]
      exact bud
  · -- the trigger task of the initiator
    apply step_trigI
    obtain ⟨nz', f, hb, _⟩ := noise_trig (fr := fr) nz kI hI.late
    rw [List.append_assoc] at nz' hb
    refine ⟨hw.frameI f, .quiet ⟨?_, ?_, mN, ?_, cN, rm, hI.frame f, np, nz', ?_⟩⟩
    · dsimp only; rw [f.latest]; exact ver
    · dsimp only; rw [f.most]; exact mI
    · dsimp only; rw [f.oldest]; exact old
    · dsimp only; omega

theorem Bob.keep {s : Sys} (hw : Win s.i s.n) (h : Bob s) (a : Act) : Inv maxR (coopStep maxR s a) := by
  obtain ⟨i, n, toI, toN⟩ := s
  have h0 : Inv maxR ⟨i, n, toI, toN⟩ := ⟨hw, .bob h⟩
  obtain ⟨ver, mN, old, cN, rm, rmI, eI, ⟨c, ⟨ht, hg, hd, hc, hb⟩, an⟩, nz, bud⟩ := h
  dsimp only at hw ver mN old cN rm rmI eI ht hg hd hc hb an nz bud
  subst eI
  have kI : (i.keys i.latest).isSome = true := hw.keyI (by have := an.most; omega)
  have kN : (n.keys n.latest).isSome = true := hw.keyN (by omega)
  rcases a with ⟨_ | _, fr⟩ | ⟨_ | _, fr⟩
  · apply step_bgN h0
    intro _
    by_cases hin : n.b = .recv ∧ toN = []
    · obtain ⟨hb', e⟩ := hin
      subst e
      refine ⟨_, bMacro_recv_nil hb', ?_⟩
      simp only [List.append_nil]
      exact h0
    · obtain ⟨n', inn', hm, hs, hb', hc', hn', hbud'⟩ := busy_bg (maxR := maxR) (fr := fr) (tl := []) (y := [])
        kN ver rm hg hb cN (by simpa using nz) (by simpa using bud) (fun h e => hin ⟨h, e⟩)
      simp only [List.append_nil] at hm hn' hbud'
      refine ⟨_, hm, ?_⟩
      simp only [List.append_nil]
      refine ⟨hw.same rfl rfl rfl (Nat.le_refl _) hs.keys hs.oldest hs.most (Nat.le_of_eq hs.latest.symm),
        .bob ⟨?_, ?_, ?_, ?_, ?_, ?_, rfl, ⟨c, ⟨?_, ?_, ?_, ?_, hb'⟩, ?_⟩, hn', hbud'⟩⟩
      · dsimp only; rw [hs.latest]; exact ver
      · dsimp only; rw [hs.latest, hs.most]; exact mN
      · dsimp only; rw [hs.oldest]; exact old
      · dsimp only; rw [hs.latest]; exact hc'
      · dsimp only; rw [hs.latest, hs.rmeta]; exact rm
      · dsimp only; rw [hs.latest]; exact rmI
      · dsimp only; rw [hs.t]; exact ht
      · dsimp only; rw [hs.tog]; exact hg
      · dsimp only; rw [hs.latest, hs.declared]; exact hd
      · dsimp only; rw [hs.latest, hs.cons]; exact hc
      · dsimp only; rw [hs.latest]; exact an
  · apply step_bgI h0
    intro _
    rcases an with ⟨hbi, hr, hm⟩ | ⟨b, hbi, hr, hm, hk⟩ | ⟨b, hbi, hr, hm, hk⟩
    · rcases hbi with hbi | hbi
      · refine ⟨_, bMacro_bToggle_commit hbi (Or.inr rfl), ?_⟩
        simp only [List.append_nil]
        refine ⟨hw.same rfl rfl rfl (Nat.le_refl _) rfl rfl rfl (Nat.le_refl _),
          .bob ⟨ver, mN, old, cN, rm, rmI, rfl, ⟨c, ⟨ht, hg, hd, hc, hb⟩, .start (Or.inr rfl) hr hm⟩, ?_, ?_⟩⟩
        · refine noise_bg nz rfl rfl rfl rfl ?_
          unfold Late; simp
        · exact bud
      · refine ⟨_, bMacro_bCommit hbi, ?_⟩
        simp only [List.append_nil]
        refine ⟨hw.commitI (k := ⟨c, fr⟩) (by omega) rfl rfl rfl rfl ?_,
          .bob ⟨ver, mN, old, cN, rm, rmI, rfl, ⟨c, ⟨ht, hg, hd, hc, hb⟩, .done fr rfl hr ?_ ?_⟩, ?_, ?_⟩⟩
        · intro q hq
          exact absurd hq (hw.none (by omega) q)
        · dsimp only; omega
        · dsimp only; rw [hm]; exact put_same _ _ _
        · refine noise_bg nz rfl rfl rfl rfl ?_
          unfold Late; simp
        · exact bud
    · refine ⟨_, bMacro_bToggle2 hbi, ?_⟩
      simp only [List.append_nil]
      refine ⟨hw.same rfl rfl rfl (Nat.le_refl _) rfl rfl rfl (Nat.le_refl _),
        .bob ⟨ver, mN, old, cN, rm, rmI, rfl, ⟨c, ⟨ht, hg, hd, hc, hb⟩, .send b rfl rfl hm hk⟩, ?_, ?_⟩⟩
      · refine noise_bg nz rfl rfl rfl rfl ?_
        unfold Late; simp
      · exact bud
    · refine ⟨_, bMacro_bSend hbi, ?_⟩
      refine ⟨hw.same rfl rfl rfl (Nat.le_refl _) rfl rfl rfl (Nat.le_refl _),
        .ans ⟨ver, mN, old, cN, rm, rfl, ⟨c, b, toN, [], ⟨ht, hg, hd, hc, hb⟩, ⟨rfl, hr, hm, hk⟩, ?_, ?_, ?_⟩⟩⟩
      · dsimp only; rw [rmI]
      · rw [List.append_nil]
        refine noise_bg nz rfl rfl rfl rfl ?_
        unfold Late; simp
      · rw [List.append_nil]
        exact bud
  · exact step_trigN_refused ht (Or.inl (by omega)) h0
  · apply step_trigI
    obtain ⟨nz', f, hbu, _⟩ := noise_trig (fr := fr) nz kI (fun _ => an.notLate)
    rw [List.append_assoc] at nz' hbu
    refine ⟨hw.frameI f, .bob ⟨?_, mN, ?_, cN, rm, ?_, rfl, ⟨c, ⟨ht, hg, hd, hc, hb⟩, an.frame f⟩, nz', ?_⟩⟩
    · dsimp only; rw [f.latest]; exact ver
    · dsimp only; rw [f.oldest]; exact old
    · dsimp only; rw [f.rmeta]; exact rmI
    · dsimp only; omega

theorem Ans.keep {s : Sys} (hw : Win s.i s.n) (h : Ans s) (a : Act) : Inv maxR (coopStep maxR s a) := by
  obtain ⟨i, n, toI, toN⟩ := s
  have h0 : Inv maxR ⟨i, n, toI, toN⟩ := ⟨hw, .ans h⟩
  obtain ⟨ver, mN, old, cN, rm, eI, ⟨c, b, x, y, ⟨ht, hg, hd, hc, hb⟩, an, eN, nz, bud⟩⟩ := h
  dsimp only at hw ver mN old cN rm eI ht hg hd hc hb an eN nz bud
  subst eI
  subst eN
  have kI : (i.keys i.latest).isSome = true := hw.keyI (by have := an.hm; omega)
  have kN : (n.keys n.latest).isSome = true := hw.keyN (by omega)
  rcases a with ⟨_ | _, fr⟩ | ⟨_ | _, fr⟩
  · apply step_bgN h0
    intro _
    by_cases hin : n.b = .recv ∧ x = []
    · obtain ⟨hb', e⟩ := hin
      subst e
      refine ⟨_, bMacro_b2a_ok hb' rfl (fun h => absurd h hb.2) hc, ?_⟩
      simp only [List.append_nil]
      rw [inProc_recv hb'] at nz bud
      refine ⟨hw.same rfl rfl rfl (Nat.le_refl _) rfl rfl rfl (Nat.le_refl _),
        .lead ⟨ver, ?_, rm, rfl, ⟨ht, hd, del_same _ _, rfl⟩, ⟨c, b, an, .commit (Or.inl rfl) mN old⟩, nz, bud⟩⟩
      intro k hk
      exact del_none _ (cN k hk)
    · obtain ⟨n', inn', hm, hs, hb', hc', hn', hbud'⟩ := busy_bg (maxR := maxR) (fr := fr)
        (tl := .bobToAlice c b n.latest :: y) (y := y)
        kN ver rm hg hb cN nz bud (fun h e => hin ⟨h, e⟩)
      refine ⟨_, hm, ?_⟩
      simp only [List.append_nil]
      refine ⟨hw.same rfl rfl rfl (Nat.le_refl _) hs.keys hs.oldest hs.most (Nat.le_of_eq hs.latest.symm),
        .ans ⟨?_, ?_, ?_, ?_, ?_, rfl, ⟨c, b, inn', y, ⟨?_, ?_, ?_, ?_, hb'⟩, ?_, ?_, hn', hbud'⟩⟩⟩
      · dsimp only; rw [hs.latest]; exact ver
      · dsimp only; rw [hs.latest, hs.most]; exact mN
      · dsimp only; rw [hs.oldest]; exact old
      · dsimp only; rw [hs.latest]; exact hc'
      · dsimp only; rw [hs.latest, hs.rmeta]; exact rm
      · dsimp only; rw [hs.t]; exact ht
      · dsimp only; rw [hs.tog]; exact hg
      · dsimp only; rw [hs.latest, hs.declared]; exact hd
      · dsimp only; rw [hs.latest, hs.cons]; exact hc
      · dsimp only; rw [hs.latest]; exact an
      · dsimp only; rw [hs.latest]
  · exact step_bgI_nil an.hb h0
  · exact step_trigN_refused ht (Or.inl (by omega)) h0
  · apply step_trigI
    obtain ⟨nz', f, hbu, _⟩ := noise_trig (fr := fr) nz kI (fun _ => an.notLate)
    rw [List.append_assoc, List.append_assoc] at nz' hbu
    refine ⟨hw.frameI f, .ans ⟨?_, mN, ?_, cN, rm, rfl,
      ⟨c, b, x, y ++ (tMacro i fr).2, ⟨ht, hg, hd, hc, hb⟩, an.frame f, ?_, nz', ?_⟩⟩⟩
    · dsimp only; rw [f.latest]; exact ver
    · dsimp only; rw [f.oldest]; exact old
    · simp
    · dsimp only; omega

theorem Lead.keep (hR : 3 ≤ maxR) {s : Sys} (hw : Win s.i s.n) (h : Lead maxR s) (a : Act) :
    Inv maxR (coopStep maxR s a) := by
  obtain ⟨i, n, toI, toN⟩ := s
  have h0 : Inv maxR ⟨i, n, toI, toN⟩ := ⟨hw, .lead h⟩
  obtain ⟨ver, cN, rm, eI, ⟨ht, hd, hc, hr⟩, ⟨c, b, an, ld⟩, nz, bud⟩ := h
  dsimp only at hw ver cN rm eI ht hd hc hr an ld nz bud
  subst eI
  have kI : (i.keys i.latest).isSome = true := hw.keyI (by have := an.hm; omega)
  rcases a with ⟨_ | _, fr⟩ | ⟨_ | _, fr⟩
  · apply step_bgN h0
    intro _
    rcases ld with ⟨hb, hm, ho⟩ | ⟨o, hb, hm, ho, ho', hx⟩ | ⟨o, hb, hm, ho, ho', hx⟩ | ⟨hb, hm, ho'⟩
    · rcases hb with hb | hb
      · refine ⟨_, bMacro_aToggle hb, ?_⟩
        simp only [List.append_nil]
        exact ⟨hw.same rfl rfl rfl (Nat.le_refl _) rfl rfl rfl (Nat.le_refl _),
          .lead ⟨ver, cN, rm, rfl, ⟨ht, hd, hc, hr⟩, ⟨c, b, an, .commit (Or.inr rfl) hm ho⟩, nz, bud⟩⟩
      · have hlo := hw.loN
        have agree : ∀ q, i.keys (n.most + 1) = some q → (⟨c, b⟩ : Key) = q := by
          intro q hq
          rw [hm, an.hk] at hq
          injection hq
        by_cases hfull : (n.most + 1) - n.oldest + 1 ≥ maxR
        · refine ⟨_, bMacro_aCommit_full hb hfull, ?_⟩
          simp only [List.append_nil]
          refine ⟨hw.commitN (k := ⟨c, b⟩) (by omega) rfl rfl rfl rfl agree,
            .lead ⟨ver, cN, rm, rfl, ⟨ht, hd, hc, hr⟩, ⟨c, b, an, .full n.oldest rfl ?_ rfl ho ?_⟩, nz, bud⟩⟩
          · dsimp only; omega
          · dsimp only; omega
        · refine ⟨_, bMacro_aCommit_room hb hfull, ?_⟩
          simp only [List.append_nil]
          refine ⟨hw.commitN (k := ⟨c, b⟩) (by omega) rfl rfl rfl rfl agree,
            .lead ⟨ver, cN, rm, rfl, ⟨ht, hd, hc, hr⟩, ⟨c, b, an, .room rfl ?_ ho⟩, nz, bud⟩⟩
          dsimp only; omega
    · refine ⟨_, bMacro_aDereg hb (by omega) ho, ?_⟩
      simp only [List.append_nil]
      refine ⟨hw.deregN rfl rfl rfl ?_,
        .lead ⟨ver, cN, rm, rfl, ⟨ht, hd, hc, hr⟩, ⟨c, b, an, .trunc o rfl hm ?_ ?_ hx⟩, nz, bud⟩⟩
      · dsimp only; omega
      · dsimp only; omega
      · dsimp only; omega
    · refine ⟨_, bMacro_aSendTrunc hb, ?_⟩
      refine ⟨hw.same rfl rfl rfl (Nat.le_refl _) rfl rfl rfl (Nat.le_refl _),
        .fwd ⟨ver, cN, rm, ⟨ht, hd, hc, hr⟩, rfl, hm, ⟨c, b, an⟩, .trunc o ho ho' hx, nz, bud⟩⟩
    · refine ⟨_, bMacro_aSendLoser hb, ?_⟩
      refine ⟨hw.same rfl rfl rfl (Nat.le_refl _) rfl rfl rfl (Nat.le_refl _),
        .fwd ⟨ver, cN, rm, ⟨ht, hd, hc, hr⟩, rfl, hm, ⟨c, b, an⟩, .room ho', nz, bud⟩⟩
  · exact step_bgI_nil an.hb h0
  · exact step_trigN_refused ht (Or.inl (by omega)) h0
  · apply step_trigI
    obtain ⟨nz', f, hbu, _⟩ := noise_trig (fr := fr) nz kI (fun _ => an.notLate)
    refine ⟨hw.frameI f, .lead ⟨?_, cN, rm, rfl, ⟨ht, hd, hc, hr⟩, ⟨c, b, an.frame f, ld.frameY f⟩, nz', ?_⟩⟩
    · dsimp only; rw [f.latest]; exact ver
    · dsimp only; omega

theorem Fwd.keep {s : Sys} (hw : Win s.i s.n) (h : Fwd maxR s) (a : Act) :
    Inv maxR (coopStep maxR s a) := by
  obtain ⟨i, n, toI, toN⟩ := s
  have h0 : Inv maxR ⟨i, n, toI, toN⟩ := ⟨hw, .fwd h⟩
  obtain ⟨ver, cN, rm, ⟨ht, hd, hc, hr⟩, bN, mN, ⟨c, b, an⟩, fw, nz, bud⟩ := h
  dsimp only at hw ver cN rm ht hd hc hr bN mN an fw nz bud
  have kI : (i.keys i.latest).isSome = true := hw.keyI (by have := an.hm; omega)
  have kN : (n.keys n.latest).isSome = true := hw.keyN (by omega)
  have cN' : ∀ k, n.cons k = none := by
    intro k
    by_cases hk : k = n.latest + 1
    · rw [hk]; exact hc
    · exact cN k hk
  rcases a with ⟨_ | _, fr⟩ | ⟨_ | _, fr⟩
  · cases toN with
    | nil => exact step_bgN_nil bN h0
    | cons m tl =>
      apply step_bgN h0
      intro _
      simp only [List.length_cons] at bud
      obtain ⟨a, u, hm, hu⟩ := nz.mem (List.mem_cons_self ..)
      subst hm
      refine ⟨_, lead_bg bN kN hr (by omega) cN' (by unfold maxStale; omega), ?_⟩
      simp only [List.append_nil]
      refine ⟨hw.same rfl rfl rfl (Nat.le_refl _) rfl rfl rfl (Nat.le_refl _),
        .fwd ⟨ver, cN, rm, ⟨ht, hd, hc, hr⟩, bN, mN, ⟨c, b, an⟩, ?_, nz.drop, ?_⟩⟩
      · rcases fw with ⟨o, ho, ho', hx⟩ | ⟨ho'⟩
        · exact .trunc o ho ho' hx
        · exact .room ho'
      · dsimp only; omega
  · apply step_bgI h0
    intro he
    have hx' := bgEnabled_check he (by rw [an.hb]; rfl)
    have hlo := hw.loI
    have hmI := an.hm
    have k1 : (i.keys (i.latest + 1)).isSome = true := (hw.hI _).mpr ⟨by omega, by omega⟩
    rcases fw with ⟨o, ho, ho', hx⟩ | ⟨ho'⟩
    · refine ⟨_, bMacro_truncate an.hb an.hr (by omega) ho' (by omega) k1, ?_⟩
      simp only [List.append_nil]
      obtain ⟨nz', _, hp, _⟩ := noise_bump (x' := { i with
        latest := i.latest + 1, declared := i.latest + 1, cons := del i.cons (i.latest + 2)
        keys := del i.keys i.oldest, oldest := i.oldest + 1, b := .lSend }) nz rfl rfl rfl rfl
        (by intro h; cases h) hx'
      refine ⟨hw.deregI rfl rfl rfl (by dsimp only; omega),
        .ack ⟨by dsimp only; omega, hmI, mN, by dsimp only; omega, cN, rm, ⟨ht, hd, hc, hr⟩, bN, rfl, an.hr, rfl,
          nz', ?_⟩⟩
      dsimp only; omega
    · refine ⟨_, bMacro_loserCanFinish an.hb an.hr k1, ?_⟩
      simp only [List.append_nil]
      obtain ⟨nz', _, hp, _⟩ := noise_bump (x' := { i with
        latest := i.latest + 1, declared := i.latest + 1, cons := del i.cons (i.latest + 2), b := .lSend })
        nz rfl rfl rfl rfl (by intro h; cases h) hx'
      refine ⟨hw.same rfl rfl rfl (Nat.le_succ _) rfl rfl rfl (Nat.le_refl _),
        .ack ⟨by dsimp only; omega, hmI, mN, ho', cN, rm, ⟨ht, hd, hc, hr⟩, bN, rfl, an.hr, rfl, nz', ?_⟩⟩
      dsimp only; omega
  · exact step_trigN_refused ht (Or.inl (by omega)) h0
  · apply step_trigI
    obtain ⟨nz', f, hbu, _⟩ := noise_trig (fr := fr) nz kI (fun _ => an.notLate)
    refine ⟨hw.frameI f, .fwd ⟨?_, cN, rm, ⟨ht, hd, hc, hr⟩, bN, mN, ⟨c, b, an.frame f⟩, fw.frameY f, nz', ?_⟩⟩
    · dsimp only; rw [f.latest]; exact ver
    · dsimp only; omega

theorem Ack.keep {s : Sys} (hw : Win s.i s.n) (h : Ack s) (a : Act) : Inv maxR (coopStep maxR s a) := by
  obtain ⟨i, n, toI, toN⟩ := s
  have h0 : Inv maxR ⟨i, n, toI, toN⟩ := ⟨hw, .ack h⟩
  obtain ⟨ver, mI, mN, old, cN, rm, ⟨ht, hd, hc, hr⟩, bN, bI, rI, eI, nz, bud⟩ := h
  dsimp only at hw ver mI mN old cN rm ht hd hc hr bN bI rI eI nz bud
  subst eI
  have kI : (i.keys i.latest).isSome = true := hw.keyI (by omega)
  have kN : (n.keys n.latest).isSome = true := hw.keyN (by omega)
  have cN' : ∀ k, n.cons k = none := by
    intro k
    by_cases hk : k = n.latest + 1
    · rw [hk]; exact hc
    · exact cN k hk
  have hold : Old i.latest toN := nz.old (Or.inl bI)
  rcases a with ⟨_ | _, fr⟩ | ⟨_ | _, fr⟩
  · cases toN with
    | nil => exact step_bgN_nil bN h0
    | cons m tl =>
      apply step_bgN h0
      intro _
      simp only [List.length_cons] at bud
      obtain ⟨a, u, hm, hu⟩ := hold m (List.mem_cons_self ..)
      subst hm
      refine ⟨_, lead_bg bN kN hr (by omega) cN' (by unfold maxStale; omega), ?_⟩
      simp only [List.append_nil]
      refine ⟨hw.same rfl rfl rfl (Nat.le_refl _) rfl rfl rfl (Nat.le_refl _),
        .ack ⟨ver, mI, mN, old, cN, rm, ⟨ht, hd, hc, hr⟩, bN, bI, rI, rfl, nz.drop_old hu, ?_⟩⟩
      dsimp only; omega
  · apply step_bgI h0
    intro _
    refine ⟨_, bMacro_lSend bI, ?_⟩
    obtain ⟨nz', hbu⟩ := noise_late (x' := { i with b := .retain }) nz (Or.inl bI) rfl rfl rfl rfl rfl
    refine ⟨hw.same rfl rfl rfl (Nat.le_refl _) rfl rfl rfl (Nat.le_refl _),
      .cf ⟨ver, mI, mN, old, cN, rm, ⟨ht, hd, hc, hr⟩, bN, Or.inr ⟨rfl, ?_⟩, rfl,
        ⟨toN, [], ?_, ?_, ?_, ?_, ?_⟩⟩⟩
    · dsimp only; rw [rI]; intro h; cases h
    · dsimp only; rw [ver]
    · dsimp only; rw [← ver]; exact hold
    · rw [List.append_nil]; exact nz'
    · dsimp only; omega
    · have := budget_le { i with b := .retain }
      simpa using this
  · exact step_trigN_refused ht (Or.inl (by omega)) h0
  · apply step_trigI
    obtain ⟨nz', f, _, hbu⟩ := noise_trig (fr := fr) nz kI (fun h => by rw [rI] at h; cases h)
    have hbu := hbu (Or.inl bI)
    refine ⟨hw.frameI f, .ack ⟨?_, ?_, mN, ?_, cN, rm, ⟨ht, hd, hc, hr⟩, bN, ?_, ?_, rfl, nz', ?_⟩⟩
    · dsimp only; rw [f.latest]; exact ver
    · dsimp only; rw [f.most]; exact mI
    · dsimp only; rw [f.oldest]; exact old
    · dsimp only; rw [f.b]; exact bI
    · dsimp only; rw [f.role]; exact rI
    · dsimp only; omega

theorem Cf.keep {s : Sys} (hw : Win s.i s.n) (h : Cf s) (a : Act) : Inv maxR (coopStep maxR s a) := by
  obtain ⟨i, n, toI, toN⟩ := s
  have h0 : Inv maxR ⟨i, n, toI, toN⟩ := ⟨hw, .cf h⟩
  obtain ⟨ver, mI, mN, old, cN, rm, ⟨ht, hd, hc, hr⟩, bN, hI, eI, ⟨x, y, eN, ho, nz, bud, bud2⟩⟩ := h
  dsimp only at hw ver mI mN old cN rm ht hd hc hr bN hI eI eN ho nz bud bud2
  subst eI
  subst eN
  have kI : (i.keys i.latest).isSome = true := hw.keyI (by omega)
  have kN : (n.keys n.latest).isSome = true := hw.keyN (by omega)
  have cN' : ∀ k, n.cons k = none := by
    intro k
    by_cases hk : k = n.latest + 1
    · rw [hk]; exact hc
    · exact cN k hk
  rcases a with ⟨_ | _, fr⟩ | ⟨_ | _, fr⟩
  · apply step_bgN h0
    intro _
    cases x with
    | nil =>
      have hlo := hw.loN
      refine ⟨_, bMacro_leaderCanFinish bN (by rw [hr]; intro h; cases h)
        ((hw.hN _).mpr ⟨by omega, by omega⟩) rfl, ?_⟩
      simp only [List.append_nil]
      refine ⟨hw.same rfl rfl rfl (Nat.le_refl _) rfl rfl rfl (Nat.le_succ _),
        .quiet ⟨ver, mI, mN, old, fun k _ => cN' k, fun h => absurd rfl h, hI, ?_, ?_, ?_⟩⟩
      · exact .fin ht rfl (cN' _) rfl (by intro h; cases h)
      · exact nz.weaken (fun _ => True.intro)
      · simp only [nskip, inProc, List.nil_append, if_true]
        omega
    | cons m x =>
      obtain ⟨a, u, hm, hu⟩ := ho m (List.mem_cons_self ..)
      subst hm
      simp only [List.length_cons] at bud
      refine ⟨_, lead_bg bN kN hr (by omega) cN' (by unfold maxStale; omega), ?_⟩
      simp only [List.append_nil]
      refine ⟨hw.same rfl rfl rfl (Nat.le_refl _) rfl rfl rfl (Nat.le_refl _),
        .cf ⟨ver, mI, mN, old, cN, rm, ⟨ht, hd, hc, hr⟩, bN, hI, rfl,
          ⟨x, y, rfl, ho.tail, nz.drop_old (by omega), ?_, bud2⟩⟩⟩
      dsimp only; omega
  · rcases hI with ⟨hb, hr', hrm⟩ | ⟨hb, hr'⟩
    · exact step_bgI_nil hb h0
    · apply step_bgI h0
      intro he
      refine ⟨_, bMacro_retain hb kI, ?_⟩
      simp only [List.append_nil]
      have hx := bgEnabled_check he (by rw [hb]; rfl)
      obtain ⟨nz', hbud⟩ := noise_retain (x' := { i with
        cons := fun j => if i.latest < j then i.cons j else none, role := .idle, tog := false
        rmeta := i.latest, skipped := 0, b := .recv }) nz (Or.inr hb) rfl rfl rfl rfl rfl hx
      refine ⟨hw.same rfl rfl rfl (Nat.le_refl _) rfl rfl rfl (Nat.le_refl _),
        .cf ⟨ver, mI, mN, old, cN, rm, ⟨ht, hd, hc, hr⟩, bN, Or.inl ⟨rfl, rfl, rfl⟩, rfl,
          ⟨x, y, rfl, ho, nz', bud, ?_⟩⟩⟩
      dsimp only
      rw [hbud]
      exact bud2
  · exact step_trigN_refused ht (Or.inl (by omega)) h0
  · apply step_trigI
    obtain ⟨nz', f, hbu, _⟩ := noise_trig (fr := fr) nz kI hI.late
    rw [List.append_assoc] at nz' hbu
    simp only [List.length_append] at hbu
    refine ⟨hw.frameI f, .cf ⟨?_, ?_, mN, ?_, cN, rm, ⟨ht, hd, hc, hr⟩, bN, hI.frame f, rfl,
      ⟨x, y ++ (tMacro i fr).2, ?_, ho, nz', bud, ?_⟩⟩⟩
    · dsimp only; rw [f.latest]; exact ver
    · dsimp only; rw [f.most]; exact mI
    · dsimp only; rw [f.oldest]; exact old
    · simp
    · simp only [List.length_append]; omega

end Verif.Rekey
