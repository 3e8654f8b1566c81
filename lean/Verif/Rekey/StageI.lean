import Verif.Rekey.Keep
/-
The invariant is preserved while the initiator drives.
-/
namespace Verif.Rekey

variable {maxR : Nat}

theorem IBob.keep {s : Sys} (hw : Win s.i s.n) (h : IBob s) (a : Act) : Inv maxR (coopStep maxR s a) := by
  obtain ⟨i, n, toI, toN⟩ := s
  have h0 : Inv maxR ⟨i, n, toI, toN⟩ := ⟨hw, .ibob h⟩
  obtain ⟨⟨ht, hd, cI, cN, tN⟩, ver, mI, old, rmN, gN, dN, eI, eN, bI, rI, ⟨c, hc, an, hne⟩⟩ := h
  dsimp only at hw ht hd cI cN tN ver mI old rmN gN dN eI eN bI rI hc an hne
  subst eI
  subst eN
  rcases a with ⟨_ | _, fr⟩ | ⟨_ | _, fr⟩
  · apply step_bgN h0
    intro _
    rcases an with ⟨hbi, hr, hm⟩ | ⟨b, hbi, hr, hm, hk⟩ | ⟨b, hbi, hr, hm, hk⟩
    · rcases hbi with hbi | hbi
      · exact absurd hbi hne
      · refine ⟨_, bMacro_bCommit hbi, ?_⟩
        simp only [List.append_nil]
        refine ⟨hw.commitN (k := ⟨c, fr⟩) (by omega) rfl rfl rfl rfl ?_,
          .ibob ⟨⟨ht, hd, cI, cN, tN⟩, ver, mI, old, rmN, gN, dN, rfl, rfl, bI, rI,
            ⟨c, hc, .done fr rfl hr ?_ ?_, by intro h; cases h⟩⟩⟩
        · intro q hq
          exact absurd hq (hw.symm.none (by omega) q)
        · dsimp only; omega
        · dsimp only; rw [hm]; exact put_same _ _ _
    · refine ⟨_, bMacro_bToggle2 hbi, ?_⟩
      simp only [List.append_nil]
      exact ⟨hw.same rfl rfl rfl (Nat.le_refl _) rfl rfl rfl (Nat.le_refl _),
        .ibob ⟨⟨ht, hd, cI, cN, tN⟩, ver, mI, old, rmN, rfl, dN, rfl, rfl, bI, rI,
          ⟨c, hc, .send b rfl rfl hm hk, by intro h; cases h⟩⟩⟩
    · refine ⟨_, bMacro_bSend hbi, ?_⟩
      refine ⟨hw.same rfl rfl rfl (Nat.le_refl _) rfl rfl rfl (Nat.le_refl _),
        .ians ⟨⟨ht, hd, cI, cN, tN⟩, ver, mI, old, dN, rfl, bI, rI, ⟨c, b, hc, ⟨rfl, hr, hm, hk⟩, ?_⟩⟩⟩
      dsimp only; rw [rmN]; rfl
  · exact step_bgI_nil bI h0
  · exact step_trigN_refused tN (Or.inr (Or.inr gN)) h0
  · exact step_trigI_refused ht (Or.inl (by omega)) h0

theorem IAns.keep {s : Sys} (hw : Win s.i s.n) (h : IAns s) (a : Act) : Inv maxR (coopStep maxR s a) := by
  obtain ⟨i, n, toI, toN⟩ := s
  have h0 : Inv maxR ⟨i, n, toI, toN⟩ := ⟨hw, .ians h⟩
  obtain ⟨⟨ht, hd, cI, cN, tN⟩, ver, mI, old, dN, eN, bI, rI, ⟨c, b, hc, an, eI⟩⟩ := h
  dsimp only at hw ht hd cI cN tN ver mI old dN eI eN bI rI hc an
  subst eI
  subst eN
  rcases a with ⟨_ | _, fr⟩ | ⟨_ | _, fr⟩
  · exact step_bgN_nil an.hb h0
  · apply step_bgI h0
    intro _
    refine ⟨_, bMacro_b2a_ok bI rfl (fun _ => rfl) hc, ?_⟩
    simp only [List.append_nil]
    exact ⟨hw.same rfl rfl rfl (Nat.le_refl _) rfl rfl rfl (Nat.le_refl _),
      .ilead ⟨⟨ht, hd, fun k hk => del_none _ (cI k hk), cN, tN⟩, ver, dN, rfl, rfl, ⟨ht, hd, del_same _ _, rfl⟩,
        ⟨c, b, an, .commit (Or.inl rfl) mI old.symm⟩⟩⟩
  · exact step_trigN_refused tN (Or.inr (Or.inl (by rw [an.hr]; intro h; cases h))) h0
  · exact step_trigI_refused ht (Or.inl (by omega)) h0

theorem ILead.keep (hR : 3 ≤ maxR) {s : Sys} (hw : Win s.i s.n) (h : ILead maxR s) (a : Act) :
    Inv maxR (coopStep maxR s a) := by
  obtain ⟨i, n, toI, toN⟩ := s
  have h0 : Inv maxR ⟨i, n, toI, toN⟩ := ⟨hw, .ilead h⟩
  obtain ⟨⟨ht, hd, cI, cN, tN⟩, ver, dN, eI, eN, ⟨_, _, hc, hr⟩, ⟨c, b, an, ld⟩⟩ := h
  dsimp only at hw ht hd cI cN tN ver dN eI eN hc hr an ld
  subst eI
  subst eN
  rcases a with ⟨_ | _, fr⟩ | ⟨_ | _, fr⟩
  · exact step_bgN_nil an.hb h0
  · apply step_bgI h0
    intro _
    rcases ld with ⟨hb, hm, ho⟩ | ⟨o, hb, hm, ho, ho', hx⟩ | ⟨o, hb, hm, ho, ho', hx⟩ | ⟨hb, hm, ho'⟩
    · rcases hb with hb | hb
      · refine ⟨_, bMacro_aToggle hb, ?_⟩
        simp only [List.append_nil]
        exact ⟨hw.same rfl rfl rfl (Nat.le_refl _) rfl rfl rfl (Nat.le_refl _),
          .ilead ⟨⟨ht, hd, cI, cN, tN⟩, ver, dN, rfl, rfl, ⟨ht, hd, hc, hr⟩,
            ⟨c, b, an, .commit (Or.inr rfl) hm ho⟩⟩⟩
      · have hlo := hw.loI
        have agree : ∀ q, n.keys (i.most + 1) = some q → (⟨c, b⟩ : Key) = q := by
          intro q hq
          rw [hm, an.hk] at hq
          injection hq
        by_cases hfull : (i.most + 1) - i.oldest + 1 ≥ maxR
        · refine ⟨_, bMacro_aCommit_full hb hfull, ?_⟩
          simp only [List.append_nil]
          refine ⟨hw.commitI (k := ⟨c, b⟩) (by omega) rfl rfl rfl rfl agree,
            .ilead ⟨⟨ht, hd, cI, cN, tN⟩, ver, dN, rfl, rfl, ⟨ht, hd, hc, hr⟩,
              ⟨c, b, an, .full i.oldest rfl ?_ rfl ho ?_⟩⟩⟩
          · dsimp only; omega
          · dsimp only; omega
        · refine ⟨_, bMacro_aCommit_room hb hfull, ?_⟩
          simp only [List.append_nil]
          refine ⟨hw.commitI (k := ⟨c, b⟩) (by omega) rfl rfl rfl rfl agree,
            .ilead ⟨⟨ht, hd, cI, cN, tN⟩, ver, dN, rfl, rfl, ⟨ht, hd, hc, hr⟩, ⟨c, b, an, .room rfl ?_ ho⟩⟩⟩
          dsimp only; omega
    · refine ⟨_, bMacro_aDereg hb (by omega) ho, ?_⟩
      simp only [List.append_nil]
      refine ⟨hw.deregI rfl rfl rfl ?_,
        .ilead ⟨⟨ht, hd, cI, cN, tN⟩, ver, dN, rfl, rfl, ⟨ht, hd, hc, hr⟩, ⟨c, b, an, .trunc o rfl hm ?_ ?_ hx⟩⟩⟩
      · dsimp only; omega
      · dsimp only; omega
      · dsimp only; omega
    · refine ⟨_, bMacro_aSendTrunc hb, ?_⟩
      exact ⟨hw.same rfl rfl rfl (Nat.le_refl _) rfl rfl rfl (Nat.le_refl _),
        .ifwd ⟨⟨ht, hd, cI, cN, tN⟩, ver, dN, rfl, ⟨ht, hd, hc, hr⟩, rfl, hm, ⟨c, b, an⟩, .trunc o ho ho' hx⟩⟩
    · refine ⟨_, bMacro_aSendLoser hb, ?_⟩
      exact ⟨hw.same rfl rfl rfl (Nat.le_refl _) rfl rfl rfl (Nat.le_refl _),
        .ifwd ⟨⟨ht, hd, cI, cN, tN⟩, ver, dN, rfl, ⟨ht, hd, hc, hr⟩, rfl, hm, ⟨c, b, an⟩, .room ho'⟩⟩
  · exact step_trigN_refused tN (Or.inr (Or.inl (by rw [an.hr]; intro h; cases h))) h0
  · exact step_trigI_refused ht (Or.inl (by omega)) h0

theorem IFwd.keep {s : Sys} (hw : Win s.i s.n) (h : IFwd maxR s) (a : Act) : Inv maxR (coopStep maxR s a) := by
  obtain ⟨i, n, toI, toN⟩ := s
  have h0 : Inv maxR ⟨i, n, toI, toN⟩ := ⟨hw, .ifwd h⟩
  obtain ⟨⟨ht, hd, cI, cN, tN⟩, ver, dN, eI, ⟨_, _, hc, hr⟩, bI, mI, ⟨c, b, an⟩, fw⟩ := h
  dsimp only at hw ht hd cI cN tN ver dN eI hc hr bI mI an fw
  subst eI
  rcases a with ⟨_ | _, fr⟩ | ⟨_ | _, fr⟩
  · apply step_bgN h0
    intro _
    have hlo := hw.loN
    have hmN := an.hm
    have k1 : (n.keys (n.latest + 1)).isSome = true := (hw.hN _).mpr ⟨by omega, by omega⟩
    rcases fw with ⟨o, ho, ho', hx⟩ | ⟨ho'⟩
    · refine ⟨_, bMacro_truncate an.hb an.hr (by omega) ho' (by omega) k1, ?_⟩
      simp only [List.append_nil]
      exact ⟨hw.deregN rfl rfl rfl (by dsimp only; omega),
        .iack ⟨⟨ht, hd, cI, fun k => del_none _ (cN k), tN⟩, by dsimp only; omega, mI, hmN, by dsimp only; omega, rfl,
          rfl, rfl, ⟨ht, hd, hc, hr⟩, bI, rfl, an.hr⟩⟩
    · refine ⟨_, bMacro_loserCanFinish an.hb an.hr k1, ?_⟩
      simp only [List.append_nil]
      exact ⟨hw.same rfl rfl rfl (Nat.le_refl _) rfl rfl rfl (Nat.le_succ _),
        .iack ⟨⟨ht, hd, cI, fun k => del_none _ (cN k), tN⟩, by dsimp only; omega, mI, hmN, ho'.symm, rfl,
          rfl, rfl, ⟨ht, hd, hc, hr⟩, bI, rfl, an.hr⟩⟩
  · exact step_bgI_nil bI h0
  · exact step_trigN_refused tN (Or.inr (Or.inl (by rw [an.hr]; intro h; cases h))) h0
  · exact step_trigI_refused ht (Or.inl (by omega)) h0

theorem IAck.keep {s : Sys} (hw : Win s.i s.n) (h : IAck s) (a : Act) : Inv maxR (coopStep maxR s a) := by
  obtain ⟨i, n, toI, toN⟩ := s
  have h0 : Inv maxR ⟨i, n, toI, toN⟩ := ⟨hw, .iack h⟩
  obtain ⟨⟨ht, hd, cI, cN, tN⟩, ver, mI, mN, old, dN, eI, eN, ⟨_, _, hc, hr⟩, bI, bN, rN⟩ := h
  dsimp only at hw ht hd cI cN tN ver mI mN old dN eI eN hc hr bI bN rN
  subst eI
  subst eN
  rcases a with ⟨_ | _, fr⟩ | ⟨_ | _, fr⟩
  · apply step_bgN h0
    intro _
    refine ⟨_, bMacro_lSend bN, ?_⟩
    have hrN : n.role ≠ .idle := by rw [rN]; intro h; cases h
    exact ⟨hw.same rfl rfl rfl (Nat.le_refl _) rfl rfl rfl (Nat.le_refl _),
      .icf ⟨ht, hd, cI, fun k _ => cN k, ver, mI, mN, old, rfl, ⟨ht, hd, hc, hr⟩, bI, Or.inr ⟨rfl, hrN⟩,
        fun h => (by cases h), ⟨[], rfl, .fin tN dN (cN _) rfl hrN⟩⟩⟩
  · exact step_bgI_nil bI h0
  · exact step_trigN_refused tN (Or.inr (Or.inl (by rw [rN]; intro h; cases h))) h0
  · exact step_trigI_refused ht (Or.inl (by omega)) h0

theorem ICf.keep {s : Sys} (hw : Win s.i s.n) (h : ICf s) (a : Act) : Inv maxR (coopStep maxR s a) := by
  obtain ⟨i, n, toI, toN⟩ := s
  have h0 : Inv maxR ⟨i, n, toI, toN⟩ := ⟨hw, .icf h⟩
  obtain ⟨ht, hd, cI, cN, ver, mI, mN, old, eN, ⟨_, _, hc, hr⟩, bI, hN, sk, ⟨l, eI, np⟩⟩ := h
  dsimp only at hw ht hd cI cN ver mI mN old eN hc hr bI hN sk eI np
  subst eN
  subst eI
  have kN : (n.keys n.latest).isSome = true := hw.keyN (by omega)
  rcases a with ⟨_ | _, fr⟩ | ⟨_ | _, fr⟩
  · rcases hN with ⟨hb, hr', hrm⟩ | ⟨hb, hr'⟩
    · exact step_bgN_nil hb h0
    · apply step_bgN h0
      intro _
      refine ⟨_, bMacro_retain hb kN, ?_⟩
      simp only [List.append_nil]
      have busy : ¬ Busy n := by
        rintro ⟨h | ⟨a, h⟩ | h, _⟩ <;> rw [hb] at h <;> cases h
      cases np with
      | fin tN dN cn _ _ =>
        refine ⟨hw.same rfl rfl rfl (Nat.le_refl _) rfl rfl rfl (Nat.le_refl _),
          .icf ⟨ht, hd, cI, ?_, ver, mI, mN, old, rfl, ⟨ht, hd, hc, hr⟩, bI, Or.inl ⟨rfl, rfl, rfl⟩, fun _ => rfl,
            ⟨[], rfl, .none tN rfl dN ?_ (Or.inl rfl) rfl⟩⟩⟩
        · intro k hk
          dsimp only
          rw [cN k hk]
          simp
        · simpa using cn
      | none _ _ _ _ h _ => rcases h with h | ⟨a, h⟩ <;> rw [hb] at h <;> cases h
      | t8 _ _ _ _ _ h => exact absurd h busy
      | t11 _ _ _ _ _ h => exact absurd h busy
      | t15 _ _ _ _ _ h => exact absurd h busy
      | out _ _ _ _ _ h => exact absurd h busy
  · apply step_bgI h0
    intro _
    have hlo := hw.loI
    refine ⟨_, bMacro_leaderCanFinish bI (by rw [hr]; intro h; cases h)
      ((hw.hI _).mpr ⟨by omega, by omega⟩) ver, ?_⟩
    simp only [List.append_nil]
    have hin : inProc n = [] := by
      rcases hN with h | h <;> simp [inProc, h.1]
    have cI' : ∀ k, i.cons k = none := by
      intro k
      by_cases hk : k = i.latest + 1
      · rw [hk]; exact hc
      · exact cI k hk
    refine ⟨hw.same rfl rfl rfl (Nat.le_succ _) rfl rfl rfl (Nat.le_refl _),
      .quiet ⟨ver.symm, by dsimp only; omega, by dsimp only; omega, old, cN, ?_, Or.inr ⟨rfl, by intro h; cases h⟩, np,
        ⟨Nat.le_refl _, fun k _ => cI' k, fun _ h => (by cases h), ?_⟩, ?_⟩⟩
    · intro h
      rcases hN with h' | h'
      · exact h'.2.2
      · exact absurd h'.1 h
    · refine .rest ht ?_ (fun _ => ⟨rfl, cI' _, fun h => (by cases h)⟩)
      rw [hin]; exact Old.nil _
    · dsimp only
      rw [hin]
      have : nskip n = 0 := by
        unfold nskip
        split
        · rfl
        · rcases hN with h' | h'
          · exact sk h'.1
          · rename_i h; exact absurd h'.1 h
      rw [this]
      simp [budget, ht]
  · apply step_trigN
    obtain ⟨np', f, hc', hf⟩ := np_trig (fr := fr) np rfl kN
    refine ⟨hw.frameN f, .icf ⟨ht, hd, cI, ?_, ?_, mI, ?_, ?_, rfl, ⟨ht, hd, hc, hr⟩, bI, hN.frame f, ?_,
      ⟨l ++ (tMacro n fr).2, ?_, ?_⟩⟩⟩
    · dsimp only; rw [f.latest]; intro k hk; rw [hc' k hk]; exact cN k hk
    · dsimp only; rw [f.latest]; exact ver
    · dsimp only; rw [f.most]; exact mN
    · dsimp only; rw [f.oldest]; exact old
    · dsimp only; rw [f.b, f.skipped]; exact sk
    · dsimp only; rw [f.latest]; rfl
    · dsimp only; rw [f.latest]; exact np'
  · exact step_trigI_refused ht (Or.inl (by omega)) h0

end Verif.Rekey
