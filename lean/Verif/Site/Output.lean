import Verif.Site.Longer
import Verif.Pmc.Session
/-
C210: `full_output` decides what is kept and nothing else. Two calls of `sample` with the same arguments but for `full_output` and the same random numbers are compared.
-/
namespace Verif.Files

/-- Two loops whose iterations lead from related states to related states, up to iteration `T`. -/
theorem Loop.sim {S S' J J' : Type} (l : Loop S J) (l' : Loop S' J') (T : Nat) (Rel : Nat → S → S' → Prop) (hstop : ∀ t s s', Rel t s s' → (l.stop s ↔ l'.stop s'))
    (hstep : ∀ t s s', t < T → Rel t s s' → (l.step t s = none ∧ l'.step t s' = none) ∨ ∃ u u', l.step t s = some u ∧ l'.step t s' = some u' ∧ Rel (t + 1) u u')
    (k t : Nat) (ht : t + k ≤ T) (s : S) (s' : S') (h : Rel t s s') :
    (l.run k t s = none ∧ l'.run k t s' = none) ∨ ∃ u u' i, i ≤ k ∧ l.run k t s = some u ∧ l'.run k t s' = some u' ∧ Rel (t + i) u u' ∧ (i = k ∨ l.stop u) := by
  induction k generalizing t s s' with
  | zero => exact .inr ⟨s, s', 0, le_rfl, rfl, rfl, h, .inl rfl⟩
  | succ k ih =>
    by_cases hs : l.stop s
    · exact .inr ⟨s, s', 0, by omega, Loop.run_stop _ _ _ _ hs, Loop.run_stop _ _ _ _ ((hstop _ _ _ h).1 hs), h, .inr hs⟩
    · rw [Loop.run, Loop.run, if_neg hs, if_neg fun hs' => hs ((hstop _ _ _ h).2 hs')]
      rcases hstep t s s' (by omega) h with ⟨h1, h2⟩ | ⟨u, u', h1, h2, h3⟩
      · rw [h1, h2]; exact .inl ⟨rfl, rfl⟩
      · rw [h1, h2]
        rcases ih (t + 1) (by omega) u u' h3 with h4 | ⟨v, v', i, h4, h5, h6, h7, h8⟩
        · exact .inl h4
        · exact .inr ⟨v, v', i + 1, by omega, h5, h6, by rw [show t + (i + 1) = t + 1 + i by omega]; exact h7, h8.imp (by omega) id⟩

variable {W Θ Y : Type}

/-! ### SMCABC -/

/-- **C210 for `SMCABC`.** Both calls fail, or both return with the same thresholds, particles and number of simulations; the journal without full output holds the last population of the journal with full
output. -/
theorem C210_smcabc (env : Smc.Env W Θ Y) (c : Smc.Config) (dr : Smc.Draws) (fuel : Nat) (start : Nat → List W) (distMax : Option ℝ) :
    (Smc.smcRun env { c with full := true } dr distMax fuel start = none ∧ Smc.smcRun env { c with full := false } dr distMax fuel start = none) ∨
    ∃ s s', Smc.smcRun env { c with full := true } dr distMax fuel start = some s ∧ Smc.smcRun env { c with full := false } dr distMax fuel start = some s' ∧
      s'.past = s.past ∧ s'.cur = s.cur ∧ s'.last = s.last ∧ s'.done = s.done ∧ s'.counter = s.counter ∧ s.journal.length = s.done ∧ s'.journal = s.journal.getLast?.toList := by
  have hne := Smc.C42_never_reached env { c with full := true } dr distMax fuel start
  unfold Smc.smcRun at hne ⊢
  simp only at hne ⊢
  by_cases hc : c.which ≤ 2 ∧ ¬ (c.bernton = true ∧ c.which = 0) ∧ ∀ t, (start t).length = c.n
  swap
  · rw [if_neg hc, if_neg hc]; exact .inl ⟨rfl, rfl⟩
  rw [if_pos hc, smcLoop_run] at hne
  rw [if_pos hc, if_pos hc, smcLoop_run, smcLoop_run]
  let Rel : Nat → Smc.State Θ Y → Smc.State Θ Y → Prop := fun t s s' => s.done = t ∧ s.journal.length = t ∧ s' = { s with journal := if t = c.steps then s.journal.getLast?.toList else [] }
  have hstep : ∀ t s s', t < c.steps → Rel t s s' → ((smcLoop env { c with full := true } dr fuel start).step t s = none ∧ (smcLoop env { c with full := false } dr fuel start).step t s' = none) ∨ ∃ u u', (smcLoop env { c with full := true } dr fuel start).step t s = some u ∧ (smcLoop env { c with full := false } dr fuel start).step t s' = some u' ∧ Rel (t + 1) u u' := by
    intro t s s' ht h
    obtain ⟨h1, h2, h3⟩ := h
    have hsave : ∀ past cur wts l, Rel (t + 1) (Smc.save { c with full := true } t s past cur wts l) (Smc.save { c with full := false } t s' past cur wts l) := by
      intro past cur wts l
      refine ⟨by simp [Smc.save, h1], ?_, ?_⟩
      · simp only [Smc.save]
        rw [if_pos (Or.inl ⟨trivial, by omega⟩)]
        simp [h2]
      · rw [h3]
        simp only [Smc.save, Bool.false_eq_true, Bool.true_eq_false, false_and, false_or, or_false, true_and, if_true, if_false]
        rw [if_neg (show ¬ t = c.steps by omega), if_pos (show t ≤ c.steps - 1 by omega)]
        by_cases hl : t + 1 = c.steps
        · rw [if_pos (show t = c.steps - 1 by omega), if_pos hl]
          simp
        · rw [if_neg (show ¬ t = c.steps - 1 by omega), if_neg hl]
    have hs : s'.last = s.last ∧ s'.past = s.past ∧ s'.cur = s.cur := by rw [h3]; exact ⟨rfl, rfl, rfl⟩
    simp only [smcLoop, Smc.smcStep, hs.1, hs.2.1, hs.2.2]
    cases hp : s.last with
    | none => exact .inr ⟨_, _, rfl, rfl, hsave _ _ _ _⟩
    | some p =>
      simp only
      rw [show Smc.newEps env { c with full := false } dr fuel s.cur p = Smc.newEps env { c with full := true } dr fuel s.cur p from rfl]
      cases Smc.newEps env { c with full := true } dr fuel s.cur p with
      | none => exact .inl ⟨rfl, rfl⟩
      | some eps =>
        simp only
        rw [show Smc.newWeights env { c with full := false } s.cur eps p = Smc.newWeights env { c with full := true } s.cur eps p from rfl]
        cases Smc.newWeights env { c with full := true } s.cur eps p with
        | none => exact .inl ⟨rfl, rfl⟩
        | some wts =>
          simp only
          rw [show Smc.resampled { c with full := false } dr t p.params wts = Smc.resampled { c with full := true } dr t p.params wts from rfl]
          cases Smc.resampled { c with full := true } dr t p.params wts with
          | none => exact .inl ⟨rfl, rfl⟩
          | some q =>
            simp only
            rw [show Smc.moved env { c with full := false } fuel eps q p.sims (start t) = Smc.moved env { c with full := true } fuel eps q p.sims (start t) from rfl]
            cases Smc.moved env { c with full := true } fuel eps q p.sims (start t) with
            | none => exact .inl ⟨rfl, rfl⟩
            | some l => exact .inr ⟨_, _, rfl, rfl, hsave _ _ _ _⟩
  rcases Loop.sim (smcLoop env { c with full := true } dr fuel start) (smcLoop env { c with full := false } dr fuel start) c.steps Rel
    (fun t s s' h => by rw [h.2.2]; exact Iff.rfl) hstep c.steps 0 (by omega) ⟨[], distMax.getD (10 ^ 5), none, [], 0, 0⟩ ⟨[], distMax.getD (10 ^ 5), none, [], 0, 0⟩
    ⟨rfl, rfl, by simp⟩ with h | ⟨s, s', i, h1, h2, h3, ⟨h4, h5, h6⟩, h7⟩
  · exact .inl h
  · right
    rw [Nat.zero_add] at h4 h5 h6
    refine ⟨s, s', h2, h3, by rw [h6], by rw [h6], by rw [h6], by rw [h6], by rw [h6], by rw [h4, h5], ?_⟩
    rw [h6]
    simp only
    by_cases hi : i = c.steps
    · rw [if_pos hi]
    · rcases lt_or_ge c.final (distMax.getD (10 ^ 5)) with hf | hf
      · exact absurd (h4.symm.trans ((hne s h2).1 hf).1) hi
      · rw [if_neg hi, ((hne s h2).2 hf).2.2.1]
        simp

/-! ### APMCABC -/

/-- **C210 for `APMCABC`.** Both calls fail, or both return after the same iterations; the journal without full output holds the last population of the journal with full output if all steps were carried out. If the run
stopped early it holds nothing. -/
theorem C210_apmcabc_partial (env : Apmc.Env W Θ Y) (c : Apmc.Config) (fuel : Nat) (start : Nat → List W) :
    (Apmc.run env { c with full := true } fuel start = none ∧ Apmc.run env { c with full := false } fuel start = none) ∨
    ∃ s s', Apmc.run env { c with full := true } fuel start = some s ∧ Apmc.run env { c with full := false } fuel start = some s' ∧ s'.hist = s.hist ∧ s'.epsilons = s.epsilons ∧ s'.stopped = s.stopped ∧
      s.journal = s.hist ∧ s.journal.length ≤ c.steps ∧ (s.journal.length = c.steps ∨ s.stopped = true) ∧ s'.journal = if s.journal.length = c.steps then s.journal.getLast?.toList else [] := by
  unfold Apmc.run
  simp only
  rw [apmcLoop_run, apmcLoop_run]
  let Rel : Nat → Apmc.State Θ → Apmc.State Θ → Prop := fun t s s' => s.journal.length = t ∧ s' = { s with journal := if t = c.steps then s.journal.getLast?.toList else [] } ∧ s.journal = s.hist
  have hstep : ∀ t s s', t < c.steps → Rel t s s' → ((apmcLoop env { c with full := true } fuel start).step t s = none ∧ (apmcLoop env { c with full := false } fuel start).step t s' = none) ∨ ∃ u u', (apmcLoop env { c with full := true } fuel start).step t s = some u ∧ (apmcLoop env { c with full := false } fuel start).step t s' = some u' ∧ Rel (t + 1) u u' := by
    intro t s s' ht h
    obtain ⟨h1, h2, hjh⟩ := h
    have hs : s'.hist = s.hist ∧ s'.epsilons = s.epsilons := by rw [h2]; exact ⟨rfl, rfl⟩
    have hm : ∀ out, Apmc.merge { c with full := false } s' out = Apmc.merge { c with full := true } s out := by rw [h2]; intro out; rfl
    have ha : ∀ out, Apmc.acceptance { c with full := false } s' out = Apmc.acceptance { c with full := true } s out := by rw [h2]; intro out; rfl
    have hse : Apmc.seen s' = Apmc.seen s := by rw [h2]; rfl
    have hw : Apmc.wanted { c with full := false } t = Apmc.wanted { c with full := true } t := rfl
    simp only [apmcLoop, Apmc.step, hs.1, hs.2, hm, ha, hse, hw]
    by_cases hg : (start t).length ≠ Apmc.wanted { c with full := true } t ∨ start t = []
    · rw [if_pos hg, if_pos hg]; exact .inl ⟨rfl, rfl⟩
    · rw [if_neg hg, if_neg hg]
      cases collect ((start t).map fun w => Apmc.accept env fuel (Apmc.seen s) w) with
      | none => exact .inl ⟨rfl, rfl⟩
      | some out =>
        simp only
        cases Pmc.percentile (Apmc.merge { c with full := true } s out).2.1 (c.alpha * 100) with
        | none => exact .inl ⟨rfl, rfl⟩
        | some eps =>
          refine .inr ⟨_, _, rfl, rfl, by simp [h1], ?_, by simp [hjh]⟩
          simp only [if_true, Bool.false_eq_true, if_false]
          by_cases hl : t + 1 = c.steps
          · rw [if_pos (show t = c.steps - 1 by omega), if_pos hl]
            simp
          · rw [if_neg (show ¬ t = c.steps - 1 by omega), if_neg hl, h2]
            simp only
            rw [if_neg (show ¬ t = c.steps by omega)]
  rcases Loop.sim (apmcLoop env { c with full := true } fuel start) (apmcLoop env { c with full := false } fuel start) c.steps Rel
    (fun t s s' h => by rw [h.2.1]; exact Iff.rfl) hstep c.steps 0 (by omega) ⟨[], [], [], false⟩ ⟨[], [], [], false⟩
    ⟨rfl, by simp, rfl⟩ with h | ⟨s, s', i, h1, h2, h3, ⟨h4, h5, h6⟩, h7⟩
  · exact .inl h
  · right
    rw [Nat.zero_add] at h4 h5
    refine ⟨s, s', h2, h3, by rw [h5], by rw [h5], by rw [h5], h6, by omega, h7.imp (fun h => by omega) id, by rw [h5, h4]⟩

/-- **C210 fails for `APMCABC` runs that stop early**: a call with full output has two populations in its journal, the same call without has none. -/
theorem C210_apmcabc_violated : ∃ s s', Apmc.run Apmc.exEnv ⟨2, 3, 1 / 2, 1 / 10, true⟩ 1 Apmc.twoStart = some s ∧ Apmc.run Apmc.exEnv ⟨2, 3, 1 / 2, 1 / 10, false⟩ 1 Apmc.twoStart = some s' ∧
    s.journal.length = 2 ∧ s'.journal = [] := by
  obtain ⟨s', h, -, hl, hj⟩ := Apmc.C46_apmc_violated
  rcases C210_apmcabc_partial Apmc.exEnv ⟨2, 3, 1 / 2, 1 / 10, true⟩ 1 Apmc.twoStart with ⟨-, h1⟩ | ⟨s, s1, h1, h2, h3, -, -, h4, -⟩
  · rw [show Apmc.run Apmc.exEnv ⟨2, 3, 1 / 2, 1 / 10, false⟩ 1 Apmc.twoStart = none from h1] at h
    cases h
  · obtain rfl : s' = s1 := Option.some.inj (h.symm.trans h2)
    exact ⟨s, s', h1, h, by rw [h4, ← h3, hl], hj⟩

/-! ### RSMCABC -/

/-- **C210 for `RSMCABC`.** Both calls raise in the same way, or both return with the same thresholds and number of simulations, and the journal without full output holds the last population of the journal with
full output. -/
theorem C210_rsmcabc (env : Rsmc.Env W Θ Y) (c : Rsmc.Config) (fuel : Nat) (start : Nat → List (W × Θ)) :
    (∃ e, Rsmc.run env { c with full := true } fuel start = .error e ∧ Rsmc.run env { c with full := false } fuel start = .error e) ∨
    ∃ s s', Rsmc.run env { c with full := true } fuel start = .ok s ∧ Rsmc.run env { c with full := false } fuel start = .ok s' ∧ s'.hist = s.hist ∧ s'.epsilons = s.epsilons ∧ s'.counter = s.counter ∧
      s.journal.length = c.steps ∧ s'.journal = s.journal.getLast?.toList := by
  unfold Rsmc.run
  simp only
  suffices hk : ∀ (k t : Nat) (s s' : Rsmc.State Θ), t + k = c.steps → s.journal.length = t → s' = { s with journal := if t = c.steps then s.journal.getLast?.toList else [] } →
      (∃ e, Rsmc.loop env { c with full := true } fuel start k t s = .error e ∧ Rsmc.loop env { c with full := false } fuel start k t s' = .error e) ∨
      ∃ u u', Rsmc.loop env { c with full := true } fuel start k t s = .ok u ∧ Rsmc.loop env { c with full := false } fuel start k t s' = .ok u' ∧ u.journal.length = c.steps ∧
        u' = { u with journal := u.journal.getLast?.toList } by
    rcases hk c.steps 0 ⟨[], none, 1, [], [], 0⟩ ⟨[], none, 1, [], [], 0⟩ (by omega) rfl (by simp) with h | ⟨u, u', h1, h2, h3, h4⟩
    · exact .inl h
    · exact .inr ⟨u, u', h1, h2, by rw [h4], by rw [h4], by rw [h4], h3, by rw [h4]⟩
  intro k
  induction k with
  | zero =>
    intro t s s' ht h1 h2
    rw [if_pos (by omega)] at h2
    exact .inr ⟨s, s', rfl, rfl, by omega, h2⟩
  | succ k ih =>
    intro t s s' ht h1 h2
    rw [if_neg (by omega)] at h2
    rw [Rsmc.loop, Rsmc.loop]
    have key : (∃ e, Rsmc.step env { c with full := true } fuel t (start t) s = .error e ∧ Rsmc.step env { c with full := false } fuel t (start t) s' = .error e) ∨
        ∃ u u', Rsmc.step env { c with full := true } fuel t (start t) s = .ok u ∧ Rsmc.step env { c with full := false } fuel t (start t) s' = .ok u' ∧ u.journal.length = t + 1 ∧
          u' = { u with journal := if t + 1 = c.steps then u.journal.getLast?.toList else [] } := by
      have e1 : Rsmc.threshold { c with full := false } s' = Rsmc.threshold { c with full := true } s := by rw [h2]; rfl
      have e2 : Rsmc.wanted { c with full := false } s' = Rsmc.wanted { c with full := true } s := by rw [h2]; rfl
      have e3 : Rsmc.seen s' = Rsmc.seen s := by rw [h2]; rfl
      have e4 : s'.moves = s.moves := by rw [h2]
      have e5 : ∀ n, Rsmc.base { c with full := false } s' n = Rsmc.base { c with full := true } s n := by rw [h2]; intro n; rfl
      have e6 : s'.epsilons = s.epsilons ∧ s'.hist = s.hist ∧ s'.counter = s.counter := by rw [h2]; exact ⟨rfl, rfl, rfl⟩
      have e7 : ∀ m n a, Rsmc.nextMoves { c with full := false } m n a = Rsmc.nextMoves { c with full := true } m n a := fun _ _ _ => rfl
      have e8 : ∀ (p : List Θ) d, Rsmc.trim { c with full := false } p d = Rsmc.trim { c with full := true } p d := fun _ _ => rfl
      simp only [Rsmc.step, e1, e2, e3, e4, e5, e6.1, e6.2.1, e6.2.2, e7, e8]
      cases Rsmc.threshold { c with full := true } s with
      | none => exact .inl ⟨_, rfl, rfl⟩
      | some eps =>
        simp only
        by_cases hf : eps < c.epsFinal
        · rw [if_pos hf, if_pos hf]; exact .inl ⟨_, rfl, rfl⟩
        · rw [if_neg hf, if_neg hf]
          by_cases hw : (start t).length ≠ Rsmc.wanted { c with full := true } s ∨ start t = []
          · rw [if_pos hw, if_pos hw]; exact .inl ⟨_, rfl, rfl⟩
          · rw [if_neg hw, if_neg hw]
            cases collect ((start t).map fun e => Rsmc.accept env fuel eps (Rsmc.seen s) s.moves.toNat e.1 e.2) with
            | none => exact .inl ⟨_, rfl, rfl⟩
            | some out =>
              simp only
              cases collect (out.map Rsmc.Out.d) with
              | none => exact .inl ⟨_, rfl, rfl⟩
              | some ds =>
                simp only
                cases Rsmc.nextMoves { c with full := true } s.moves (start t).length (out.map Rsmc.Out.accepted).sum with
                | none => exact .inl ⟨_, rfl, rfl⟩
                | some moves =>
                  refine .inr ⟨_, _, rfl, rfl, by simp [h1], ?_⟩
                  simp only [if_true, Bool.false_eq_true, if_false]
                  by_cases hl : t + 1 = c.steps
                  · rw [if_pos (show t = c.steps - 1 by omega), if_pos hl]
                    simp
                  · rw [if_neg (show ¬ t = c.steps - 1 by omega), if_neg hl, h2]
    rcases key with ⟨e, h3, h4⟩ | ⟨u, u', h3, h4, h5, h6⟩
    · rw [h3, h4]; exact .inl ⟨e, rfl, rfl⟩
    · rw [h3, h4]
      exact ih (t + 1) u u' (by omega) h5 h6

/-! ### SABC -/

/-- **C210 for `SABC`.** Both calls fail, or both return with the same particles, temperature and number of simulations, and the journal without full output holds the last population of the journal with full output,
also if the run stopped early. -/
theorem C210_sabc (env : Sabc.Env W Θ Y) (c : Sabc.Config) (fuel : Nat) (start : Nat → List W) :
    (Sabc.run env { c with full := true } fuel start = none ∧ Sabc.run env { c with full := false } fuel start = none) ∨
    ∃ s s', Sabc.run env { c with full := true } fuel start = some s ∧ Sabc.run env { c with full := false } fuel start = some s' ∧ s' = { s with journal := s.journal.getLast?.toList } ∧ (0 < c.steps → s.journal ≠ []) := by
  unfold Sabc.run
  simp only
  rw [sabcLoop_run, sabcLoop_run]
  let Rel : Nat → Sabc.State Θ → Sabc.State Θ → Prop := fun t s s' => s' = { s with journal := s.journal.getLast?.toList } ∧ (0 < t → s.journal ≠ []) ∧ (t = 0 → s.stopped = false)
  have hfin : ∀ t u (a : Sabc.State Θ), (Sabc.finish env { c with full := true } t u a = none ∧ Sabc.finish env { c with full := false } t u { a with journal := a.journal.getLast?.toList } = none) ∨
      ∃ v v', Sabc.finish env { c with full := true } t u a = some v ∧ Sabc.finish env { c with full := false } t u { a with journal := a.journal.getLast?.toList } = some v' ∧ Rel (t + 1) v v' := by
    intro t u a
    simp only [Sabc.finish, if_true, Bool.false_eq_true, if_false]
    split
    · split
      · split
        · exact .inr ⟨_, _, rfl, rfl, by simp, fun _ => by simp, by simp⟩
        · exact .inl ⟨rfl, rfl⟩
      · exact .inl ⟨rfl, rfl⟩
    · exact .inr ⟨_, _, rfl, rfl, by simp, fun _ => by simp, by simp⟩
  have hstep : ∀ t s s', t < c.steps → Rel t s s' → ((sabcLoop env { c with full := true } fuel start).step t s = none ∧ (sabcLoop env { c with full := false } fuel start).step t s' = none) ∨
      ∃ u u', (sabcLoop env { c with full := true } fuel start).step t s = some u ∧ (sabcLoop env { c with full := false } fuel start).step t s' = some u' ∧ Rel (t + 1) u u' := by
    intro t s s' ht hrel
    obtain ⟨h, hne, -⟩ := hrel
    have hm : ∀ w, Sabc.move env fuel c.n s' w = Sabc.move env fuel c.n s w := by rw [h]; intro w; rfl
    have hr : ∀ out, Sabc.replace s' out = Sabc.replace s out := by rw [h]; intro out; rfl
    have he : s'.counter = s.counter ∧ s'.accept = s.accept ∧ s'.until_ = s.until_ ∧ s'.journal = s.journal.getLast?.toList := by rw [h]; exact ⟨rfl, rfl, rfl, rfl⟩
    simp only [sabcLoop, Sabc.step, hm, hr, he.1, he.2.1, he.2.2.1, he.2.2.2]
    by_cases hg : (start t).length ≠ (if t = 0 then c.n else c.nUpdate) ∨ start t = []
    · rw [if_pos hg, if_pos hg]; exact .inl ⟨rfl, rfl⟩
    · rw [if_neg hg, if_neg hg]
      cases collect ((start t).map fun w => if t = 0 then Sabc.first env c.eps 0 fuel w [] 0 else Sabc.move env fuel c.n s w) with
      | none => exact .inl ⟨rfl, rfl⟩
      | some out =>
        simp only
        cases (if t = 0 then Sabc.begin_ out else Sabc.replace s out) with
        | none => exact .inl ⟨rfl, rfl⟩
        | some p =>
          simp only
          by_cases ht0 : t = 0
          · rw [if_pos ht0, if_pos ht0]
            cases collect (p.2.2.2.map (Sabc.smooth p.2.2.2)) with
            | none => exact .inl ⟨rfl, rfl⟩
            | some l => exact hfin _ _ _
          · rw [if_neg ht0, if_neg ht0]
            split
            · exact .inr ⟨_, _, rfl, rfl, rfl, fun _ => hne (by omega), by simp⟩
            · exact hfin _ _ _
  rcases Loop.sim _ _ c.steps Rel (fun t s s' h => by rw [h.1]; exact Iff.rfl) hstep c.steps 0 (by omega) ⟨[], [], [], [], c.eps, 0, 0, [], 0, false⟩ ⟨[], [], [], [], c.eps, 0, 0, [], 0, false⟩
    ⟨rfl, by simp, by simp⟩ with h | ⟨s, s', i, h1, h2, h3, ⟨h4, h5, h6⟩, h7⟩
  · exact .inl h
  · refine .inr ⟨s, s', h2, h3, h4, fun hs => ?_⟩
    rcases Nat.eq_zero_or_pos i with rfl | hi
    · rcases h7 with h7 | h7
      · omega
      · rw [show s.stopped = true from h7] at h6
        exact absurd (h6 rfl) (by simp)
    · exact h5 (by omega)

/-! ### ABCsubsim -/

/-- **C210 for `ABCsubsim`.** Both calls fail, or both return with the same annealing parameters, and the journal without full output holds the last population of the journal with full output, also if the run stopped
early. -/
theorem C210_subsim {M : Type} (env : Subsim.Env W Θ Y M) (c : Subsim.Config) (fuel : Nat) (start tuneStart : Nat → List W) :
    (Subsim.run env { c with full := true } fuel start tuneStart = none ∧ Subsim.run env { c with full := false } fuel start tuneStart = none) ∨
    ∃ s s', Subsim.run env { c with full := true } fuel start tuneStart = some s ∧ Subsim.run env { c with full := false } fuel start tuneStart = some s' ∧ s'.hist = s.hist ∧ s'.stopped = s.stopped ∧
      s'.journal = s.journal.getLast?.toList ∧ (0 < c.steps → s.journal ≠ []) := by
  unfold Subsim.run
  simp only [if_true, Bool.false_eq_true, if_false]
  rw [subsimLoop_run, subsimLoop_run]
  let Rel : Nat → Subsim.State Θ M → Subsim.State Θ M → Prop := fun t s s' => s' = { s with journal := [] } ∧ s.journal = s.hist.map Prod.fst ∧ s.hist.length = t ∧ (t = 0 → s.stopped = false)
  have hstep : ∀ t s s', t < c.steps → Rel t s s' →
      ((subsimLoop env { c with full := true } fuel start tuneStart).step t s = none ∧ (subsimLoop env { c with full := false } fuel start tuneStart).step t s' = none) ∨
      ∃ u u', (subsimLoop env { c with full := true } fuel start tuneStart).step t s = some u ∧ (subsimLoop env { c with full := false } fuel start tuneStart).step t s' = some u' ∧ Rel (t + 1) u u' := by
    intro t s s' ht hrel
    obtain ⟨h, hj, hl, -⟩ := hrel
    have he : s'.hist = s.hist ∧ s'.base = s.base ∧ s'.journal = [] := by rw [h]; exact ⟨rfl, rfl, rfl⟩
    simp only [subsimLoop, Subsim.step, he.1, he.2.1, he.2.2, if_true, Bool.false_eq_true, if_false]
    by_cases hg : (start t).length ≠ (if t = 0 then c.n else c.n / c.length) ∨ start t = [] ∨ c.length = 0 ∨ (tuneStart t).length ≠ 10
    · rw [if_pos hg, if_pos hg]; exact .inl ⟨rfl, rfl⟩
    · rw [if_neg hg, if_neg hg]
      split
      · exact .inl ⟨rfl, rfl⟩
      · split
        · split
          · exact .inl ⟨rfl, rfl⟩
          · split
            · exact .inl ⟨rfl, rfl⟩
            · exact .inr ⟨_, _, rfl, rfl, rfl, by simp [hj], by simp [hl], by simp⟩
        · exact .inl ⟨rfl, rfl⟩
  rcases Loop.sim _ _ c.steps Rel (fun t s s' h => by rw [h.1]; exact Iff.rfl) hstep c.steps 0 (by omega) ⟨[], [], [], false⟩ ⟨[], [], [], false⟩
    ⟨rfl, rfl, rfl, by simp⟩ with ⟨h1, h2⟩ | ⟨s, s', i, h1, h2, h3, ⟨h4, h5, h6, h8⟩, h7⟩
  · rw [h1, h2]; exact .inl ⟨rfl, rfl⟩
  · rw [h2, h3]
    refine .inr ⟨_, _, rfl, rfl, by rw [h4], by rw [h4], by rw [h4, h5]; simp, fun hs => ?_⟩
    simp only [h5, ne_eq, List.map_eq_nil_iff]
    intro h0
    rw [h0] at h6
    rcases h7 with h7 | h7
    · simp at h6; omega
    · rw [show s.stopped = true from h7] at h8
      exact absurd (h8 (by simpa using h6.symm)) (by simp)

/-! ### PMC -/

section PmcLik
open PmcLik

/-- **C210 for `PMC`**, in a call without a journal file. -/
theorem C210_pmc {M : Type} (env : Env M W Θ Y) (n fuel steps : Nat) (ini : Option (List Θ)) (m : M) (counter : Nat) :
    (sample env n steps fuel true ini m counter none = none ∧ sample env n steps fuel false ini m counter none = none) ∨
    ∃ m' pops c j j', sample env n steps fuel true ini m counter none = some (m', pops, c, j) ∧ sample env n steps fuel false ini m counter none = some (m', pops, c, j') ∧
      j.pops.length = steps ∧ j'.pops = j.pops.getLast?.toList ∧ j'.sims = j.sims.getLast?.toList := by
  unfold sample
  rcases first env n ini (env.prior m).1 with _ | ⟨x, p⟩
  · exact .inl ⟨rfl, rfl⟩
  simp only
  suffices hk : ∀ (k t : Nat) (x : M) (p : Pmc.Pop Θ) (c : Nat) (j j' : Journal Θ), t + k = steps → j.full = true → j'.full = false → j.pops.length = t →
      (if t = steps then j'.pops = j.pops.getLast?.toList ∧ j'.sims = j.sims.getLast?.toList else j'.pops = [] ∧ j'.sims = []) →
      (loop env n steps fuel true k t x p c j = none ∧ loop env n steps fuel false k t x p c j' = none) ∨
      ∃ m' pops c' u u', loop env n steps fuel true k t x p c j = some (m', pops, c', u) ∧ loop env n steps fuel false k t x p c j' = some (m', pops, c', u') ∧
        u.pops.length = steps ∧ u'.pops = u.pops.getLast?.toList ∧ u'.sims = u.sims.getLast?.toList from hk steps 0 x p counter _ _ (by omega) rfl rfl rfl (by split <;> simp)
  intro k
  induction k with
  | zero =>
    intro t x p c j j' ht hj hj' hl h
    rw [if_pos (by omega)] at h
    exact .inr ⟨x, [], c, j, j', rfl, rfl, by omega, h⟩
  | succ k ih =>
    intro t x p c j j' ht hj hj' hl h
    rw [if_neg (by omega)] at h
    rw [loop, loop]
    rcases step env n fuel x p with _ | ⟨y, q⟩
    · exact .inl ⟨rfl, rfl⟩
    · simp only
      have := ih (t + 1) y q (c + n * env.perParam) (write true steps t q (c + n * env.perParam) j) (write false steps t q (c + n * env.perParam) j') (by omega) (by simp [write, hj])
        (by unfold write; split <;> simp [hj']) (by simp [write, hj, hl]) (by
          unfold write
          simp only [true_or, if_true, hj, hj', Bool.false_eq_true, false_or, if_false]
          by_cases he : t + 1 = steps
          · rw [if_pos he, if_pos he]
            simp [h.2]
          · rw [if_neg he, if_neg he]
            exact h)
      rcases this with ⟨h1, h2⟩ | ⟨m', pops, c', u, u', h1, h2, h3⟩
      · rw [h1, h2]; exact .inl ⟨rfl, rfl⟩
      · rw [h1, h2]
        exact .inr ⟨m', q :: pops, c', u, u', rfl, rfl, h3⟩

end PmcLik

/-! ### PMCABC -/

section Pmc
open Verif.Pmc

/-- **C210 for `PMCABC`**, in a call without a journal file. -/
theorem C210_pmcabc (env : Pmc.Env W Θ Y) (steps : Nat) (epsInit : List ℝ) (pct : ℝ) (fuel : Nat) (start : Nat → List W) (before : Option (Pop Θ)) (counter : Nat) :
    (session env steps epsInit pct fuel true start before counter none = none ∧ session env steps epsInit pct fuel false start before counter none = none) ∨
    ∃ s j j', session env steps epsInit pct fuel true start before counter none = some (s, j) ∧ session env steps epsInit pct fuel false start before counter none = some (s, j') ∧
      j.pops.length = steps ∧ j'.pops = j.pops.getLast?.toList ∧ j'.sims = j.sims.getLast?.toList ∧ j'.epsArr = j.epsArr := by
  unfold session opening
  cases initEps epsInit steps with
  | none => exact .inl ⟨rfl, rfl⟩
  | some arr =>
    simp only [Option.isSome_none]
    suffices hk : ∀ (k t : Nat) (s : State Θ) (j j' : Journal Θ), t + k = steps → j.full = true → j'.full = false → j.pops.length = t → j'.epsArr = j.epsArr →
        (if t = steps then j'.pops = j.pops.getLast?.toList ∧ j'.sims = j.sims.getLast?.toList else j'.pops = [] ∧ j'.sims = []) →
        (sessionLoop env steps pct fuel true false start k t s j = none ∧ sessionLoop env steps pct fuel false false start k t s j' = none) ∨
        ∃ v u u', sessionLoop env steps pct fuel true false start k t s j = some (v, u) ∧ sessionLoop env steps pct fuel false false start k t s j' = some (v, u') ∧
          u.pops.length = steps ∧ u'.pops = u.pops.getLast?.toList ∧ u'.sims = u.sims.getLast?.toList ∧ u'.epsArr = u.epsArr from
      hk steps 0 _ _ _ (by omega) rfl rfl rfl rfl (by split <;> simp)
    intro k
    induction k with
    | zero =>
      intro t s j j' ht hj hj' hl he h
      rw [if_pos (by omega)] at h
      exact .inr ⟨s, j, j', rfl, rfl, by omega, h.1, h.2, he⟩
    | succ k ih =>
      intro t s j j' ht hj hj' hl he h
      rw [if_neg (by omega)] at h
      rw [sessionLoop, sessionLoop]
      cases hs : pmcStep env steps pct fuel t (start t) s with
      | none => exact .inl ⟨rfl, rfl⟩
      | some s1 =>
        simp only
        have hr : ∃ r, s1.hist = s.hist ++ [r] := by
          unfold pmcStep at hs
          split at hs
          · split at hs
            · split at hs
              · cases hs
              · simp only at hs
                split at hs
                · cases hs
                · simp only [Option.some.injEq] at hs
                  rw [← hs]
                  exact ⟨_, rfl⟩
            · cases hs
          · cases hs
        obtain ⟨r, hr⟩ := hr
        have hg : s1.hist.getLast? = some r := by rw [hr]; simp
        have w1 : write true false steps t s1 j = { j with pops := j.pops ++ [r], sims := j.sims ++ [s1.counter], epsArr := some s1.epsArr } := by
          simp [write, hg, Journal.add, hj, Journal.addEps]
        have w2 : write false false steps t s1 j' = { j' with pops := if t + 1 = steps then [r] else j'.pops, sims := if t + 1 = steps then j'.sims ++ [s1.counter] else j'.sims, epsArr := some s1.epsArr } := by
          by_cases hl : t + 1 = steps <;> simp [write, hg, Journal.add, hj', Journal.addEps, hl]
        refine ih (t + 1) s1 _ _ (by omega) (by rw [w1]; exact hj) (by rw [w2]; exact hj') (by rw [w1]; simp [hl]) (by rw [w1, w2]) ?_
        rw [w1, w2]
        by_cases hl : t + 1 = steps
        · simp [hl, h.2]
        · simp [hl, h]

end Pmc

/-! ### Concrete runs -/

/-- Two steps of `SMCABC`: without full output the journal has one population. -/
example : ∃ s', Smc.smcRun Smc.exEnv { Smc.exConfig 0 with full := false } ⟨fun _ _ => [0, 0], fun _ => 1⟩ (some 1) 1 (fun _ => [0, 1]) = some s' ∧ s'.journal = [⟨[0, 1], [0, 1], [0, 2], [1, 0]⟩] := by
  obtain ⟨s, h, hlast, hd, -, hg⟩ := Smc.exRun 0 ⟨[0, 1], [1, 0]⟩ (by norm_num [Smc.resampled, Smc.exConfig, Smc.ess]) _ _ _ _ rfl
  rcases C210_smcabc Smc.exEnv (Smc.exConfig 0) ⟨fun _ _ => [0, 0], fun _ => 1⟩ 1 (fun _ => [0, 1]) (some 1) with ⟨h1, -⟩ | ⟨s1, s', h1, h2, h3⟩
  · exact absurd (h.symm.trans h1) (by simp)
  · obtain rfl : s = s1 := Option.some.inj (h.symm.trans h1)
    exact ⟨s', h2, by rw [h3.2.2.2.2.2.2, hg, hlast]; rfl⟩

/-- Three steps of `RSMCABC`. -/
example : ∃ s', Rsmc.run Rsmc.exEnv { Rsmc.exThree with full := false } 2 Rsmc.exStart = .ok s' ∧ s'.journal.length = 1 := by
  obtain ⟨s, -, h, -⟩ := Rsmc.C119_rsmc_run_violated
  rcases C210_rsmcabc Rsmc.exEnv Rsmc.exThree 2 Rsmc.exStart with ⟨e, h1, -⟩ | ⟨s1, s', h1, h2, -, -, -, h3, h4⟩
  · exact absurd (h.symm.trans h1) (by simp)
  · refine ⟨s', h2, ?_⟩
    rw [h4]
    cases hj : s1.journal with
    | nil => rw [hj] at h3; simp [Rsmc.exThree] at h3
    | cons a l => rw [List.getLast?_eq_some_getLast (by simp)]; rfl

/-- A run of `SABC` that stops early. -/
example : ∃ s', Sabc.run Sabc.exEnv ⟨1, 2, 2, 10, 1 / 10, 1, 6 / 10, false⟩ 1 Sabc.exStart = some s' ∧ s'.stopped = true ∧ s'.journal = [([1], [1])] := by
  obtain ⟨s, h, hs, -, -, hj⟩ := Sabc.C46_sabc_violated
  rcases C210_sabc Sabc.exEnv ⟨1, 2, 2, 10, 1 / 10, 1, 6 / 10, true⟩ 1 Sabc.exStart with ⟨h1, -⟩ | ⟨s1, s', h1, h2, h3, -⟩
  · exact absurd (h.symm.trans h1) (by simp)
  · obtain rfl : s = s1 := Option.some.inj (h.symm.trans h1)
    exact ⟨s', h2, by rw [h3]; exact hs, by rw [h3, hj]; rfl⟩

/-- Two steps of `ABCsubsim`. -/
example : ∃ s', Subsim.run Subsim.exEnv ⟨5, 2, 2, 0, false⟩ 1 Subsim.exStart Subsim.exTune = some s' ∧ s'.hist.length = 2 ∧ s'.journal.length = 1 := by
  obtain ⟨s, h, hh⟩ := Subsim.exRun
  rcases C210_subsim Subsim.exEnv ⟨5, 2, 2, 0, true⟩ 1 Subsim.exStart Subsim.exTune with ⟨h1, -⟩ | ⟨s1, s', h1, h2, h3, -, h4, h5⟩
  · exact absurd (h.symm.trans h1) (by simp)
  · obtain rfl : s = s1 := Option.some.inj (h.symm.trans h1)
    refine ⟨s', h2, by rw [h3]; simpa using congrArg List.length hh, ?_⟩
    rw [h4, List.getLast?_eq_some_getLast (h5 (by simp))]
    rfl

/-- Any number of steps of `PMC`. -/
example (n steps : Nat) : ∃ r, PmcLik.sample PmcLik.easy n (steps + 1) 1 false none () 0 none = some r ∧ r.2.2.2.pops.length = 1 := by
  obtain ⟨r, h⟩ : ∃ r, PmcLik.sample PmcLik.easy n (steps + 1) 1 true none () 0 none = some r := by
    unfold PmcLik.sample PmcLik.first
    exact PmcLik.easy_loop n (steps + 1) (steps + 1) 0 0 true _ _ (PmcLik.initial_draws PmcLik.easy n _).2 (by simp)
  rcases C210_pmc PmcLik.easy n 1 (steps + 1) none () 0 with ⟨h1, -⟩ | ⟨m', pops, c, j, j', h1, h2, h3, h4, -⟩
  · exact absurd (h.symm.trans h1) (by simp)
  · refine ⟨_, h2, ?_⟩
    simp only
    rw [h4, List.getLast?_eq_some_getLast (by intro h0; rw [h0] at h3; simp at h3)]
    rfl

end Verif.Files
