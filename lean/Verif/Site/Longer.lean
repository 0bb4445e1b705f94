import Verif.Site.Files
import Verif.Pmc.Restart
import Verif.Mcmc.Burnin
import Verif.Rsmc.Restart
/-
C209: a call of `sample` with more steps begins like the call with fewer steps. Two calls with the same arguments but for `steps` (`n_samples` for `MCMCMetropoliHastings`) and the same random numbers are compared.
-/
namespace Verif.Files

variable {S R : Type}

/-- In one iteration the journal gets one population, or none and the run stops. -/
def Loop.Grows (l : Loop S (List R)) : Prop := ∀ t s s', l.step t s = some s' → (∃ r, l.journal s' = l.journal s ++ [r]) ∨ (l.journal s' = l.journal s ∧ l.stop s')

theorem Loop.run_stop {J : Type} (l : Loop S J) (k t : Nat) (s : S) (h : l.stop s) : l.run k t s = some s := by
  cases k with
  | zero => rfl
  | succ k => rw [Loop.run, if_pos h]

theorem Loop.run_split {J : Type} (l : Loop S J) (k m t : Nat) (s s' : S) (h : l.run (k + m) t s = some s') : ∃ s1, l.run k t s = some s1 ∧ l.run m (t + k) s1 = some s' := by
  induction k generalizing t s with
  | zero => exact ⟨s, rfl, by simpa using h⟩
  | succ k ih =>
    by_cases hs : l.stop s
    · rw [Loop.run_stop l _ _ _ hs] at h ⊢
      exact ⟨s, rfl, by rw [Loop.run_stop l _ _ _ hs, h]⟩
    · rw [show k + 1 + m = k + m + 1 by omega, Loop.run, if_neg hs] at h
      rw [Loop.run, if_neg hs]
      cases h1 : l.step t s with
      | none => rw [h1] at h; cases h
      | some s1 =>
        rw [h1] at h
        obtain ⟨s2, h2, h3⟩ := ih (t + 1) s1 h
        exact ⟨s2, h2, by rw [show t + (k + 1) = t + 1 + k by omega]; exact h3⟩

theorem Loop.run_journal (l : Loop S (List R)) (hg : l.Grows) (k t : Nat) (s s' : S) (h : l.run k t s = some s') :
    ∃ d, l.journal s' = l.journal s ++ d ∧ d.length ≤ k ∧ (d.length = k ∨ l.stop s') := by
  induction k generalizing t s with
  | zero =>
    rw [Loop.run, Option.some.injEq] at h
    exact ⟨[], by rw [h]; simp, by simp, .inl rfl⟩
  | succ k ih =>
    rw [Loop.run] at h
    split at h
    · rename_i hs
      rw [Option.some.injEq] at h
      exact ⟨[], by rw [h]; simp, by simp, .inr (h ▸ hs)⟩
    · cases h1 : l.step t s with
      | none => rw [h1] at h; cases h
      | some s1 =>
        rw [h1] at h
        rcases hg t s s1 h1 with ⟨r, hr⟩ | ⟨hr, hs⟩
        · obtain ⟨d, e1, e2, e3⟩ := ih (t + 1) s1 h
          exact ⟨r :: d, by rw [e1, hr]; simp, by simp; omega, e3.imp (fun h => by simp [h]) id⟩
        · simp only at h
          rw [Loop.run_stop l _ _ _ hs, Option.some.injEq] at h
          exact ⟨[], by rw [← h, hr]; simp, by simp, .inr (h ▸ hs)⟩

/-- The journal after fewer iterations is the beginning of the journal. -/
theorem Loop.shorter (l : Loop S (List R)) (hg : l.Grows) (k n : Nat) (hk : k ≤ n) (s s' : S) (h0 : l.journal s = []) (h : l.run n 0 s = some s') :
    ∃ s1, l.run k 0 s = some s1 ∧ l.journal s1 = (l.journal s').take k := by
  obtain ⟨m, rfl⟩ := Nat.exists_eq_add_of_le hk
  obtain ⟨s1, h1, h2⟩ := Loop.run_split l k m 0 s s' h
  refine ⟨s1, h1, ?_⟩
  obtain ⟨d, e1, e2, e3⟩ := Loop.run_journal l hg _ _ _ _ h1
  obtain ⟨d', f1, f2, -⟩ := Loop.run_journal l hg _ _ _ _ h2
  rw [h0, List.nil_append] at e1
  rcases e3 with e3 | e3
  · rw [f1, e1, ← e3, List.take_left]
  · rw [Loop.run_stop l _ _ _ e3, Option.some.injEq] at h2
    rw [← h2, e1, List.take_of_length_le e2]

/-! ### The samplers -/

section
variable {W Θ Y : Type}

/-- `smcLoop` with no iterations from `steps` on. -/
noncomputable def smcBounded (env : Smc.Env W Θ Y) (c : Smc.Config) (dr : Smc.Draws) (fuel : Nat) (start : Nat → List W) : Loop (Smc.State Θ Y) (List (Smc.Rec Θ Y)) :=
  ⟨fun s => s.cur ≤ c.final, fun t s => if t < c.steps then Smc.smcStep env c dr fuel t (start t) s else none, fun _ => False, Smc.State.journal⟩

/-- **C209 for `SMCABC`**, with full output: if a call returns, then so does the same call with fewer steps, with the first populations. -/
theorem C209_smcabc (env : Smc.Env W Θ Y) (c : Smc.Config) (dr : Smc.Draws) (fuel : Nat) (start : Nat → List W) (hf : c.full = true) (distMax : Option ℝ) (s : Smc.State Θ Y)
    (h : Smc.smcRun env c dr distMax fuel start = some s) (k : Nat) (hk : k ≤ c.steps) :
    ∃ s', Smc.smcRun env { c with steps := k } dr distMax fuel start = some s' ∧ s'.journal = s.journal.take k := by
  unfold Smc.smcRun at h
  split at h
  · rename_i hc
    rw [smcLoop_run] at h
    have hg : (smcBounded env c dr fuel start).Grows := by
      intro t s s' h1
      left
      simp only [smcBounded] at h1 ⊢
      split at h1
      · rename_i ht
        have hsave : ∀ past cur wts l, ∃ r, (Smc.save c t s past cur wts l).journal = s.journal ++ [r] := by
          intro past cur wts l
          unfold Smc.save
          simp only
          rw [if_pos (Or.inl ⟨hf, by omega⟩), if_pos hf]
          exact ⟨_, rfl⟩
        unfold Smc.smcStep at h1
        split at h1
        · rw [Option.some.injEq] at h1; rw [← h1]; exact hsave s.past s.cur (Smc.equalWeights c.n) ((start t).map (Smc.initial env))
        · split at h1
          · cases h1
          · split at h1
            · cases h1
            · split at h1
              · cases h1
              · split at h1
                · cases h1
                · rw [Option.some.injEq] at h1; rw [← h1]; exact hsave _ _ _ _
      · cases h1
    replace h := (Loop.run_congr (smcLoop env c dr fuel start) (smcBounded env c dr fuel start) c.steps 0 _ (fun s => Iff.rfl) fun i _ hi s => (if_pos (show i < c.steps by omega)).symm).symm.trans h
    obtain ⟨s1, h1, h2⟩ := Loop.shorter _ hg k c.steps hk _ _ rfl h
    refine ⟨s1, ?_, h2⟩
    unfold Smc.smcRun
    rw [if_pos hc, smcLoop_run, ← h1]
    refine Loop.run_congr _ _ _ _ _ (fun s => Iff.rfl) fun i _ hi s => ?_
    replace hi : i < 0 + k := hi
    have hsave : ∀ past cur wts l, Smc.save { c with steps := k } i s past cur wts l = Smc.save c i s past cur wts l := by
      intro past cur wts l
      unfold Smc.save
      rw [if_pos (Or.inl ⟨hf, by show i ≤ k - 1; omega⟩), if_pos (Or.inl ⟨hf, by omega⟩)]
    simp only [smcBounded]
    rw [if_pos (show i < c.steps by omega)]
    simp only [smcLoop, Smc.smcStep]
    split
    · rw [hsave]
    · simp only [hsave]
      rfl
  · cases h

/-- **C209 for `RSMCABC`**, with full output. -/
theorem C209_rsmcabc (env : Rsmc.Env W Θ Y) (c : Rsmc.Config) (fuel : Nat) (start : Nat → List (W × Θ)) (hf : c.full = true) (s : Rsmc.State Θ) (h : Rsmc.run env c fuel start = .ok s) (k : Nat)
    (hk : k ≤ c.steps) : ∃ s', Rsmc.run env { c with steps := k } fuel start = .ok s' ∧ s'.journal = s.journal.take k := by
  unfold Rsmc.run at h
  replace h := (rsmcLoop_run env c fuel start c.steps 0 ⟨[], none, 1, [], [], 0⟩).symm.trans (congrArg Except.toOption h)
  have hg : (rsmcLoop env c fuel start).Grows := by
    intro t s s' h1
    left
    simp only [rsmcLoop] at h1 ⊢
    cases hs : Rsmc.step env c fuel t (start t) s with
    | error e => rw [hs] at h1; cases h1
    | ok s1 =>
      rw [hs] at h1
      simp only [Except.toOption, Option.some.injEq] at h1
      subst h1
      unfold Rsmc.step at hs
      repeat' (split at hs)
      all_goals first
        | cases hs
          done
        | (simp only [Except.ok.injEq] at hs
           rw [← hs]
           simp only [hf, if_true]
           exact ⟨_, rfl⟩)
  obtain ⟨s1, h1, h2⟩ := Loop.shorter _ hg k c.steps hk _ _ rfl h
  refine ⟨s1, ?_, h2⟩
  have : (Rsmc.run env { c with steps := k } fuel start).toOption = some s1 := by
    unfold Rsmc.run
    rw [rsmcLoop_run, ← h1]
    refine Loop.run_congr _ _ _ _ _ (fun s => Iff.rfl) fun i _ hi s => ?_
    simp only [rsmcLoop, Rsmc.step, hf, if_true]
    rfl
  cases hr : Rsmc.run env { c with steps := k } fuel start with
  | error e => rw [hr] at this; cases this
  | ok s1 => rw [hr] at this; simp only [Except.toOption, Option.some.injEq] at this; rw [this]

/-- **C209 for `SABC`**, with full output. -/
theorem C209_sabc (env : Sabc.Env W Θ Y) (c : Sabc.Config) (fuel : Nat) (start : Nat → List W) (hf : c.full = true) (s : Sabc.State Θ) (h : Sabc.run env c fuel start = some s) (k : Nat) (hk : k ≤ c.steps) :
    ∃ s', Sabc.run env { c with steps := k } fuel start = some s' ∧ s'.journal = s.journal.take k := by
  unfold Sabc.run at h
  rw [sabcLoop_run] at h
  have hfin : ∀ t u (a a' : Sabc.State Θ), Sabc.finish env c t u a = some a' → ∃ r, a'.journal = a.journal ++ [r] := by
    intro t u a a' h
    unfold Sabc.finish at h
    simp only [hf, if_true] at h
    split at h
    · split at h
      · split at h
        · simp only [Option.some.injEq] at h; rw [← h]; exact ⟨_, rfl⟩
        · cases h
      · cases h
    · simp only [Option.some.injEq] at h; rw [← h]; exact ⟨_, rfl⟩
  have hg : (sabcLoop env c fuel start).Grows := by
    intro t s s' h1
    replace h1 : Sabc.step env c fuel t (start t) s = some s' := h1
    by_cases hs : s'.stopped = true
    · exact .inr ⟨(sabc_stopped env c fuel start t s s' h1 hs).2, hs⟩
    · left
      unfold Sabc.step at h1
      by_cases ht : t = 0
      · subst ht
        simp only [if_true] at h1
        split at h1
        · cases h1
        · split at h1
          · cases h1
          · split at h1
            · cases h1
            · split at h1
              · cases h1
              · have := hfin _ _ _ _ h1; exact this
      · simp only [if_neg ht] at h1
        split at h1
        · cases h1
        · split at h1
          · cases h1
          · split at h1
            · cases h1
            · split at h1
              · simp only [Option.some.injEq] at h1; rw [← h1] at hs; exact absurd rfl hs
              · have := hfin _ _ _ _ h1; exact this
  obtain ⟨s1, h1, h2⟩ := Loop.shorter _ hg k c.steps hk _ _ rfl h
  refine ⟨s1, ?_, h2⟩
  unfold Sabc.run
  rw [sabcLoop_run, ← h1]
  exact Loop.run_congr _ _ _ _ _ (fun s => Iff.rfl) fun i _ hi s => rfl

/-- **C209 for `APMCABC`**, with full output. -/
theorem C209_apmcabc (env : Apmc.Env W Θ Y) (c : Apmc.Config) (fuel : Nat) (start : Nat → List W) (hf : c.full = true) (s : Apmc.State Θ) (h : Apmc.run env c fuel start = some s) (k : Nat) (hk : k ≤ c.steps) :
    ∃ s', Apmc.run env { c with steps := k } fuel start = some s' ∧ s'.journal = s.journal.take k := by
  unfold Apmc.run at h
  rw [apmcLoop_run] at h
  have hg : (apmcLoop env c fuel start).Grows := by
    intro t s s' h1
    left
    replace h1 : Apmc.step env c fuel t (start t) s = some s' := h1
    unfold Apmc.step at h1
    split at h1
    · cases h1
    · split at h1
      · cases h1
      · split at h1
        · cases h1
        · simp only [Option.some.injEq, hf, if_true] at h1
          rw [← h1]
          exact ⟨_, rfl⟩
  obtain ⟨s1, h1, h2⟩ := Loop.shorter _ hg k c.steps hk _ _ rfl h
  refine ⟨s1, ?_, h2⟩
  unfold Apmc.run
  rw [apmcLoop_run, ← h1]
  refine Loop.run_congr _ _ _ _ _ (fun s => Iff.rfl) fun i _ hi s => ?_
  simp only [apmcLoop, Apmc.step, hf, if_true]
  rfl

/-- **C209 for `ABCsubsim`**, with full output. -/
theorem C209_subsim {M : Type} (env : Subsim.Env W Θ Y M) (c : Subsim.Config) (fuel : Nat) (start tuneStart : Nat → List W) (hf : c.full = true) (s : Subsim.State Θ M)
    (h : Subsim.run env c fuel start tuneStart = some s) (k : Nat) (hk : k ≤ c.steps) :
    ∃ s', Subsim.run env { c with steps := k } fuel start tuneStart = some s' ∧ s'.journal = s.journal.take k := by
  unfold Subsim.run at h
  rw [subsimLoop_run] at h
  simp only [hf, if_true] at h
  rw [show (fun s : Subsim.State Θ M => ({ s with journal := s.journal } : Subsim.State Θ M)) = id from rfl, Option.map_id, id] at h
  have hg : (subsimLoop env c fuel start tuneStart).Grows := by
    intro t s s' h1
    left
    replace h1 : Subsim.step env c fuel t (start t) (tuneStart t) s = some s' := h1
    unfold Subsim.step at h1
    rw [Option.ite_none_left_eq_some] at h1
    replace h1 := h1.2
    simp only at h1
    split at h1
    · cases h1
    · split at h1
      · split at h1
        · cases h1
        · rw [Option.ite_none_left_eq_some] at h1
          replace h1 := h1.2
          simp only [Option.some.injEq, hf, if_true] at h1
          rw [← h1]
          exact ⟨_, rfl⟩
      · cases h1
  obtain ⟨s1, h1, h2⟩ := Loop.shorter _ hg k c.steps hk _ _ rfl h
  refine ⟨s1, ?_, h2⟩
  unfold Subsim.run
  rw [subsimLoop_run]
  rw [show (subsimLoop env { c with steps := k } fuel start tuneStart).run k 0 ⟨[], [], [], false⟩ = some s1 from
    .trans (Loop.run_congr _ (subsimLoop env c fuel start tuneStart) _ _ _ (fun s => Iff.rfl) fun i _ hi s => rfl) h1]
  simp only [hf, if_true, Option.map_some]

end

/-! ### PMC -/

section PmcLik
open PmcLik
variable {M W Θ Y : Type} (env : Env M W Θ Y) (n fuel : Nat)

theorem pmc_loop_grows (a m t : Nat) (x : M) (p : Pmc.Pop Θ) (c : Nat) (j : Journal Θ) (hj : j.full = true) (r : M × List (Pmc.Pop Θ) × Nat × Journal Θ)
    (h : loop env n a fuel true m t x p c j = some r) : ∃ more sims, r.2.2.2.pops = j.pops ++ more ∧ r.2.2.2.sims = j.sims ++ sims := by
  induction m generalizing t x p c j r with
  | zero =>
    rw [loop, Option.some.injEq] at h
    exact ⟨[], [], by rw [← h]; simp, by rw [← h]; simp⟩
  | succ m ih =>
    rw [loop] at h
    split at h
    · cases h
    · rename_i y q _
      rw [Option.map_eq_some_iff] at h
      obtain ⟨r1, h1, h2⟩ := h
      obtain ⟨more, sims, e1, e2⟩ := ih _ _ _ _ _ (by simp [write, hj]) r1 h1
      simp only [write, true_or, if_true, hj] at e1 e2
      exact ⟨q :: more, (c + n * env.perParam) :: sims, by rw [← h2]; simp [e1], by rw [← h2]; simp [e2]⟩

/-- The populations that a call makes, and what it adds to the journal, do not depend on the iterations that come later. -/
theorem pmc_loop_shorter (a b k m t : Nat) (x : M) (p : Pmc.Pop Θ) (c : Nat) (j : Journal Θ) (hj : j.full = true) (r : M × List (Pmc.Pop Θ) × Nat × Journal Θ)
    (h : loop env n a fuel true (k + m) t x p c j = some r) :
    ∃ r', loop env n b fuel true k t x p c j = some r' ∧ r'.2.1 = r.2.1.take k ∧ r'.2.2.2.pops = r.2.2.2.pops.take (j.pops.length + k) ∧ r'.2.2.2.sims = r.2.2.2.sims.take (j.sims.length + k) := by
  induction k generalizing t x p c j r with
  | zero =>
    obtain ⟨more, sims, e1, e2⟩ := pmc_loop_grows env n fuel a _ t x p c j hj r h
    exact ⟨_, rfl, by simp, by simp [e1], by simp [e2]⟩
  | succ k ih =>
    rw [show k + 1 + m = k + m + 1 by omega, loop] at h
    rw [loop]
    split at h
    · cases h
    · rename_i y q hs
      rw [Option.map_eq_some_iff] at h
      obtain ⟨r1, h1, h2⟩ := h
      obtain ⟨r', e1, e2, e3, e4⟩ := ih _ _ _ _ _ (by simp [write, hj]) r1 h1
      simp only [write, true_or, if_true, hj, List.length_append, List.length_singleton] at e1 e3 e4
      refine ⟨(r'.1, q :: r'.2.1, r'.2.2.1, r'.2.2.2), ?_, by rw [← h2]; simp [e2], by rw [← h2, show j.pops.length + (k + 1) = j.pops.length + 1 + k by omega]; exact e3,
        by rw [← h2, show j.sims.length + (k + 1) = j.sims.length + 1 + k by omega]; exact e4⟩
      simp only [write, true_or, if_true, hj, e1, Option.map_some]

/-- **C209 for `PMC`**, with full output. -/
theorem C209_pmc (steps : Nat) (ini : Option (List Θ)) (m m' : M) (counter c : Nat) (pops : List (Pmc.Pop Θ)) (j : Journal Θ) (h : sample env n steps fuel true ini m counter none = some (m', pops, c, j)) (k : Nat)
    (hk : k ≤ steps) :
    ∃ m'' c' j', sample env n k fuel true ini m counter none = some (m'', pops.take k, c', j') ∧ j'.pops = j.pops.take k ∧ j'.sims = j.sims.take k := by
  obtain ⟨d, rfl⟩ := Nat.exists_eq_add_of_le hk
  unfold sample at h ⊢
  rcases hf : first env n ini (env.prior m).1 with _ | ⟨x, p⟩
  · rw [hf] at h; cases h
  · rw [hf] at h
    simp only at h ⊢
    obtain ⟨r', e1, e2, e3, e4⟩ := pmc_loop_shorter env n fuel _ k k d 0 x p counter ⟨true, [], []⟩ rfl _ h
    refine ⟨r'.1, r'.2.2.1, r'.2.2.2, by rw [e1, ← e2], by simpa using e3, by simpa using e4⟩

end PmcLik

/-! ### PMCABC -/

section Pmc
open Verif.Pmc
variable {W Θ Y : Type} (env : Pmc.Env W Θ Y)

/-- Thresholds that agree in the places that are read before iteration `m`. -/
def Agree (m : Nat) (a b : List (Option ℝ)) : Prop := ∀ i < m, a[i]? = b[i]?

theorem nextEps_agree {m n t : Nat} {pct : ℝ} {ds : List ℝ} {a b : List (Option ℝ)} (h : Agree m a b) (hm : m ≤ n) (ht : t < m) {a' : List (Option ℝ)} (ha : nextEps n t pct ds a = some a') :
    ∃ b', nextEps m t pct ds b = some b' ∧ Agree m a' b' := by
  unfold nextEps at ha ⊢
  by_cases h1 : t + 1 < m
  · rw [if_pos (by omega)] at ha
    rw [if_pos h1, ← h (t + 1) h1]
    split at ha
    · rename_i q e1 e2
      refine ⟨_, rfl, fun i hi => ?_⟩
      rw [Option.some.injEq] at ha
      rw [← ha, List.getElem?_set, List.getElem?_set, h i hi]
      have hl : t + 1 < a.length := (List.getElem?_eq_some_iff.1 e2).1
      have hl' : t + 1 < b.length := (List.getElem?_eq_some_iff.1 ((h _ h1).symm.trans e2)).1
      simp [hl, hl']
    · rename_i q e e1 e2
      refine ⟨_, rfl, fun i hi => ?_⟩
      rw [Option.some.injEq] at ha
      rw [← ha, List.getElem?_set, List.getElem?_set, h i hi]
      have hl : t + 1 < a.length := (List.getElem?_eq_some_iff.1 e2).1
      have hl' : t + 1 < b.length := (List.getElem?_eq_some_iff.1 ((h _ h1).symm.trans e2)).1
      simp [hl, hl']
    · cases ha
  · rw [if_neg h1]
    refine ⟨b, rfl, fun i hi => ?_⟩
    split at ha
    · split at ha
      · rw [Option.some.injEq] at ha
        rw [← ha, List.getElem?_set, if_neg (by omega), h i hi]
      · rw [Option.some.injEq] at ha
        rw [← ha, List.getElem?_set, if_neg (by omega), h i hi]
      · cases ha
    · rw [Option.some.injEq] at ha
      rw [← ha, h i hi]

theorem pmc_step_agree {m n t fuel : Nat} {pct : ℝ} {start : List W} {s s' : Pmc.State Θ} {b : List (Option ℝ)} (h : Agree m s.epsArr b) (hm : m ≤ n) (ht : t < m)
    (hs : pmcStep env n pct fuel t start s = some s') :
    ∃ b', pmcStep env m pct fuel t start { s with epsArr := b } = some { s' with epsArr := b' } ∧ Agree m s'.epsArr b' ∧ ∃ r, s'.hist = s.hist ++ [r] := by
  unfold pmcStep at hs ⊢
  simp only
  rw [← h t ht]
  split at hs
  · rename_i eps he
    split at hs
    · rename_i hw
      cases hc : collect (start.map (resampleTask env eps s.pop fuel)) with
      | none => simp only [hc] at hs; cases hs
      | some res =>
        simp only [hc] at hs
        cases hn : nextEps n t pct (res.map (·.2.1)) s.epsArr with
        | none => simp only [hn] at hs; cases hs
        | some a' =>
          simp only [hn, Option.some.injEq] at hs
          obtain ⟨b', h1, h2⟩ := nextEps_agree h hm ht hn
          refine ⟨b', ?_, by rw [← hs]; exact h2, by rw [← hs]; exact ⟨_, rfl⟩⟩
          simp only [hc, h1, hw, if_true]
          rw [← hs]
    · cases hs
  · cases hs

theorem pmc_loop_grows' {n fuel : Nat} {pct : ℝ} {start : Nat → List W} {d t : Nat} {s s' : Pmc.State Θ} (h : Verif.Pmc.pmcLoop env n pct fuel start d t s = some s') :
    ∃ l, s'.hist = s.hist ++ l := by
  induction d generalizing t s with
  | zero =>
    rw [Verif.Pmc.pmcLoop, Option.some.injEq] at h
    exact ⟨[], by rw [h]; simp⟩
  | succ d ih =>
    rw [Verif.Pmc.pmcLoop] at h
    split at h
    · cases h
    · rename_i s1 h1
      obtain ⟨l, hl⟩ := ih h
      have : ∃ r, s1.hist = s.hist ++ [r] := by
        unfold pmcStep at h1
        split at h1
        · split at h1
          · split at h1
            · cases h1
            · simp only at h1
              split at h1
              · cases h1
              · simp only [Option.some.injEq] at h1
                rw [← h1]
                exact ⟨_, rfl⟩
          · cases h1
        · cases h1
      obtain ⟨r, hr⟩ := this
      exact ⟨r :: l, by rw [hl, hr]; simp⟩

theorem pmc_loop_agree {m n fuel : Nat} {pct : ℝ} {start : Nat → List W} (hm : m ≤ n) (k d : Nat) {t : Nat} (ht : t + k ≤ m) {s s' : Pmc.State Θ} {b : List (Option ℝ)} (h : Agree m s.epsArr b)
    (hs : Verif.Pmc.pmcLoop env n pct fuel start (k + d) t s = some s') :
    ∃ s1, Verif.Pmc.pmcLoop env m pct fuel start k t { s with epsArr := b } = some s1 ∧ s1.hist = s'.hist.take (s.hist.length + k) := by
  induction k generalizing t s b with
  | zero =>
    obtain ⟨l, hl⟩ := pmc_loop_grows' env hs
    exact ⟨_, rfl, by simp [hl]⟩
  | succ k ih =>
    rw [show k + 1 + d = k + d + 1 by omega, Verif.Pmc.pmcLoop] at hs
    split at hs
    · cases hs
    · rename_i s1 h1
      obtain ⟨b', e1, e2, r, e3⟩ := pmc_step_agree env h hm (by omega) h1
      obtain ⟨s2, f1, f2⟩ := ih (by omega) e2 hs
      refine ⟨s2, ?_, by rw [f2, e3]; congr 1; simp; omega⟩
      rw [Verif.Pmc.pmcLoop, e1]
      exact f1

/-- **C209 for `PMCABC`.** If thresholds are given for all steps, the shorter call is given the first ones. -/
theorem C209_pmcabc (steps : Nat) (epsInit : List ℝ) (pct : ℝ) (fuel : Nat) (start : Nat → List W) (before : Option (Pop Θ)) (counter : Nat) (s : Pmc.State Θ)
    (h : pmcRun env steps epsInit pct fuel start before counter = some s) (k : Nat)
    (hk : k ≤ steps) (hk0 : 0 < k) : ∃ s', pmcRun env k (epsInit.take k) pct fuel start before counter = some s' ∧ s'.hist = s.hist.take k := by
  unfold pmcRun at h ⊢
  cases ha : initEps epsInit steps with
  | none => rw [ha] at h; cases h
  | some arr =>
    rw [ha] at h
    obtain ⟨b, hb, hab⟩ : ∃ b, initEps (epsInit.take k) k = some b ∧ Agree k arr b := by
      unfold initEps at ha ⊢
      split at ha
      · rename_i hl
        rw [Option.some.injEq] at ha
        refine ⟨(epsInit.take k).map some, by rw [if_pos (by simp; omega)], fun i hi => ?_⟩
        rw [← ha, List.map_take, List.getElem?_take, if_pos hi]
      · split at ha
        · rename_i e n _
          obtain ⟨k, rfl⟩ := Nat.exists_eq_succ_of_ne_zero (by omega : k ≠ 0)
          rw [Option.some.injEq] at ha
          rw [← ha]
          by_cases hk1 : k = 0
          · subst hk1
            refine ⟨_, by simp; rfl, fun i hi => ?_⟩
            obtain rfl : i = 0 := by omega
            simp
          · refine ⟨some e :: List.replicate k none, by simp [hk1, Ne.symm hk1], fun i hi => ?_⟩
            cases i with
            | zero => simp
            | succ i =>
              rw [List.getElem?_cons_succ, List.getElem?_cons_succ, List.getElem?_replicate, List.getElem?_replicate, if_pos (by omega), if_pos (by omega)]
        · cases ha
    rw [hb]
    obtain ⟨d, rfl⟩ := Nat.exists_eq_add_of_le hk
    obtain ⟨s1, h1, h2⟩ := pmc_loop_agree env (Nat.le_add_right k d) k d (t := 0) (by omega) (s := ⟨arr, before, counter, []⟩) hab h
    exact ⟨s1, h1, by simpa using h2⟩

end Pmc

/-! ### MCMCMetropoliHastings -/

section Mcmc
open Verif.Mcmc
variable {W α T Cov : Type}

theorem mcmc_chain {env : Mcmc.Env W α T Cov} {b : Nat} {i : Option Nat} (n : Nat) {k : Nat} {s s' : Mcmc.State W α T Cov} (h : Mcmc.loop env b i (List.range' k n) s = some s') :
    ∃ l, s'.chain = s.chain ++ l ∧ l.length = k + n - max k b := by
  induction n generalizing k s with
  | zero =>
    rw [List.range'_zero, Mcmc.loop, Option.some.injEq] at h
    exact ⟨[], by rw [h]; simp, by simp⟩
  | succ n ih =>
    rw [List.range'_succ, Mcmc.loop] at h
    split at h
    · cases h
    · rename_i s1 h1
      obtain ⟨l, e1, e2⟩ := ih h
      have hrec : ∀ u : Mcmc.State W α T Cov, u.chain = s.chain → ∃ l, (u.record b k).chain = s.chain ++ l ∧ l.length = if k ≥ b then 1 else 0 := by
        intro u hu
        unfold State.record
        split
        · exact ⟨[u.cur], by simp [hu], rfl⟩
        · exact ⟨[], by simp [hu], rfl⟩
      have hone : ∃ l, s1.chain = s.chain ++ l ∧ l.length = if k ≥ b then 1 else 0 := by
        unfold Mcmc.step at h1
        simp only at h1
        split at h1
        · cases h1
        · split at h1
          · rw [Option.some.injEq] at h1; rw [← h1]; exact hrec _ rfl
          · split at h1
            · cases h1
            · have had : ∀ u v : Mcmc.State W α T Cov, u.adaptCov env b k i = some v → v.chain = u.chain := by
                intro u v hv
                unfold State.adaptCov at hv
                split at hv
                · rw [Option.some.injEq] at hv; rw [hv]
                · split at hv
                  · rw [Option.some.injEq] at hv; rw [hv]
                  · split at hv
                    · cases hv
                    · split at hv
                      · rw [Option.some.injEq] at hv; rw [← hv]
                      · rw [Option.some.injEq] at hv; rw [hv]
              rw [had _ _ h1]
              refine hrec _ ?_
              split <;> rfl
      obtain ⟨l', f1, f2⟩ := hone
      refine ⟨l' ++ l, by rw [e1, f1]; simp, ?_⟩
      rw [List.length_append, e2, f2]
      split <;> omega

theorem mcmc_cov {env : Mcmc.Env W α T Cov} {b : Nat} {i : Option Nat} (n : Nat) {k : Nat} (hb : b ≤ k) {s s' : Mcmc.State W α T Cov} (h : Mcmc.loop env b i (List.range' k n) s = some s') :
    s'.cov = s.cov := by
  induction n generalizing k s with
  | zero =>
    rw [List.range'_zero, Mcmc.loop, Option.some.injEq] at h
    rw [h]
  | succ n ih =>
    rw [List.range'_succ, Mcmc.loop] at h
    split at h
    · cases h
    · rename_i s1 h1
      rw [ih (by omega) h]
      unfold Mcmc.step State.record State.adaptCov at h1
      simp only [ge_iff_le, hb, if_true] at h1
      split at h1
      · cases h1
      · split at h1
        · rw [Option.some.injEq] at h1; rw [← h1]
        · split at h1
          · cases h1
          · rw [Option.some.injEq] at h1
            rw [← h1]
            simp only
            split <;> rfl

theorem columns_take (names : List String) (b : Nat) (chain : List (List α)) (name : String) :
    columns names (chain.take b) name = (columns names chain name).map fun c => c.take b := by
  unfold columns
  rw [Option.map_map]
  congr 1
  funext e
  simp [List.map_take]

/-- **C209 for `MCMCMetropoliHastings`**, with or without burn-in and adaptation: if a call returns, then so does the same call for fewer samples, with the first states of the chain, their columns and weights, and
the same proposal matrix. -/
theorem C209_mcmc (env : Mcmc.Env W α T Cov) (n b : Nat) (cov : Option Cov) (ini : Option (List α)) (i : Option Nat) (w : W) (counter : Nat) (r : W × Jrn α Cov)
    (h : fresh env ⟨n, b, cov, ini, i⟩ w counter = some r) (k : Nat) (hk : k ≤ n) (hk0 : 0 < k) :
    ∃ r', fresh env ⟨k, b, cov, ini, i⟩ w counter = some r' ∧ r'.2.chain = r.2.chain.take k ∧ r'.2.weights = r.2.weights.take k ∧ r'.2.n = k ∧ r'.2.cov = r.2.cov ∧
      ∀ name, r'.2.user name = (r.2.user name).map fun column => column.take k := by
  have hini : initial env ⟨k, b, cov, ini, i⟩ w = initial env ⟨n, b, cov, ini, i⟩ w := rfl
  unfold fresh at h ⊢
  rw [hini]
  generalize initial env ⟨n, b, cov, ini, i⟩ w = x at h ⊢
  simp only [begin_] at h ⊢
  cases ht : env.tr x.2 with
  | none => rw [ht] at h; cases h
  | some t =>
    rw [ht] at h
    simp only at h ⊢
    cases hj : env.jac x.2 with
    | none => rw [hj] at h; cases h
    | some lj =>
      rw [hj] at h
      simp only at h ⊢
      obtain ⟨d, rfl⟩ := Nat.exists_eq_add_of_le hk
      rw [List.range_eq_range', show b + (k + d) = b + k + d by omega, ← List.range'_append_1, loop_append, Nat.zero_add] at h
      rw [List.range_eq_range']
      cases h1 : Mcmc.loop env b i (List.range' 0 (b + k)) ⟨(env.loglik x.2 x.1).1, x.2, t, (env.loglik x.2 x.1).2, env.pdf x.2, lj, cov.getD (env.eye t), [], (if b = 0 then [x.2] else []), 0, counter + 1⟩ with
      | none => rw [h1] at h; cases h
      | some u =>
        rw [h1, Option.bind_some] at h
        simp only
        rw [if_neg (by omega)]
        cases h2 : Mcmc.loop env b i (List.range' (b + k) d) u with
        | none => rw [h2] at h; cases h
        | some v =>
          rw [h2] at h
          simp only at h
          rw [if_neg (by omega), Option.some.injEq] at h
          obtain ⟨l, e1, e2⟩ := mcmc_chain _ h1
          obtain ⟨l', f1, f2⟩ := mcmc_chain _ h2
          have hl : u.chain.length = k := by rw [e1]; simp [e2]
          have hc : u.chain = v.chain.take k := by rw [f1, ← hl, List.take_left]
          refine ⟨_, rfl, ?_, ?_, rfl, ?_, ?_⟩
          · rw [← h]; exact hc
          · rw [← h]; simp [List.take_replicate]
          · rw [← h]; exact (mcmc_cov _ (by omega) h2).symm
          · intro name
            rw [← h]
            simp only [asDict_namedColumns, hc]
            exact columns_take _ _ _ _

end Mcmc

/-! ### Concrete runs -/

/-- The first population of the example of `SMCABC`. -/
example : ∃ s s', Smc.smcRun Smc.exEnv (Smc.exConfig 0) ⟨fun _ _ => [0, 0], fun _ => 1⟩ (some 1) 1 (fun _ => [0, 1]) = some s ∧ s.done = 2 ∧
    Smc.smcRun Smc.exEnv { Smc.exConfig 0 with steps := 1 } ⟨fun _ _ => [0, 0], fun _ => 1⟩ (some 1) 1 (fun _ => [0, 1]) = some s' ∧ s'.journal = s.journal.take 1 := by
  obtain ⟨s, h, -, hd, -⟩ := Smc.exRun 0 ⟨[0, 1], [1, 0]⟩ (by norm_num [Smc.resampled, Smc.exConfig, Smc.ess]) _ _ _ _ rfl
  obtain ⟨s', h1, h2⟩ := C209_smcabc _ _ _ _ _ rfl _ _ h 1 (by simp [Smc.exConfig])
  exact ⟨s, s', h, hd, h1, h2⟩

/-- Two of the three steps of the example of `RSMCABC`. -/
example : ∃ s s', Rsmc.run Rsmc.exEnv Rsmc.exThree 2 Rsmc.exStart = .ok s ∧ Rsmc.run Rsmc.exEnv { Rsmc.exThree with steps := 2 } 2 Rsmc.exStart = .ok s' ∧ s'.journal = s.journal.take 2 := by
  obtain ⟨s, -, h, -⟩ := Rsmc.C119_rsmc_run_violated
  obtain ⟨s', h1, h2⟩ := C209_rsmcabc _ _ _ _ rfl _ h 2 (by simp [Rsmc.exThree])
  exact ⟨s, s', h, h1, h2⟩

/-- A run of `SABC` that stops early in the second step. -/
example : ∃ s s', Sabc.run Sabc.exEnv ⟨1, 2, 2, 10, 1 / 10, 1, 6 / 10, true⟩ 1 Sabc.exStart = some s ∧ s.stopped = true ∧
    Sabc.run Sabc.exEnv ⟨1, 1, 2, 10, 1 / 10, 1, 6 / 10, true⟩ 1 Sabc.exStart = some s' ∧ s'.journal = [([1], [1])] := by
  obtain ⟨s, h, hs, -, -, hj⟩ := Sabc.C46_sabc_violated
  obtain ⟨s', h1, h2⟩ := C209_sabc _ _ _ _ rfl _ h 1 (by simp)
  exact ⟨s, s', h, hs, h1, by rw [h2, hj]; rfl⟩

/-- The first of two steps of `APMCABC`. -/
example : ∃ s s', Apmc.run Apmc.exEnv ⟨3, 2, 1 / 2, 0, true⟩ 1 Apmc.threeStart = some s ∧ Apmc.run Apmc.exEnv ⟨3, 1, 1 / 2, 0, true⟩ 1 Apmc.threeStart = some s' ∧
    (s'.journal.map fun r => r.params.length) = [3] := by
  obtain ⟨-, -, s, h, -, hl, -⟩ := Apmc.C49_size_violated
  obtain ⟨s', h1, h2⟩ := C209_apmcabc _ _ _ _ rfl _ h 1 (by simp)
  exact ⟨s, s', h, h1, by rw [h2, List.map_take, hl]; rfl⟩

/-- The first of two steps of `ABCsubsim`. -/
example : ∃ s s', Subsim.run Subsim.exEnv ⟨5, 2, 2, 0, true⟩ 1 Subsim.exStart Subsim.exTune = some s ∧ Subsim.run Subsim.exEnv ⟨5, 1, 2, 0, true⟩ 1 Subsim.exStart Subsim.exTune = some s' ∧
    s'.journal = s.journal.take 1 := by
  obtain ⟨s, h, -⟩ := Subsim.exRun
  obtain ⟨s', h1, h2⟩ := C209_subsim _ _ _ _ _ rfl _ h 1 (by simp)
  exact ⟨s, s', h, h1, h2⟩

/-- Any number of steps of `PMC`. -/
example (n steps k : Nat) (hk : k ≤ steps) : ∃ r r', PmcLik.sample PmcLik.easy n steps 1 true none () 0 none = some r ∧ PmcLik.sample PmcLik.easy n k 1 true none () 0 none = some r' ∧
    r'.2.2.2.pops = r.2.2.2.pops.take k := by
  obtain ⟨r, h⟩ : ∃ r, PmcLik.sample PmcLik.easy n steps 1 true none () 0 none = some r := by
    unfold PmcLik.sample PmcLik.first
    exact PmcLik.easy_loop n steps steps 0 0 true _ _ (PmcLik.initial_draws PmcLik.easy n _).2 (by simp)
  obtain ⟨m, c, j, h1, h2, -⟩ := C209_pmc PmcLik.easy n 1 steps none () r.1 0 r.2.2.1 r.2.1 r.2.2.2 h k hk
  exact ⟨r, _, h, h1, h2⟩

/-- The first of two steps of `PMCABC`. -/
example : ∃ s', Pmc.pmcRun Pmc.easy 1 [1] 50 3 (fun _ => [(), ()]) none 0 = some s' ∧ s'.hist = [⟨1, [1, 1], [0, 0], [1 / 2, 1 / 2]⟩] := by
  obtain ⟨s, h, hh, -⟩ := Pmc.easy_run
  obtain ⟨s', h1, h2⟩ := C209_pmcabc _ _ _ _ _ _ _ _ _ h 1 (by simp) one_pos
  exact ⟨s', h1, by rw [h2, hh]; rfl⟩

/-- Two of three states of a chain. -/
example : ∃ r, Mcmc.fresh Mcmc.exEnv ⟨2, 0, none, none, none⟩ ([2, 5, 1, 2], [1 / 4, 9 / 10, 3 / 4]) 0 = some r ∧ r.2.chain = [[2], [2]] ∧ r.2.weights = [1, 1] := by
  have e : Mcmc.fresh Mcmc.exEnv ⟨3, 0, none, none, none⟩ ([2, 5, 1, 2], [1 / 4, 9 / 10, 3 / 4]) 0 =
      some (([2], [3 / 4]), ⟨[[2], [2], [1]], Mcmc.columns ["theta"] [[2], [2], [1]], [1, 1, 1], [2 / 3], [3], 3, 0, ()⟩) := by
    norm_num [Mcmc.fresh, Mcmc.exEnv, Mcmc.initial, Mcmc.begin_, Mcmc.loop, Mcmc.step, Mcmc.State.record, Mcmc.State.adaptCov, Mcmc.accepts, Mcmc.alpha, List.range_succ, Mcmc.asDict_namedColumns, List.replicate]
  obtain ⟨r, h1, h2, h3, -⟩ := C209_mcmc _ _ _ _ _ _ _ _ _ e 2 (by simp) two_pos
  exact ⟨r, h1, by rw [h2]; rfl, by rw [h3]; rfl⟩

end Verif.Files
