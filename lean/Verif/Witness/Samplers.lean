import Verif.Smc.Props
import Verif.Smc.Restart
import Verif.Apmc.Run
import Verif.Sabc.Run
import Verif.Rsmc.Run
import Verif.Subsim.Deviations
import Verif.Pmc.Restart
import Verif.Mcmc.Props
/-
Theorems about runs of the samplers, applied to the concrete runs that are computed beside other theorems: their hypotheses are met.
-/
namespace Verif.Witness

/-! ### PMCABC: the run of two steps `Pmc.easy_run` -/

/-- C39. -/
example : ∃ s, Pmc.pmcRun Pmc.easy 2 [1] 50 3 (fun _ => [(), ()]) none 0 = some s ∧ s.hist.length = 2 ∧ (s.hist.map (·.eps)).Pairwise (· ≥ ·) := by
  obtain ⟨s, h, -⟩ := Pmc.easy_run
  obtain ⟨h1, -, h2, -⟩ := Pmc.C39_thresholds Pmc.easy 2 1 50 3 (fun _ => [(), ()]) none 0 s h
  exact ⟨s, h, h1, h2⟩

/-- C39: two thresholds for three steps. -/
example : Pmc.pmcRun Pmc.easy 3 [1, 2] 50 3 (fun _ => [(), ()]) none 0 = none :=
  Pmc.C39_refused Pmc.easy 3 [1, 2] 50 3 (fun _ => [(), ()]) none 0 (by simp) (by simp)

/-- C39: one threshold for one step. -/
example : ∃ s, Pmc.pmcRun Pmc.easy 1 [1] 50 3 (fun _ => [(), ()]) none 0 = some s ∧ ∀ r ∈ s.hist, ∀ d ∈ r.distances, d ≤ r.eps := by
  have : ∃ s, Pmc.pmcRun Pmc.easy 1 [1] 50 3 (fun _ => [(), ()]) none 0 = some s := by
    have he : Pmc.initEps [1] 1 = some [some 1] := by simp [Pmc.initEps]
    rw [Pmc.pmcRun, he]
    simp only [Pmc.pmcLoop]
    norm_num [Pmc.pmcStep, Pmc.easy_prior, collect, Pmc.nextEps]
  obtain ⟨s, h⟩ := this
  exact ⟨s, h, (Pmc.C39_given Pmc.easy 1 [1] rfl 50 3 (fun _ => [(), ()]) none 0 s h).2.2⟩

/-! ### SMCABC: the run of two steps of `Smc.exRun` -/

/-- C42, C44, C46. -/
example : ∃ s, Smc.smcRun Smc.exEnv (Smc.exConfig 0) ⟨fun _ _ => [0, 0], fun _ => 1⟩ (some 1) 1 (fun _ => [0, 1]) = some s ∧ s.epsilons.Pairwise (· > ·) ∧
    (∀ r ∈ s.journal, r.weights.sum = 1) ∧ s.journal.getLast? = s.last := by
  obtain ⟨s, h, -, hd, -⟩ : ∃ s, Smc.smcRun Smc.exEnv (Smc.exConfig 0) ⟨fun _ _ => [0, 0], fun _ => 1⟩ (some 1) 1 (fun _ => [0, 1]) = some s ∧
    s.last = some ⟨[0, 1], [0, 1], [0, 2], [1, 0]⟩ ∧ s.done = 2 ∧ s.epsilons = [1, 0.9995] ∧ s.journal.getLast? = s.last :=
    Smc.exRun 0 ⟨[0, 1], [1, 0]⟩ (by norm_num [Smc.resampled, Smc.exConfig, Smc.ess]) _ _ _ _ rfl
  refine ⟨s, h, (Smc.C42_thresholds _ _ _ _ _ _ s h).2.1, ?_, (Smc.C46_smc_partial _ _ _ _ _ _ s h (by omega)).2⟩
  intro r hr
  exact ((Smc.C44_weights _ _ _ _ _ _ s (by norm_num [Smc.exConfig]) h).1 r hr).2.1

/-! ### APMCABC: the run of `Apmc.C49_size_violated` -/

/-- C46. -/
example : ∃ s, Apmc.run Apmc.exEnv ⟨3, 2, 1 / 2, 0, true⟩ 1 Apmc.threeStart = some s ∧ s.hist ≠ [] ∧ s.journal.getLast? = s.hist.getLast? := by
  obtain ⟨-, -, s, h, hl, -⟩ := Apmc.C49_size_violated
  have hj : s.journal = s.hist := by
    obtain ⟨-, -, -, -, -, -, hj⟩ := Apmc.C100_run Apmc.exEnv ⟨3, 2, 1 / 2, 0, true⟩ 1 Apmc.threeStart s (by norm_num) h
    simpa using hj
  have hne : s.hist ≠ [] := by
    intro h0
    rw [hj, h0] at hl
    cases hl
  exact ⟨s, h, hne, Apmc.C46_apmc_partial _ _ _ _ s h hne (Or.inl rfl)⟩

/-! ### SABC: the run of `Sabc.C46_sabc_violated`, and one that is not stopped -/

/-- C51, C79. -/
example : ∃ s, Sabc.run Sabc.exEnv ⟨1, 2, 2, 10, 1 / 10, 1, 6 / 10, true⟩ 1 Sabc.exStart = some s ∧ s.params.length = 1 ∧
    ∀ (i : Nat) (θ d : ℝ), s.params[i]? = some θ → s.distances[i]? = some d → ∃ w, d = Sabc.exEnv.dist (Sabc.exEnv.sim θ w).2 := by
  obtain ⟨s, h, -⟩ := Sabc.C46_sabc_violated
  refine ⟨s, h, ?_, (Sabc.C79_own_distances _ _ _ _ s (by norm_num) h).2.1⟩
  exact (Sabc.C51_population _ _ _ _ s (by norm_num) (fun y => abs_nonneg y) h).2.1

/-- C46: one step, not stopped. -/
example : ∃ s, Sabc.run Sabc.exEnv ⟨1, 1, 2, 10, 1 / 10, 1, 6 / 10, true⟩ 1 Sabc.exStart = some s ∧ s.stopped = false ∧ s.journal.getLast? = some (s.params, s.distances) := by
  have : ∃ s, Sabc.run Sabc.exEnv ⟨1, 1, 2, 10, 1 / 10, 1, 6 / 10, true⟩ 1 Sabc.exStart = some s ∧ s.stopped = false := by
    norm_num [Sabc.run, Sabc.loop, Sabc.step, Sabc.exStart, Sabc.first, Sabc.exEnv, collect, Sabc.begin_, Sabc.smooth, Sabc.smoothAt, List.min?, Sabc.finish]
  obtain ⟨s, h, hs⟩ := this
  exact ⟨s, h, hs, Sabc.C46_sabc_partial _ _ _ _ s (by norm_num) h hs⟩

/-! ### RSMCABC: the run `Rsmc.exRun` -/

/-- C48. -/
example : ∃ s, Rsmc.run Rsmc.exEnv (Rsmc.exConfig 0) 2 Rsmc.exStart = .ok s ∧ s.epsilons.Pairwise (· ≥ ·) ∧ s.hist.length = 2 := by
  have h := Rsmc.C48_thresholds Rsmc.exEnv (Rsmc.exConfig 0) (by norm_num [Rsmc.exConfig]) (by norm_num [Rsmc.exConfig]) 2 Rsmc.exStart _ Rsmc.exRun
  exact ⟨_, Rsmc.exRun, h.2.2.2.1, h.1⟩

/-! ### ABCsubsim: the run `Subsim.exRun` -/

/-- C50: five samples in chains of two. -/
example : ∃ s, Subsim.run Subsim.exEnv ⟨5, 2, 2, 0, true⟩ 1 Subsim.exStart Subsim.exTune = some s ∧ ∃ r a, s.hist[1]? = some (r, a) ∧ r.params.length < 5 := by
  obtain ⟨s, h, he⟩ := Subsim.exRun
  have hl : s.hist.length = 2 := by have := congrArg List.length he; simpa using this
  refine ⟨s, h, (s.hist[1]).1, (s.hist[1]).2, ?_, ?_⟩
  · rw [List.getElem?_eq_getElem (by omega)]
  · exact (Subsim.C50_size_violated Subsim.exEnv _ 1 _ _ s h 1 one_pos _ _ (List.getElem?_eq_getElem (by omega)) (by norm_num)).2.1

end Verif.Witness
