import Verif.Witness.More
import Verif.Units.Smc
import Verif.Units.Sabc
import Verif.Scale.Apmc
import Verif.Site.RunChains
import Verif.Site.RunOthers
import Verif.Site.RunExamples
import Verif.Site.EndToEnd
/-
Theorems about units, factors of densities, missing numbers and graphs applied to concrete runs.
-/
namespace Verif.Witness

/-! ### Units -/

section
open Smc Units

/-- C204: in half the unit both bisections stop at once, and so the threshold of the second step is that of the first run, in the new unit. -/
example : smcStep (smcIn (1 / 2) exEnv) (smcConfigIn (1 / 2) (exConfig 0)) ⟨fun _ _ => [0, 0], fun _ => 1⟩ 1 1 [0, 1]
      (smcStateIn (1 / 2) ⟨[], 1, some ⟨[0, 1], [0, 1], [0, 2], [1 / 2, 1 / 2]⟩, [], 1, 2⟩) =
    (smcStep exEnv (exConfig 0) ⟨fun _ _ => [0, 0], fun _ => 1⟩ 1 1 [0, 1] ⟨[], 1, some ⟨[0, 1], [0, 1], [0, 2], [1 / 2, 1 / 2]⟩, [], 1, 2⟩).map (smcStateIn (1 / 2)) := by
  refine C204_smc_partial (by norm_num) exEnv (exConfig 0) _ 1 1 [0, 1] _ fun p hp => ?_
  unfold newEps
  have h1 : ∀ f : ℝ → ℝ, bisection f 0.001 1 0.999 1 = some 0.9995 := fun f => by
    rw [bisection, if_neg (by norm_num)]
    norm_num
  have h2 : ∀ f : ℝ → ℝ, bisection f 0.001 1 (1 / 2 * 0.999) (1 / 2 * 1) = some (1 / 2 * 0.9995) := fun f => by
    rw [bisection, if_neg (by norm_num)]
    norm_num
  simp only [smcConfigIn, exConfig]
  rw [h1, h2]
  norm_num

end

/-- C204, SABC, after the first step: distances in metres and in feet. -/
example (fuel k : Nat) (s : Sabc.State Nat) :
    Sabc.loop (Units.sabcIn 3 Units.sabcEx) (Units.sabcConfigIn 3 ⟨2, 2, 1, 5, 1, 1, 0, true⟩) fuel (fun _ => [0]) k 1 (Units.sabcStateIn 3 s) =
      (Sabc.loop Units.sabcEx ⟨2, 2, 1, 5, 1, 1, 0, true⟩ fuel (fun _ => [0]) k 1 s).map (Units.sabcStateIn 3) :=
  Units.C204_sabc_rest (by norm_num) _ _ _ _ _ _ one_ne_zero s

/-! ### Factors of densities -/

section
open Apmc Scale

/-- C203: the second step of the run of `C203_apmc_violated`. One particle is carried over and one is new. -/
example : ∃ s₁ s₂ q q' x, step exEnv ⟨3, 2, 1 / 2, 0, true⟩ 1 1 (threeStart 1) ⟨[1], [⟨1, [0, 1, 2], [0, 1, 2], [1, 1, 1], [0], [0], [1]⟩], [], false⟩ = some s₁ ∧
    step (apmcEnv 3 1 exEnv) ⟨3, 2, 1 / 2, 0, true⟩ 1 1 (threeStart 1) ⟨[1], [⟨1, [0, 1, 2], [0, 1, 2], [1, 1, 1], [0], [0], [1]⟩], [], false⟩ = some s₂ ∧
    s₁.hist.getLast? = some q ∧ s₂.hist.getLast? = some q' ∧ q.weights = [1, x] ∧ q'.weights = [1, 3 / 1 * x] := by
  have hw : wanted ⟨3, 2, 1 / 2, 0, true⟩ 1 = 1 := by simp only [wanted]; rw [pyRound_three]; rfl
  have h2 : ∃ s, step exEnv ⟨3, 2, 1 / 2, 0, true⟩ 1 1 (threeStart 1) ⟨[1], [⟨1, [0, 1, 2], [0, 1, 2], [1, 1, 1], [0], [0], [1]⟩], [], false⟩ = some s := by
    have := percentile_two 1 zero_le_one
    norm_num [step, threeStart, hw, seen, accept, Smc.propose, exEnv, collect, merge, acceptance, keep, select, Pmc.normalise, mixture, this]
  obtain ⟨s, h2⟩ := h2
  obtain ⟨s₂, q, q', new, a1, a2, a3, -, -, -, -, -, a4, a5, a6⟩ :=
    C203_apmc_step (k := 1) (by norm_num : (0 : ℝ) < 3) exEnv ⟨3, 2, 1 / 2, 0, true⟩ 1 1 (threeStart 1) (by simp [threeStart]) _ s ⟨1, [0, 1, 2], [0, 1, 2], [1, 1, 1], [0], [0], [1]⟩ rfl h2
  obtain ⟨x, rfl⟩ : ∃ x, new = [x] := List.length_eq_one_iff.1 (by rw [a4]; rfl)
  exact ⟨s, s₂, q, q', x, h2, a1, by rw [a2]; rfl, by rw [a3]; rfl, a5, a6⟩

end

/-! ### Values that are no numbers -/

/-- C200: two particles, one of which has likelihood zero. It gets weight zero. -/
example : Nan.PmcLik.weights [(.num 0, 1, 1), (.negInf, 1, 1)] = [.num 1, .num 0] := by
  rw [(Nan.PmcLik.C200_weights [(.num 0, 1, 1), (.negInf, 1, 1)] (by simp) ⟨by simp, 0, by simp⟩).1]
  norm_num [Pmc.normalise, Nan.PmcLik.likelihood]

/-! ### Averages -/

section
open MeasureTheory Rejection

theorem all_accepted : acceptedSet (Ω := Bool) some (fun _ => (0 : ℝ)) 1 = Set.univ := by
  ext ω
  simp [acceptedSet, accepted]

/-- C177: the frequency of heads among `n` tosses of a fair coin. -/
example (n : ℕ) (hn : 0 < n) :
    ∫ ω, ((∑ i ∈ Finset.range n, value id (fun b => if b then 1 else 0) (acceptedSet some (fun _ => (0 : ℝ)) 1) i ω) / n -
      abcMean Expr.fair id some (fun _ => 0) 1 fun b => if b then 1 else 0) ^ 2 ∂streams Expr.fair = abcVariance Expr.fair id some (fun _ => 0) 1 (fun b => if b then 1 else 0) / n :=
  C177_error Expr.fair id some (fun _ => 0) 1 (f := fun b => if b then 1 else 0) (measurable_of_finite _) (by rw [all_accepted]; exact MeasurableSet.univ) (by rw [all_accepted, measure_univ]; exact one_ne_zero) Integrable.of_finite.integrableOn n hn

/-- C177, one task: the first outcome is tails and is refused, and so the task returns heads. -/
example : ∃ d c w, rejectTask (trialStream id fun b : Bool => if b then some () else none) (fun _ => (0 : ℝ)) 5 1 9 (fun k => k == 1) = .done (true, d, c, w) := by
  have h1 : (fun k => k == 1 : ℕ → Bool) 1 ∈ acceptedSet (fun b : Bool => if b then some () else none) (fun _ => (0 : ℝ)) 1 := by simp [acceptedSet, accepted]
  have hb : ∀ j < 1, (fun k => k == 1 : ℕ → Bool) j ∉ acceptedSet (fun b : Bool => if b then some () else none) (fun _ => (0 : ℝ)) 1 := by
    intro j hj
    interval_cases j
    simp [acceptedSet, accepted]
  have e := firstAt_eq (s := fun k => k == 1) (k := 1) h1 hb
  obtain ⟨d, c, w, h⟩ := C177_task id (fun b : Bool => if b then some () else none) (fun _ => (0 : ℝ)) 5 1 (by norm_num) (fun k => k == 1) ⟨1, h1⟩ 9 (by rw [e]; norm_num)
  rw [hit, e] at h
  exact ⟨d, c, w, h⟩

end

/-! ### Graphs -/

section
open Site

/-- C146, APMCABC on a graph: two tasks on one process in reverse order, a kernel that uses the population. -/
example (consts : Nat → Option Int) (kern : Pmc.Pop (List (Option Int)) → List (Option Int) → List (Option Int) → ℝ) (c : Apmc.Config) (fuel : Nat) :
    (apmcRun (plainFor fun a : Pmc.Pop (List (Option Int)) × Nat => a.1.params.length + a.2) Prod.mk kern c fuel (fun _ => [5, 6]) (fun _ => some [(0, 1), (0, 0)]) (fresh consts)).map Prod.snd =
      Apmc.run (apmcEnv (plainFor fun a : Pmc.Pop (List (Option Int)) × Nat => a.1.params.length + a.2) consts Prod.mk kern) c fuel fun _ => starts [5, 6] :=
  C146_apmcabc _ (plainFor_plain _) consts (plainFor_draws _ consts) (plainFor_inside _ consts) _ _ _ _ _ _ (fun _ l h => by
    simp only [Option.some.injEq] at h
    subst h
    exact List.Perm.swap 0 1 []) _ (fresh_good _ consts)

/-- C147 for SMCABC: the run `smc_run_example`. -/
example (consts : Nat → Option Int) (kern : Pmc.Pop (List (Option Int)) → List (Option Int) → List (Option Int) → ℝ) (dr : Smc.Draws) (res : ℝ) (fuel : Nat) :
    ∃ st s, smcRun plain lucky consts (fun _ i => i) (fun _ _ => 0) kern (fun y => [plain.dist y]) ⟨2, false, 1, 1, 1 / 2, res, 0, none, true⟩ dr fuel (fun _ => [3, 104])
      (fun _ => some [(1, 1), (0, 0)]) (fresh consts) = some (st, s) ∧ ∀ r ∈ s.journal, ∀ θ ∈ r.params, Fits plain consts θ := by
  obtain ⟨st, s, h, -⟩ := smc_run_example consts kern dr res fuel
  refine ⟨st, s, h, fun r hr => (C147_smcabc_partial plain lucky plain_plain consts (plain_draws consts) (plain_inside consts) _ _ _ _ _ _ _ _ _ (fun t l hl => by
      simp only [Option.some.injEq] at hl
      subst hl
      exact List.Perm.swap 0 1 []) _ (fresh_good plain consts) st s h r (List.mem_append_left _ hr)).1⟩

end

end Verif.Witness
