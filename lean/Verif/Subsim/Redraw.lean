import Verif.Redraw
import Verif.Subsim.Deviations
import Verif.Smc.Target

/-!
# C105: the distribution that the chains of `ABCsubsim` do leave as it is

Chains with the default kernels, whose densities are symmetric. All proposals of a chain are perturbations of the same value `base` (C105_base) and are drawn again when the prior excludes them.
-/

namespace Verif.Subsim

open Verif.Pmc (Pop)
open MeasureTheory ProbabilityTheory Measure Set
open scoped ENNReal

variable {W X Y M : Type} [MeasurableSpace X] [MeasurableSpace Y]

/-! ### Model -/

/-- The values that the loop of lines 2353-2356 of `abcpy/inferences.py` accepts. -/
def support (env : Env W X Y M) : Set X := {x | env.pdf x ≠ 0}

/-- One pass of the loop of lines 2352-2380 (see `chain`): the expectation of `f` of value and data after it, given that the inner loop ends within `tries` draws from `Q`, the law of perturbations of `base`. -/
noncomputable def passMean (env : Env W X Y M) (covs : List M) (anneal : ℝ) (Q : Measure X) (sim : Kernel X Y) (tries : ℕ) (f : X × Y → ℝ≥0∞) (z : X × Y) : ℝ≥0∞ :=
  Redraw.moveMean (Redraw.proposed Q (support env) tries) sim (fun z z' => prob env covs anneal z.1 z'.1 (env.dist z'.2)) f z

/-- A chain: the expectation of `f` after `n` passes. -/
noncomputable def chainMean (env : Env W X Y M) (covs : List M) (anneal : ℝ) (Q : Measure X) (sim : Kernel X Y) (tries : ℕ) (f : X × Y → ℝ≥0∞) : ℕ → X × Y → ℝ≥0∞
  | 0 => f
  | n + 1 => passMean env covs anneal Q sim tries (chainMean env covs anneal Q sim tries f n)

/-! ### Specification -/

/-- The prior, restricted to data whose distance is below the annealing parameter: the average of `f` under it, not normalised. -/
noncomputable def restricted (env : Env W X Y M) (anneal : ℝ) (sim : Kernel X Y) (prior : Measure X) (f : X × Y → ℝ≥0∞) : ℝ≥0∞ :=
  ∫⁻ x, ∫⁻ y, {y | env.dist y < anneal}.indicator (fun y => f (x, y)) y ∂sim x ∂prior

/-- What is taken to hold: densities are not negative and measurable, the kernel is symmetric, its density at `base` is that of the perturbations of `base`, and the prior density that of the prior. -/
structure Setting (env : Env W X Y M) (covs : List M) (base : X) (Q : Measure X) (μ prior : Measure X) : Prop where
  pdf0 : ∀ a, 0 ≤ env.pdf a
  kernel0 : ∀ a b, 0 < env.kernel covs a b
  symm : ∀ a b, env.kernel covs a b = env.kernel covs b a
  pdfMeas : Measurable env.pdf
  kernelMeas : Measurable fun q : X × X => env.kernel covs q.1 q.2
  distMeas : Measurable env.dist
  proposals : Q = μ.withDensity fun x => ENNReal.ofReal (env.kernel covs base x)
  markov : IsProbabilityMeasure Q
  prior : prior = μ.withDensity fun x => ENNReal.ofReal (env.pdf x)

/-! ### Proofs -/

variable {env : Env W X Y M} {covs : List M} {base : X} {Q μ prior : Measure X}

/-- For symmetric kernels the density of the proposals from `base` corrects the flows of C105. -/
theorem C105_flow (pdf : X → ℝ) (q : X → X → ℝ) (base x x' : X) (hp : 0 < pdf x) (hp' : 0 < pdf x') (hq : 0 < q x x') (hs : q x x' = q x' x) :
    q base x * flow pdf q base x x' = q base x' * flow pdf q base x' x := by
  have hq' : 0 < q x' x := hs ▸ hq
  unfold flow Rsmc.Spec.metropolis
  rw [hs, mul_div_mul_right _ _ hq'.ne', mul_div_mul_right _ _ hq'.ne']
  have h1 : pdf x * min 1 (pdf x' / pdf x) = min (pdf x) (pdf x') := by
    rw [mul_min_of_nonneg _ _ hp.le, mul_one, mul_div_cancel₀ _ hp.ne']
  have h2 : pdf x' * min 1 (pdf x / pdf x') = min (pdf x') (pdf x) := by
    rw [mul_min_of_nonneg _ _ hp'.le, mul_one, mul_div_cancel₀ _ hp'.ne']
  calc q base x * (pdf x * q base x' * min 1 (pdf x' / pdf x)) = q base x * q base x' * (pdf x * min 1 (pdf x' / pdf x)) := by ring
    _ = q base x' * q base x * (pdf x' * min 1 (pdf x / pdf x')) := by rw [h1, h2, min_comm, mul_comm (q base x)]
    _ = _ := by ring

section

variable [SFinite μ] (sim : Kernel X Y) [IsMarkovKernel sim] (S : Setting env covs base Q μ prior) (anneal : ℝ)

include S

theorem Setting.probMeas : Measurable fun q : (X × Y) × (X × Y) => prob env covs anneal q.1.1 q.2.1 (env.dist q.2.2) := by
  have d1 : Measurable fun q : (X × Y) × (X × Y) => env.pdf q.1.1 := S.pdfMeas.comp (measurable_fst.comp measurable_fst)
  have d2 : Measurable fun q : (X × Y) × (X × Y) => env.pdf q.2.1 := S.pdfMeas.comp (measurable_fst.comp measurable_snd)
  have k1 : Measurable fun q : (X × Y) × (X × Y) => env.kernel covs q.1.1 q.2.1 := S.kernelMeas.comp ((measurable_fst.comp measurable_fst).prodMk (measurable_fst.comp measurable_snd))
  have k2 : Measurable fun q : (X × Y) × (X × Y) => env.kernel covs q.2.1 q.1.1 := S.kernelMeas.comp ((measurable_fst.comp measurable_snd).prodMk (measurable_fst.comp measurable_fst))
  have e2 : Measurable fun q : (X × Y) × (X × Y) => env.dist q.2.2 := S.distMeas.comp (measurable_snd.comp measurable_snd)
  unfold prob
  exact (measurable_const.min ((d2.div d1).mul (k2.div k1))).mul (Measurable.ite (measurableSet_lt e2 measurable_const) measurable_const measurable_const)

theorem Setting.prob_mem (x x' : X) (d : ℝ) : 0 ≤ prob env covs anneal x x' d ∧ prob env covs anneal x x' d ≤ 1 := by
  have h : 0 ≤ min 1 (env.pdf x' / env.pdf x * (env.kernel covs x' x / env.kernel covs x x')) :=
    le_min zero_le_one (mul_nonneg (div_nonneg (S.pdf0 _) (S.pdf0 _)) (div_nonneg (S.kernel0 _ _).le (S.kernel0 _ _).le))
  unfold prob
  split_ifs
  · rw [mul_one]
    exact ⟨h, min_le_left _ _⟩
  · rw [mul_zero]
    exact ⟨le_rfl, zero_le_one⟩

theorem Setting.supportMeas : MeasurableSet (support env) := (measurableSet_eq_fun S.pdfMeas measurable_const).compl

theorem Setting.baseMeas : Measurable fun x => ENNReal.ofReal (env.kernel covs base x) := (S.kernelMeas.comp measurable_prodMk_left).ennreal_ofReal

theorem Setting.passMeas (tries : ℕ) (ht : 0 < tries) (f : X × Y → ℝ≥0∞) (hf : Measurable f) : Measurable (passMean env covs anneal Q sim tries f) := by
  have hk : Measurable fun q : X × X => ENNReal.ofReal (env.kernel covs base q.2) := S.baseMeas.comp measurable_snd
  have := Redraw.moveMeas μ (fun _ x => ENNReal.ofReal (env.kernel covs base x)) hk (fun _ => by rw [← S.proposals]; exact S.markov) _ S.supportMeas sim tries ht _ (S.probMeas anneal)
    (fun z z' => (S.prob_mem anneal z.1 z'.1 (env.dist z'.2)).1) f hf
  simp only [← S.proposals] at this
  exact this

theorem Setting.restricted_eq (f : X × Y → ℝ≥0∞) (hf : Measurable f) : restricted env anneal sim (prior.withDensity fun x => ENNReal.ofReal (env.kernel covs base x)) f =
    ∫⁻ z, ENNReal.ofReal (env.pdf z.1 * env.kernel covs base z.1 * (if env.dist z.2 < anneal then 1 else 0)) * f z ∂(μ ⊗ₘ sim) := by
  have hset : MeasurableSet {y | env.dist y < anneal} := measurableSet_lt S.distMeas measurable_const
  have hg : Measurable fun z : X × Y => {y | env.dist y < anneal}.indicator (fun y => f (z.1, y)) z.2 := by
    have : (fun z : X × Y => {y | env.dist y < anneal}.indicator (fun y => f (z.1, y)) z.2) = {z : X × Y | env.dist z.2 < anneal}.indicator f := by
      funext z
      by_cases h : env.dist z.2 < anneal <;> simp [h]
    rw [this]
    exact hf.indicator (measurable_snd hset)
  have hg' : Measurable fun x => ∫⁻ y, {y | env.dist y < anneal}.indicator (fun y => f (x, y)) y ∂sim x := Measurable.lintegral_kernel_prod_right' hg
  have hm : Measurable fun z : X × Y => ENNReal.ofReal (env.pdf z.1 * env.kernel covs base z.1 * (if env.dist z.2 < anneal then 1 else 0)) * f z := by
    have h1 : Measurable fun z : X × Y => env.kernel covs base z.1 := (S.kernelMeas.comp measurable_prodMk_left).comp measurable_fst
    exact (((S.pdfMeas.comp measurable_fst).mul h1).mul (Measurable.ite (measurable_snd hset) measurable_const measurable_const)).ennreal_ofReal.mul hf
  unfold restricted
  rw [lintegral_withDensity_eq_lintegral_mul _ S.baseMeas hg', S.prior, lintegral_withDensity_eq_lintegral_mul _ S.pdfMeas.ennreal_ofReal (S.baseMeas.mul hg'), lintegral_compProd hm]
  refine lintegral_congr fun x => ?_
  have hgx : Measurable fun y => {y | env.dist y < anneal}.indicator (fun y => f (x, y)) y := hg.comp measurable_prodMk_left
  rw [Pi.mul_apply, Pi.mul_apply, ← mul_assoc, ← lintegral_const_mul _ hgx]
  refine lintegral_congr fun y => ?_
  dsimp only
  rw [ENNReal.ofReal_mul (mul_nonneg (S.pdf0 x) (S.kernel0 _ _).le), ENNReal.ofReal_mul (S.pdf0 x)]
  by_cases h : env.dist y < anneal <;> simp [h, mul_assoc]

/-- **C105, exactly.** With symmetric kernels, a chain of any length leaves invariant the prior restricted to distances below the annealing parameter, times the density of the proposals. Drawing refused proposals again changes nothing. -/
theorem C105_exact (stays : Q (support env) ≠ 0) (tries : ℕ) (ht : 0 < tries) (n : ℕ) (f : X × Y → ℝ≥0∞) (hf : Measurable f) :
    restricted env anneal sim (prior.withDensity fun x => ENNReal.ofReal (env.kernel covs base x)) (chainMean env covs anneal Q sim tries f n) =
      restricted env anneal sim (prior.withDensity fun x => ENNReal.ofReal (env.kernel covs base x)) f := by
  have hm : ∀ n, Measurable (chainMean env covs anneal Q sim tries f n) := fun n => by
    induction n with
    | zero => exact hf
    | succ n ih => exact S.passMeas sim anneal tries ht _ ih
  have := S.markov
  have one : ∀ g : X × Y → ℝ≥0∞, Measurable g → restricted env anneal sim (prior.withDensity fun x => ENNReal.ofReal (env.kernel covs base x)) (passMean env covs anneal Q sim tries g) =
      restricted env anneal sim (prior.withDensity fun x => ENNReal.ofReal (env.kernel covs base x)) g := by
    intro g hg
    have hk : Measurable fun q : X × X => ENNReal.ofReal (env.kernel covs base q.2) := S.baseMeas.comp measurable_snd
    have hset : MeasurableSet {y | env.dist y < anneal} := measurableSet_lt S.distMeas measurable_const
    have hτ : Measurable fun z : X × Y => ENNReal.ofReal (env.pdf z.1 * env.kernel covs base z.1 * (if env.dist z.2 < anneal then 1 else 0)) := by
      have h1 : Measurable fun z : X × Y => env.kernel covs base z.1 := (S.kernelMeas.comp measurable_prodMk_left).comp measurable_fst
      exact (((S.pdfMeas.comp measurable_fst).mul h1).mul (Measurable.ite (measurable_snd hset) measurable_const measurable_const)).ennreal_ofReal
    have main := Redraw.invariant μ (fun _ x => ENNReal.ofReal (env.kernel covs base x)) hk (fun _ => by rw [← S.proposals]; exact S.markov) _ S.supportMeas sim tries ht _ (S.probMeas anneal)
      (fun z z' => (S.prob_mem anneal z.1 z'.1 (env.dist z'.2)).1) (fun z z' => (S.prob_mem anneal z.1 z'.1 (env.dist z'.2)).2) g hg (fun _ _ => by rw [← S.proposals]; exact stays) _ hτ
      (fun z hz => by rw [show env.pdf z.1 = 0 from not_not.1 hz, zero_mul, zero_mul, ENNReal.ofReal_zero]) (fun z z' hz hz' => by
        have hp : 0 < env.pdf z.1 := (S.pdf0 _).lt_of_ne' hz
        have hp' : 0 < env.pdf z'.1 := (S.pdf0 _).lt_of_ne' hz'
        have h0 : ∀ w : X × Y, 0 ≤ env.pdf w.1 * env.kernel covs base w.1 * (if env.dist w.2 < anneal then (1 : ℝ) else 0) := fun w =>
          mul_nonneg (mul_nonneg (S.pdf0 _) (S.kernel0 _ _).le) (by split_ifs <;> norm_num)
        rw [← ENNReal.ofReal_mul (h0 z), ← ENNReal.ofReal_mul (mul_nonneg (h0 z) (S.kernel0 _ _).le), ← ENNReal.ofReal_mul (h0 z'), ← ENNReal.ofReal_mul (mul_nonneg (h0 z') (S.kernel0 _ _).le)]
        congr 1
        have hflow := C105_flow env.pdf (env.kernel covs) base z.1 z'.1 hp hp' (S.kernel0 _ _) (S.symm _ _)
        simp only [flow, Rsmc.Spec.metropolis] at hflow
        unfold prob
        rw [div_mul_div_comm, div_mul_div_comm]
        split_ifs <;> first | ring1 | linear_combination hflow)
    simp only [← S.proposals] at main
    rw [S.restricted_eq sim anneal _ (S.passMeas sim anneal tries ht g hg), S.restricted_eq sim anneal g hg]
    have hst : Q (support env) ≠ ∞ := measure_ne_top _ _
    refine (ENNReal.mul_right_inj stays hst).1 ?_
    rw [← lintegral_const_mul' _ _ hst, ← lintegral_const_mul' _ _ hst]
    simp only [← mul_assoc, mul_comm (Q (support env)) (ENNReal.ofReal _)]
    exact main
  induction n with
  | zero => rfl
  | succ n ih => rw [chainMean, one _ (hm n), ih]

end

/-! ### A concrete case -/

/-- A uniform prior on the interval between 0 and 1, a normal model and a random walk with the first matrix as its variance. -/
noncomputable def edgeEnv : Env Unit ℝ ℝ NNReal where
  dist := fun y => |y|
  pdf := (Ioo 0 1).indicator 1
  kernel := fun _ a b => gaussianPDFReal a 1 b
  prior := fun w => (w, 0)
  perturb := fun _ _ w => (w, none)
  sim := fun _ w => (w, 0)
  bern := fun _ w => (w, false)
  cov := fun _ => []
  scale := fun _ m => m

theorem edgeEnv_setting (base : ℝ) : Setting edgeEnv [] base (gaussianReal base 1) volume (volume.restrict (Ioo 0 1)) where
  pdf0 := fun a => indicator_nonneg (fun _ _ => zero_le_one) a
  kernel0 := fun a b => gaussianPDFReal_pos a 1 b one_ne_zero
  symm := fun a b => by
    simp only [edgeEnv, gaussianPDFReal]
    rw [show (a - b) ^ 2 = (b - a) ^ 2 by ring]
  pdfMeas := measurable_one.indicator measurableSet_Ioo
  kernelMeas := by
    simp only [edgeEnv, gaussianPDFReal]
    fun_prop
  distMeas := by
    simp only [edgeEnv]
    fun_prop
  proposals := by
    rw [gaussianReal_of_var_ne_zero _ one_ne_zero]
    rfl
  markov := inferInstance
  prior := by
    have : (fun x => ENNReal.ofReal (edgeEnv.pdf x)) = (Ioo 0 1).indicator 1 := by
      funext x
      by_cases h : x ∈ Ioo (0 : ℝ) 1 <;> simp [edgeEnv, h]
    rw [this, withDensity_indicator_one measurableSet_Ioo]

/-- A case of C105_exact: the chain that starts at `base` favours values near `base`, not those of the prior. -/
example (base : ℝ) (anneal : ℝ) (tries : ℕ) (ht : 0 < tries) (n : ℕ) (f : ℝ × ℝ → ℝ≥0∞) (hf : Measurable f) :
    restricted edgeEnv anneal (Smc.noisy 1) ((volume.restrict (Ioo 0 1)).withDensity (gaussianPDF base 1)) (chainMean edgeEnv [] anneal (gaussianReal base 1) (Smc.noisy 1) tries f n) =
      restricted edgeEnv anneal (Smc.noisy 1) ((volume.restrict (Ioo 0 1)).withDensity (gaussianPDF base 1)) f := by
  refine C105_exact (Smc.noisy 1) (edgeEnv_setting base) anneal ?_ tries ht n f hf
  have hs : support edgeEnv = Ioo 0 1 := by
    ext x
    simp [support, edgeEnv]
  rw [hs]
  intro h
  have := gaussianReal_absolutelyContinuous' base one_ne_zero h
  simp at this

end Verif.Subsim
