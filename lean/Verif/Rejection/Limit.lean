import Verif.Rejection.Averages
import Mathlib.Probability.Distributions.Gaussian.Real
/-!
# C178: the ABC posterior for small thresholds

Outcomes are parameters from the prior together with the data simulated for them. The mean of a function under the ABC posterior (the limit of the averages over samples, C177) is compared with its mean under the posterior.
-/

namespace Verif.Rejection

open MeasureTheory ProbabilityTheory Filter Topology Set
open scoped ENNReal

variable {X Y : Type} [MeasurableSpace X] [MeasurableSpace Y] (prior : Measure X) [IsProbabilityMeasure prior] (sim : Kernel X Y) [IsMarkovKernel sim]

/-- The mean under the ABC posterior of the parameters that the tasks return, when the parameters are drawn from the prior and the data are simulated for them (lines 697-700). -/
noncomputable def abcOf (dist : Y → ℝ) (eps : ℝ) (f : X → ℝ) : ℝ := abcMean (prior ⊗ₘ sim) Prod.fst (fun e => some e.2) dist eps f

/-- Specification: the mean of `f` under the prior weighted by a likelihood. -/
noncomputable def posteriorMean (likelihood : X → ℝ) (f : X → ℝ) : ℝ := (∫ x, f x * likelihood x ∂prior) / ∫ x, likelihood x ∂prior

theorem acceptedSet_pair (dist : Y → ℝ) (eps : ℝ) : acceptedSet (fun e : X × Y => some e.2) dist eps = Prod.snd ⁻¹' {y | dist y ≤ eps} := by
  ext e
  simp [acceptedSet, accepted]

/-- **C178, any threshold.** The mean under the ABC posterior is that under the prior weighted by the probability that data are accepted. -/
theorem C178_weight (dist : Y → ℝ) (hd : Measurable dist) (eps : ℝ) (f : X → ℝ) (hf : Measurable f) (hi : Integrable f prior) :
    abcOf prior sim dist eps f = posteriorMean prior (fun x => (sim x).real {y | dist y ≤ eps}) f := by
  have hD : MeasurableSet {y | dist y ≤ eps} := measurableSet_le hd measurable_const
  have hD' : MeasurableSet (Prod.snd ⁻¹' {y | dist y ≤ eps} : Set (X × Y)) := measurable_snd hD
  have key : ∀ g : X → ℝ, Measurable g → Integrable g prior → ∫ e in Prod.snd ⁻¹' {y | dist y ≤ eps}, g e.1 ∂(prior ⊗ₘ sim) = ∫ x, g x * (sim x).real {y | dist y ≤ eps} ∂prior := by
    intro g hg hgi
    have e : (Prod.snd ⁻¹' {y | dist y ≤ eps} : Set (X × Y)) = univ ×ˢ {y | dist y ≤ eps} := by ext; simp
    have hint : IntegrableOn (fun e : X × Y => g e.1) (univ ×ˢ {y | dist y ≤ eps}) (prior ⊗ₘ sim) := by
      refine Integrable.integrableOn ?_
      have := hgi
      rw [show prior = (prior ⊗ₘ sim).map Prod.fst from (Measure.fst_compProd prior sim).symm, integrable_map_measure hg.aestronglyMeasurable measurable_fst.aemeasurable] at this
      exact this
    rw [e, Measure.setIntegral_compProd MeasurableSet.univ hD hint, Measure.restrict_univ]
    refine integral_congr_ae (Eventually.of_forall fun x => ?_)
    change ∫ _ in {y | dist y ≤ eps}, g x ∂sim x = _
    rw [setIntegral_const, smul_eq_mul, mul_comm]
  rw [abcOf, abcMean, acceptedSet_pair, posteriorMean, key f hf hi]
  congr 1
  have h1 := key (fun _ => 1) measurable_const (integrable_const _)
  simp only [one_mul] at h1
  rw [← h1, setIntegral_const, smul_eq_mul, mul_one]

/-- **C178, data that can be met.** If only data equal to the observed ones are accepted, the mean under the ABC posterior is the posterior mean. -/
theorem C178_exact (dist : Y → ℝ) (hd : Measurable dist) (eps : ℝ) (obs : Y) (hobs : ∀ y, dist y ≤ eps ↔ y = obs) (f : X → ℝ) (hf : Measurable f) (hi : Integrable f prior) :
    abcOf prior sim dist eps f = posteriorMean prior (fun x => (sim x).real {obs}) f := by
  rw [C178_weight prior sim dist hd eps f hf hi]
  have : {y | dist y ≤ eps} = {obs} := by ext y; simp [hobs]
  rw [this]

variable [TopologicalSpace Y] (ν : Measure Y) (p : X → Y → ℝ)

/-- The mean of a function that is continuous at `obs` over small neighbourhoods tends to its value. -/
theorem tendsto_mean (dist : Y → ℝ) (obs : Y) (g : Y → ℝ) (hg : ContinuousAt g obs) (hgm : Measurable g) (M : ℝ) (hM : ∀ y, |g y| ≤ M)
    (shrink : ∀ U ∈ 𝓝 obs, ∃ δ > 0, {y | dist y ≤ δ} ⊆ U) (hv : ∀ ε > 0, ν {y | dist y ≤ ε} ≠ 0) (hv' : ∀ᶠ ε in 𝓝[>] (0 : ℝ), ν {y | dist y ≤ ε} ≠ ∞) :
    Tendsto (fun ε => (∫ y in {y | dist y ≤ ε}, g y ∂ν) / ν.real {y | dist y ≤ ε}) (𝓝[>] 0) (𝓝 (g obs)) := by
  rw [Metric.tendsto_nhds]
  intro η hη
  obtain ⟨δ, hδ, hsub⟩ := shrink _ (hg (Metric.ball_mem_nhds (g obs) (half_pos hη)))
  filter_upwards [hv', Ioc_mem_nhdsGT hδ, self_mem_nhdsWithin] with ε hfin hε hpos
  set D := {y | dist y ≤ ε} with hD
  have hpos' : 0 < ν.real D := ENNReal.toReal_pos (hv ε hpos) hfin
  have hin : ∀ y ∈ D, ‖g y - g obs‖ ≤ η / 2 := fun y hy => by
    have : g y ∈ Metric.ball (g obs) (η / 2) := hsub (le_trans hy hε.2)
    rw [Metric.mem_ball, Real.dist_eq] at this
    exact this.le
  have hgi : IntegrableOn g D ν := by
    refine Measure.integrableOn_of_bounded hfin hgm.aestronglyMeasurable (M := M) (Eventually.of_forall fun y => hM y)
  have hci : IntegrableOn (fun _ => g obs) D ν := by
    rw [integrableOn_const_iff]
    exact Or.inr (lt_top_iff_ne_top.2 hfin)
  have hdiff : (∫ y in D, g y ∂ν) - g obs * ν.real D = ∫ y in D, (g y - g obs) ∂ν := by
    rw [integral_sub hgi hci, setIntegral_const, smul_eq_mul, mul_comm]
  have hle : ‖∫ y in D, (g y - g obs) ∂ν‖ ≤ η / 2 * ν.real D := norm_setIntegral_le_of_norm_le_const (lt_top_iff_ne_top.2 hfin) hin
  rw [Real.dist_eq, show (∫ y in D, g y ∂ν) / ν.real D - g obs = ((∫ y in D, g y ∂ν) - g obs * ν.real D) / ν.real D by field_simp, hdiff, abs_div, abs_of_pos hpos', div_lt_iff₀ hpos']
  rw [Real.norm_eq_abs] at hle
  nlinarith

/-- **C178.** If the data have a bounded density that is continuous at the observed data, the mean under the ABC posterior tends to the posterior mean as the threshold tends to zero. -/
theorem C178 (dist : Y → ℝ) (hd : Measurable dist) (obs : Y) (hp : Measurable fun e : X × Y => p e.1 e.2) (hp0 : ∀ x y, 0 ≤ p x y) (M : ℝ) (hM : ∀ x y, p x y ≤ M)
    (hsim : ∀ x, sim x = ν.withDensity fun y => ENNReal.ofReal (p x y)) (hcont : ∀ x, ContinuousAt (p x) obs)
    (shrink : ∀ U ∈ 𝓝 obs, ∃ δ > 0, {y | dist y ≤ δ} ⊆ U) (hv : ∀ ε > 0, ν {y | dist y ≤ ε} ≠ 0) (hv' : ∀ᶠ ε in 𝓝[>] (0 : ℝ), ν {y | dist y ≤ ε} ≠ ∞)
    (evidence : 0 < ∫ x, p x obs ∂prior) (f : X → ℝ) (hf : Measurable f) (hi : Integrable f prior) :
    Tendsto (fun ε => abcOf prior sim dist ε f) (𝓝[>] 0) (𝓝 (posteriorMean prior (fun x => p x obs) f)) := by
  have hpx : ∀ x, Measurable (p x) := fun x => hp.comp measurable_prodMk_left
  have hD : ∀ ε, MeasurableSet {y | dist y ≤ ε} := fun ε => measurableSet_le hd measurable_const
  have hreal : ∀ ε x, (sim x).real {y | dist y ≤ ε} = ∫ y in {y | dist y ≤ ε}, p x y ∂ν := by
    intro ε x
    rw [integral_eq_lintegral_of_nonneg_ae (Eventually.of_forall fun y => hp0 x y) (hpx x).aestronglyMeasurable, Measure.real, hsim, withDensity_apply _ (hD ε)]
  set r : ℝ → X → ℝ := fun ε x => (sim x).real {y | dist y ≤ ε} / ν.real {y | dist y ≤ ε} with hr
  have hlim : ∀ x, Tendsto (fun ε => r ε x) (𝓝[>] 0) (𝓝 (p x obs)) := fun x => by
    simp only [hr, hreal]
    exact tendsto_mean ν dist obs (p x) (hcont x) (hpx x) M (fun y => by rw [abs_of_nonneg (hp0 x y)]; exact hM x y) shrink hv hv'
  have hbound : ∀ᶠ ε in 𝓝[>] (0 : ℝ), ∀ x, ‖r ε x‖ ≤ M := by
    filter_upwards [hv', self_mem_nhdsWithin] with ε hfin hpos x
    have hpos' : 0 < ν.real {y | dist y ≤ ε} := ENNReal.toReal_pos (hv ε hpos) hfin
    have : ‖∫ y in {y | dist y ≤ ε}, p x y ∂ν‖ ≤ M * ν.real {y | dist y ≤ ε} :=
      norm_setIntegral_le_of_norm_le_const (lt_top_iff_ne_top.2 hfin) fun y _ => by rw [Real.norm_eq_abs, abs_of_nonneg (hp0 x y)]; exact hM x y
    simp only [hr, hreal, norm_div]
    rw [Real.norm_eq_abs (ν.real _), abs_of_pos hpos', div_le_iff₀ hpos']
    exact this
  have hrm : ∀ ε, Measurable (r ε) := fun ε => ((sim.measurable_coe (hD ε)).ennreal_toReal).div_const _
  have hden : Tendsto (fun ε => ∫ x, r ε x ∂prior) (𝓝[>] 0) (𝓝 (∫ x, p x obs ∂prior)) := by
    refine tendsto_integral_filter_of_dominated_convergence (fun _ => M) (Eventually.of_forall fun ε => (hrm ε).aestronglyMeasurable) ?_ (integrable_const _) (Eventually.of_forall hlim)
    filter_upwards [hbound] with ε h
    exact Eventually.of_forall h
  have hnum : Tendsto (fun ε => ∫ x, f x * r ε x ∂prior) (𝓝[>] 0) (𝓝 (∫ x, f x * p x obs ∂prior)) := by
    refine tendsto_integral_filter_of_dominated_convergence (fun x => ‖f x‖ * M) (Eventually.of_forall fun ε => (hf.mul (hrm ε)).aestronglyMeasurable) ?_ (hi.norm.mul_const _)
      (Eventually.of_forall fun x => (hlim x).const_mul _)
    filter_upwards [hbound] with ε h
    refine Eventually.of_forall fun x => ?_
    rw [norm_mul]
    exact mul_le_mul_of_nonneg_left (h x) (norm_nonneg _)
  have hquot := hnum.div hden evidence.ne'
  rw [posteriorMean]
  refine hquot.congr' ?_
  filter_upwards [hv', self_mem_nhdsWithin] with ε hfin hpos
  have hpos' : ν.real {y | dist y ≤ ε} ≠ 0 := (ENNReal.toReal_pos (hv ε hpos) hfin).ne'
  rw [C178_weight prior sim dist hd ε f hf hi, posteriorMean]
  simp only [Pi.div_apply, hr]
  have e1 : ∫ x, f x * ((sim x).real {y | dist y ≤ ε} / ν.real {y | dist y ≤ ε}) ∂prior = (∫ x, f x * (sim x).real {y | dist y ≤ ε} ∂prior) / ν.real {y | dist y ≤ ε} := by
    rw [← integral_div]
    refine integral_congr_ae (Eventually.of_forall fun x => ?_)
    change f x * (_ / _) = _ / _
    rw [mul_div_assoc]
  have e2 : ∫ x, (sim x).real {y | dist y ≤ ε} / ν.real {y | dist y ≤ ε} ∂prior = (∫ x, (sim x).real {y | dist y ≤ ε} ∂prior) / ν.real {y | dist y ≤ ε} := integral_div _ _
  rw [e1, e2, div_div_div_cancel_right₀ hpos']

/-- Two models for a normal observation: means zero and one. -/
noncomputable def twoMeans : Kernel Bool ℝ := Kernel.ofFunOfCountable fun x => gaussianReal (if x then 1 else 0) 1

/-- The density of the observation. -/
noncomputable def twoDensity (x : Bool) (y : ℝ) : ℝ := gaussianPDFReal (if x then 1 else 0) 1 y

theorem twoMeans_apply (x : Bool) : twoMeans x = gaussianReal (if x then 1 else 0) 1 := rfl

instance : IsMarkovKernel twoMeans := ⟨fun x => by rw [twoMeans_apply]; infer_instance⟩

theorem near_eq (obs ε : ℝ) : {y | |y - obs| ≤ ε} = Metric.closedBall obs ε := by ext y; simp [Real.dist_eq]

theorem twoDensity_le (x : Bool) (y : ℝ) : twoDensity x y ≤ (√(2 * Real.pi * (1 : NNReal)))⁻¹ := by
  rw [twoDensity, gaussianPDFReal]
  refine mul_le_of_le_one_right (by positivity) (Real.exp_le_one_iff.2 ?_)
  generalize y - (if x = true then 1 else 0) = z
  have : 0 ≤ z ^ 2 := sq_nonneg _
  simp only [NNReal.coe_one, mul_one]
  linarith

theorem twoDensity_eq (x : Bool) : twoMeans x = volume.withDensity fun y => ENNReal.ofReal (twoDensity x y) := by
  rw [twoMeans_apply, gaussianReal_of_var_ne_zero _ one_ne_zero]
  rfl

theorem twoDensity_continuous (x : Bool) : Continuous (twoDensity x) := by
  unfold twoDensity gaussianPDFReal
  fun_prop

theorem twoDensity_measurable : Measurable fun e : Bool × ℝ => twoDensity e.1 e.2 := by
  refine measurable_from_prod_countable_right fun x => ?_
  exact (twoDensity_continuous x).measurable

/-- The hypotheses of C178 are met. -/
example (prior : Measure Bool) [IsProbabilityMeasure prior] (obs : ℝ) (f : Bool → ℝ) :
    Tendsto (fun ε => abcOf prior twoMeans (fun y => |y - obs|) ε f) (𝓝[>] 0) (𝓝 (posteriorMean prior (fun x => twoDensity x obs) f)) := by
  have hpos : ∀ x, 0 < twoDensity x obs := fun x => gaussianPDFReal_pos _ _ _ one_ne_zero
  refine C178 prior twoMeans volume twoDensity (fun y => |y - obs|) (by fun_prop) obs twoDensity_measurable (fun x y => gaussianPDFReal_nonneg _ _ _) _ twoDensity_le twoDensity_eq (fun x => (twoDensity_continuous x).continuousAt) ?_ ?_ ?_ ?_ f (measurable_of_countable f) Integrable.of_finite
  · intro U hU
    obtain ⟨δ, hδ, h⟩ := Metric.nhds_basis_closedBall.mem_iff.1 hU
    exact ⟨δ, hδ, by rw [near_eq]; exact h⟩
  · intro ε hε
    rw [near_eq, Real.volume_closedBall]
    simpa using hε
  · refine Eventually.of_forall fun ε => ?_
    rw [near_eq, Real.volume_closedBall]
    exact ENNReal.ofReal_ne_top
  · rw [integral_pos_iff_support_of_nonneg (fun x => (hpos x).le) Integrable.of_finite]
    rw [show Function.support (fun x => twoDensity x obs) = univ from Set.eq_univ_of_forall fun x => (hpos x).ne', measure_univ]
    exact one_pos

/-- C177 applies to the same models: with probability one averages over the samples tend to those under the ABC posterior. -/
example (prior : Measure Bool) [IsProbabilityMeasure prior] (obs eps : ℝ) (he : 0 < eps) (f : Bool → ℝ) :
    ∀ᵐ ω ∂streams (prior ⊗ₘ twoMeans), ∃ θ : ℕ → Bool,
      (∀ i, ∃ fuel₀, ∀ fuel ≥ fuel₀, ∃ d c w, rejectTask (trialStream Prod.fst fun e => some e.2) (fun y => |y - obs|) (eps + 1) eps fuel (ω i) = .done (θ i, d, c, w)) ∧
      Tendsto (fun n : ℕ => (∑ i ∈ Finset.range n, f (θ i)) / n) atTop (𝓝 (abcOf prior twoMeans (fun y => |y - obs|) eps f)) := by
  have hD : MeasurableSet {y | |y - obs| ≤ eps} := measurableSet_le (by fun_prop) measurable_const
  have hf : Measurable fun e : Bool × ℝ => f e.1 := (measurable_of_countable f).comp measurable_fst
  refine C177_average (prior ⊗ₘ twoMeans) Prod.fst (fun e => some e.2) (fun y => |y - obs|) (eps + 1) eps hf ?_ ?_ (by linarith) ?_
  · rw [acceptedSet_pair]
    exact measurable_snd hD
  · rw [acceptedSet_pair, show (Prod.snd ⁻¹' {y | |y - obs| ≤ eps} : Set (Bool × ℝ)) = univ ×ˢ {y | |y - obs| ≤ eps} by ext; simp]
    intro h0
    rw [Measure.compProd_apply_prod MeasurableSet.univ hD, Measure.restrict_univ, lintegral_eq_zero_iff (Kernel.measurable_coe _ hD)] at h0
    obtain ⟨x, hx⟩ := h0.exists
    change twoMeans x _ = 0 at hx
    rw [twoMeans_apply] at hx
    have h1 := gaussianReal_absolutelyContinuous' _ one_ne_zero hx
    rw [near_eq, Real.volume_closedBall] at h1
    simp at h1
    linarith
  · exact Integrable.integrableOn (Integrable.of_bound hf.aestronglyMeasurable (max |f true| |f false|) (Eventually.of_forall fun e => by rcases e with ⟨_ | _, _⟩ <;> simp))

end Verif.Rejection
