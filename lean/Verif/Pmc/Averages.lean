import Verif.Pmc.LikTarget
import Verif.Pmc.Model
import Verif.Journal.Model
import Mathlib.Probability.ProductMeasure
import Mathlib.Probability.Independence.InfinitePi
import Mathlib.Probability.StrongLaw
import Mathlib.Probability.ConditionalProbability
import Mathlib.MeasureTheory.Function.L1Space.Integrable
/-!
# C182: averages over the weighted particles of `PMCABC` and `PMC` converge

`PMCABC.sample` (abcpy/inferences.py 860-940) and `PMC.sample` (1278-1370) give a population and its weights to the journal after each iteration. `Journal.posterior_mean` (abcpy/output.py 385-416) takes the average
of a parameter with these weights. Here the previous population is fixed and the number of new particles grows: particles are made by tasks that do not depend on each other (lines 890-891 and 1293-1313), with the law of
`Target.resample`, `Target.firstResample` and `LikTarget.particle`, for tasks that end.
-/

namespace Verif.Pmc.Averages

open MeasureTheory Measure ProbabilityTheory Filter Topology Set Verif.Pmc.Target Verif.Pmc.LikTarget
open scoped ENNReal

variable {E Ω : Type} [MeasurableSpace E] [MeasurableSpace Ω]

/-! ### Model -/

/-- What the first `n` particles and their weights give as posterior mean of `f`: the weights are divided by their sum (abcpy/inferences.py 916-917 and 1339-1340), and `np.average` is called with them
(abcpy/output.py 410-414). `W` is the weight before that division. -/
noncomputable def posteriorMean (f : E → ℝ) (W : E → ℝ≥0∞) (e : ℕ → E) (n : ℕ) : Option ℝ :=
  Journal.npAverage ((List.range n).map fun i => f (e i)) (normalise ((List.range n).map fun i => (W (e i)).toReal))

/-! ### Specification -/

/-- Particles `e 0, e 1, …` are independent, and each has the law `P`, given that the loops that make it end (`P` is the law of a particle that is made within the fuel). -/
structure Draws (ρ : Measure Ω) (P : Measure E) (e : ℕ → Ω → E) : Prop where
  measurable : ∀ i, Measurable (e i)
  indep : iIndepFun e ρ
  law : ∀ i, ρ.map (e i) = (P univ)⁻¹ • P

/-- The mean of `f` under `T` (normalised). -/
noncomputable def mean (T : Measure E) (f : E → ℝ) : ℝ := (∫ x, f x ∂T) / T.real univ

/-- The variance of `f` under `T` (normalised). -/
noncomputable def spread (T : Measure E) (f : E → ℝ) : ℝ := mean T fun x => (f x - mean T f) ^ 2

/-- The mean of the weight of a particle. -/
noncomputable def meanWeight (P : Measure E) (W : E → ℝ≥0∞) : ℝ := mean P fun x => (W x).toReal

/-- With probability one, the numbers `m n` are there from some `n` on and tend to the mean of `f` under `T` (normalised). -/
def Consistent (ρ : Measure Ω) (m : Ω → ℕ → Option ℝ) (f : E → ℝ) (T : Measure E) : Prop :=
  ∀ᵐ ω ∂ρ, ∃ v : ℕ → ℝ, (∀ᶠ n in atTop, m ω n = some (v n)) ∧ Tendsto v atTop (𝓝 (mean T f))

/-- The probability that the number `m` is missing, or that it is off by more than `δ` from the mean of `f` under `T`, is at most `b`. -/
def OffBy (ρ : Measure Ω) (m : Ω → Option ℝ) (f : E → ℝ) (T : Measure E) (δ b : ℝ) : Prop :=
  ρ {ω | ¬ ∃ v, m ω = some v ∧ |v - mean T f| ≤ δ} ≤ ENNReal.ofReal b

/-- There are such particles. -/
theorem draws_exist (P : Measure E) [IsFiniteMeasure P] (h0 : P ≠ 0) : ∃ (ρ : Measure (ℕ → E)) (e : ℕ → (ℕ → E) → E), IsProbabilityMeasure ρ ∧ Draws ρ P e := by
  have hP : IsProbabilityMeasure ((P univ)⁻¹ • P) := ⟨by
    rw [Measure.smul_apply, smul_eq_mul]
    exact ENNReal.inv_mul_cancel (by simpa using h0) (measure_ne_top _ _)⟩
  refine ⟨Measure.infinitePi fun _ => (P univ)⁻¹ • P, fun i ω => ω i, inferInstance, fun i => measurable_pi_apply i, ?_, fun i => ?_⟩
  · exact iIndepFun_infinitePi (P := fun _ : ℕ => (P univ)⁻¹ • P) (X := fun _ x => x) (fun _ => measurable_id)
  · exact Measure.infinitePi_map_eval (fun _ : ℕ => (P univ)⁻¹ • P) i

/-! ### The journal's average -/

theorem range_sum (n : ℕ) (f : ℕ → ℝ) : ((List.range n).map f).sum = ∑ k ∈ Finset.range n, f k := by
  induction n with
  | zero => simp
  | succ n ih => rw [List.range_succ, List.map_append, List.sum_append, ih, Finset.sum_range_succ]; simp

theorem posteriorMean_eq (f : E → ℝ) (W : E → ℝ≥0∞) (e : ℕ → E) (n : ℕ) (h : ∑ i ∈ Finset.range n, (W (e i)).toReal ≠ 0) :
    posteriorMean f W e n = some ((∑ i ∈ Finset.range n, (W (e i)).toReal * f (e i)) / ∑ i ∈ Finset.range n, (W (e i)).toReal) := by
  have h1 : (normalise ((List.range n).map fun i => (W (e i)).toReal)).sum = 1 := by
    rw [normalise, List.map_map, range_sum, range_sum]
    simp only [Function.comp_apply]
    rw [← Finset.sum_div, div_self h]
  unfold posteriorMean Journal.npAverage
  rw [h1, if_neg (by simp [normalise]), div_one, normalise, range_sum, List.map_map, List.zipWith_map, List.zipWith_self, range_sum, Finset.sum_div]
  simp only [Function.comp_apply]
  congr 1
  exact Finset.sum_congr rfl fun i _ => by ring

/-! ### Law of large numbers -/

variable {P T : Measure E} {W : E → ℝ≥0∞}

/-- The measure with density `W` is a multiple of the target. -/
theorem density (hW : Measurable W) (h : Estimates P W T) : ∃ c : ℝ≥0∞, c ≠ 0 ∧ c ≠ ∞ ∧ P.withDensity W = c • T := by
  obtain ⟨c, c0, ct, h⟩ := h
  refine ⟨c, c0, ct, Measure.ext fun s hs => ?_⟩
  have := h (s.indicator 1) (measurable_one.indicator hs)
  rw [lintegral_indicator_one hs] at this
  rw [withDensity_apply _ hs, Measure.smul_apply, smul_eq_mul, ← this, ← lintegral_indicator hs]
  exact lintegral_congr fun e => by by_cases he : e ∈ s <;> simp [he]

/-- Averages over one particle. -/
theorem weighted [IsFiniteMeasure P] [IsFiniteMeasure T] (hT : T ≠ 0) (hW : Measurable W) (h : Estimates P W T) :
    P univ ≠ 0 ∧ (∀ᵐ x ∂P, W x < ∞) ∧ 0 < meanWeight P W ∧
      ∀ g : E → ℝ, Integrable g T → Integrable (fun x => (W x).toReal * g x) ((P univ)⁻¹ • P) ∧ ∫ x, (W x).toReal * g x ∂((P univ)⁻¹ • P) = meanWeight P W * mean T g := by
  obtain ⟨c, c0, ct, hd⟩ := density hW h
  have hfin : ∀ᵐ x ∂P, W x < ∞ := by
    refine ae_lt_top hW ?_
    have : P.withDensity W univ = c * T univ := by rw [hd]; rfl
    rw [withDensity_apply _ MeasurableSet.univ, Measure.restrict_univ] at this
    rw [this]
    exact ENNReal.mul_ne_top ct (measure_ne_top _ _)
  have P0 : P univ ≠ 0 := by
    intro h0
    have hP : P = 0 := Measure.measure_univ_eq_zero.1 h0
    rw [hP, withDensity_zero_left] at hd
    have := congrArg (fun m : Measure E => m univ) hd
    simp [c0, hT] at this
  have hcT : ∀ g : E → ℝ, Integrable g T → Integrable (fun x => (W x).toReal * g x) P ∧ ∫ x, (W x).toReal * g x ∂P = c.toReal * ∫ x, g x ∂T := by
    intro g hg
    have hg' : Integrable g (P.withDensity W) := by rw [hd]; exact hg.smul_measure ct
    refine ⟨?_, ?_⟩
    · have := (integrable_withDensity_iff_integrable_smul₀' hW.aemeasurable hfin).1 hg'
      simpa using this
    · have := integral_withDensity_eq_integral_toReal_smul₀ hW.aemeasurable hfin g
      rw [hd, integral_smul_measure] at this
      simpa using this.symm
  have hT' : 0 < T.real univ := by
    rw [measureReal_def]
    exact ENNReal.toReal_pos (by simpa using hT) (measure_ne_top _ _)
  have hP' : 0 < P.real univ := by
    rw [measureReal_def]
    exact ENNReal.toReal_pos P0 (measure_ne_top _ _)
  have hmw : meanWeight P W = c.toReal * T.real univ / P.real univ := by
    have := (hcT (fun _ => 1) (integrable_const _)).2
    simp only [mul_one, integral_const, smul_eq_mul] at this
    rw [meanWeight, mean, this]
  refine ⟨P0, hfin, ?_, fun g hg => ⟨(hcT g hg).1.smul_measure (ENNReal.inv_ne_top.2 P0), ?_⟩⟩
  · rw [hmw]
    exact div_pos (mul_pos (ENNReal.toReal_pos c0 ct) hT') hP'
  · rw [integral_smul_measure, (hcT g hg).2, hmw, mean, ENNReal.toReal_inv, ← measureReal_def, smul_eq_mul]
    field_simp

theorem draws_map {ρ : Measure Ω} {e : ℕ → Ω → E} (he : Draws ρ P e) {G : E → ℝ} (hG : Measurable G) (i : ℕ) : ρ.map (fun ω => G (e i ω)) = ((P univ)⁻¹ • P).map G := by
  rw [← he.law i, Measure.map_map hG (he.measurable i)]
  rfl

theorem draws_integral {ρ : Measure Ω} {e : ℕ → Ω → E} (he : Draws ρ P e) {G : E → ℝ} (hG : Measurable G) (i : ℕ) : ∫ ω, G (e i ω) ∂ρ = ∫ x, G x ∂((P univ)⁻¹ • P) := by
  rw [← he.law i, integral_map (he.measurable i).aemeasurable hG.aestronglyMeasurable]

/-- **C182, in general.** If weighted draws from `P` with weights `W` estimate averages under `T`, posterior means computed from more and more independent draws converge to the mean under `T`. -/
theorem C182_consistent [IsFiniteMeasure P] [IsFiniteMeasure T] (hT : T ≠ 0) (hW : Measurable W) (h : Estimates P W T) (f : E → ℝ) (hf : Measurable f) (hi : Integrable f T)
    (ρ : Measure Ω) [IsProbabilityMeasure ρ] (e : ℕ → Ω → E) (he : Draws ρ P e) : Consistent ρ (fun ω => posteriorMean f W fun i => e i ω) f T := by
  obtain ⟨P0, hfin, k0, hcT⟩ := weighted hT hW h
  have strong : ∀ g : E → ℝ, Measurable g → Integrable g T → ∀ᵐ ω ∂ρ, Tendsto (fun n : ℕ => (∑ i ∈ Finset.range n, (W (e i ω)).toReal * g (e i ω)) / n) atTop
      (𝓝 (meanWeight P W * mean T g)) := by
    intro g hg hgi
    have hm : Measurable fun x => (W x).toReal * g x := hW.ennreal_toReal.mul hg
    have hlaw := strong_law_ae_real (μ := ρ) (fun i ω => (W (e i ω)).toReal * g (e i ω))
      (by
        have := (hcT g hgi).1
        rw [← he.law 0, integrable_map_measure hm.aestronglyMeasurable (he.measurable 0).aemeasurable] at this
        exact this)
      (fun i j hij => (he.indep.indepFun hij).comp hm hm)
      (fun i => ⟨(hm.comp (he.measurable i)).aemeasurable, (hm.comp (he.measurable 0)).aemeasurable, by rw [draws_map he hm i, draws_map he hm 0]⟩)
    rw [← (hcT g hgi).2, ← draws_integral he hm 0]
    exact hlaw
  have h1T : mean T (fun _ => 1) = 1 := by
    have : T.real univ ≠ 0 := by
      rw [measureReal_def]
      exact (ENNReal.toReal_pos (by simpa using hT) (measure_ne_top _ _)).ne'
    simp [mean, this]
  filter_upwards [strong f hf hi, strong (fun _ => 1) measurable_const (integrable_const _)] with ω h1 h2
  simp only [mul_one, h1T] at h2
  refine ⟨fun n => (∑ i ∈ Finset.range n, (W (e i ω)).toReal * f (e i ω)) / ∑ i ∈ Finset.range n, (W (e i ω)).toReal, ?_, ?_⟩
  · filter_upwards [h2.eventually (lt_mem_nhds k0)] with n hn
    exact posteriorMean_eq f W _ n fun h0 => by rw [h0, zero_div] at hn; exact lt_irrefl _ hn
  · have := h1.div h2 k0.ne'
    rw [mul_div_cancel_left₀ _ k0.ne'] at this
    refine this.congr' ?_
    filter_upwards [eventually_gt_atTop 0] with n hn
    have : (n : ℝ) ≠ 0 := by positivity
    simp only [Pi.div_apply]
    rw [div_div_div_cancel_right₀ this]

/-! ### Numbers of particles -/

/-- Chebyshev's inequality for the mean of `n` particles. -/
theorem chebyshev [IsFiniteMeasure P] {ρ : Measure Ω} [IsProbabilityMeasure ρ] {e : ℕ → Ω → E} (he : Draws ρ P e) {G : E → ℝ} (hG : Measurable G)
    (hi : Integrable (fun x => G x ^ 2) ((P univ)⁻¹ • P)) {V : ℝ} (hV : ∫ x, G x ^ 2 ∂((P univ)⁻¹ • P) ≤ V) {n : ℕ} (hn : 0 < n) {δ : ℝ} (hδ : 0 < δ) :
    ρ {ω | δ ≤ |(∑ i ∈ Finset.range n, G (e i ω)) / n - ∫ x, G x ∂((P univ)⁻¹ • P)|} ≤ ENNReal.ofReal (V / (n * δ ^ 2)) := by
  have hmem : ∀ i, MemLp (fun ω => G (e i ω)) 2 ρ := fun i => by
    rw [memLp_two_iff_integrable_sq (show Measurable fun ω => G (e i ω) from hG.comp (he.measurable i)).aestronglyMeasurable]
    have := hi
    rw [← he.law i, integrable_map_measure (hG.pow_const 2).aestronglyMeasurable (he.measurable i).aemeasurable] at this
    exact this
  have hn' : (0 : ℝ) < n := by exact_mod_cast hn
  have hs : MemLp (∑ i ∈ Finset.range n, fun ω => G (e i ω)) 2 ρ := memLp_finset_sum' _ fun i _ => hmem i
  have hE : ∫ ω, (∑ i ∈ Finset.range n, fun ω => G (e i ω)) ω ∂ρ = n * ∫ x, G x ∂((P univ)⁻¹ • P) := by
    simp only [Finset.sum_apply]
    rw [integral_finsetSum _ fun i _ => (hmem i).integrable one_le_two]
    simp [draws_integral he hG]
  have hvar : Var[∑ i ∈ Finset.range n, fun ω => G (e i ω); ρ] ≤ n * V := by
    rw [IndepFun.variance_sum (fun i _ => hmem i) fun i _ j _ hij => (he.indep.indepFun hij).comp hG hG]
    refine (Finset.sum_le_card_nsmul _ _ V fun i _ => ?_).trans (by simp)
    refine (variance_le_expectation_sq (hmem i).1).trans ?_
    have := draws_integral he (G := fun x => G x ^ 2) (hG.pow_const 2) i
    simp only [Pi.pow_apply]
    rw [this]
    exact hV
  have := meas_ge_le_variance_div_sq hs (mul_pos hn' hδ)
  rw [hE] at this
  refine (measure_mono fun ω hω => ?_).trans (this.trans (ENNReal.ofReal_le_ofReal ?_))
  · simp only [mem_setOf_eq, Finset.sum_apply] at hω ⊢
    calc n * δ ≤ n * |(∑ i ∈ Finset.range n, G (e i ω)) / n - ∫ x, G x ∂((P univ)⁻¹ • P)| := by gcongr
      _ = |n * ((∑ i ∈ Finset.range n, G (e i ω)) / n - ∫ x, G x ∂((P univ)⁻¹ • P))| := by rw [abs_mul, abs_of_pos hn']
      _ = _ := by rw [mul_sub, mul_div_cancel₀ _ hn'.ne']
  · calc _ ≤ n * V / (n * δ) ^ 2 := by gcongr
      _ = _ := by field_simp

/-- **C182, error.** If no weight is larger than `b`, the posterior mean computed from `n` particles is off by more than `δ` with probability at most `4 b / (n κ) (1 + variance / δ²)`, where `κ` is the mean of the weight. -/
theorem C182_error [IsFiniteMeasure P] [IsFiniteMeasure T] (hT : T ≠ 0) (hW : Measurable W) (h : Estimates P W T) (f : E → ℝ) (hf : Measurable f) (hi : Integrable f T)
    (hi2 : Integrable (fun x => f x ^ 2) T) (b : ℝ) (hb : ∀ᵐ x ∂P, (W x).toReal ≤ b)
    (ρ : Measure Ω) [IsProbabilityMeasure ρ] (e : ℕ → Ω → E) (he : Draws ρ P e) (n : ℕ) (hn : 0 < n) (δ : ℝ) (hδ : 0 < δ) :
    OffBy ρ (fun ω => posteriorMean f W (fun i => e i ω) n) f T δ (4 * b / (n * meanWeight P W) * (1 + spread T f / δ ^ 2)) := by
  obtain ⟨P0, hfin, k0, hcT⟩ := weighted hT hW h
  set κ := meanWeight P W with hκ
  set m := mean T f with hm
  have hn' : (0 : ℝ) < n := by exact_mod_cast hn
  have hb' : ∀ᵐ x ∂((P univ)⁻¹ • P), (W x).toReal ≤ b := Measure.ae_smul_measure hb _
  have h1T : mean T (fun _ => 1) = 1 := by
    have : T.real univ ≠ 0 := by
      rw [measureReal_def]
      exact (ENNReal.toReal_pos (by simpa using hT) (measure_ne_top _ _)).ne'
    simp [mean, this]
  -- second moments
  have second : ∀ g : E → ℝ, Measurable g → Integrable (fun x => g x ^ 2) T → Integrable (fun x => ((W x).toReal * g x) ^ 2) ((P univ)⁻¹ • P) ∧
      ∫ x, ((W x).toReal * g x) ^ 2 ∂((P univ)⁻¹ • P) ≤ b * (κ * mean T fun x => g x ^ 2) := by
    intro g hg hg2
    obtain ⟨i1, i2⟩ := hcT _ hg2
    have hle : ∀ᵐ x ∂((P univ)⁻¹ • P), ((W x).toReal * g x) ^ 2 ≤ b * ((W x).toReal * g x ^ 2) := by
      filter_upwards [hb'] with x hx
      have : 0 ≤ (W x).toReal := ENNReal.toReal_nonneg
      nlinarith [mul_nonneg (mul_nonneg this (sq_nonneg (g x))) (sub_nonneg.2 hx)]
    have hint : Integrable (fun x => ((W x).toReal * g x) ^ 2) ((P univ)⁻¹ • P) := by
      refine (i1.const_mul b).mono' ((hW.ennreal_toReal.mul hg).pow_const 2).aestronglyMeasurable ?_
      filter_upwards [hle] with x hx
      rw [Real.norm_eq_abs, abs_of_nonneg (sq_nonneg _)]
      exact hx
    refine ⟨hint, ?_⟩
    rw [← i2, ← integral_const_mul]
    exact integral_mono_ae hint (i1.const_mul b) hle
  have hg : Measurable fun x => f x - m := hf.sub_const m
  have hg2 : Integrable (fun x => (f x - m) ^ 2) T := by
    have : (fun x => (f x - m) ^ 2) = fun x => f x ^ 2 - (2 * m) * f x + m ^ 2 := by funext x; ring
    rw [this]
    exact (hi2.sub (hi.const_mul _)).add (integrable_const _)
  obtain ⟨s1, s2⟩ := second (fun x => f x - m) hg hg2
  obtain ⟨t1, t2⟩ := second (fun _ => 1) measurable_const (by simp)
  simp only [mul_one, one_pow, h1T] at t1 t2
  have e0 : ∫ x, (W x).toReal * (f x - m) ∂((P univ)⁻¹ • P) = 0 := by
    rw [(hcT (fun x => f x - m) (hi.sub (integrable_const _))).2]
    have : mean T (fun x => f x - m) = 0 := by
      have hTr : T.real univ ≠ 0 := by
        rw [measureReal_def]
        exact (ENNReal.toReal_pos (by simpa using hT) (measure_ne_top _ _)).ne'
      rw [mean, integral_sub hi (integrable_const _), integral_const, smul_eq_mul, hm, mean, mul_div_cancel₀ _ hTr, sub_self, zero_div]
    rw [this, mul_zero]
  have e1 : ∫ x, (W x).toReal ∂((P univ)⁻¹ • P) = κ := by
    have := (hcT (fun _ => 1) (integrable_const _)).2
    simpa only [mul_one, h1T] using this
  have c1 := chebyshev he (G := fun x => (W x).toReal * (f x - m)) (hW.ennreal_toReal.mul hg) s1 s2 hn (δ := δ * κ / 2) (by positivity)
  have c2 := chebyshev he (G := fun x => (W x).toReal) hW.ennreal_toReal t1 t2 hn (δ := κ / 2) (by positivity)
  rw [e0] at c1
  rw [e1] at c2
  have hb0 : 0 ≤ b := by
    by_contra hneg
    have : 0 ≤ b * κ := (integral_nonneg fun x => sq_nonneg _).trans t2
    nlinarith
  have hsp : 0 ≤ spread T f := div_nonneg (integral_nonneg fun x => sq_nonneg _) measureReal_nonneg
  unfold OffBy
  refine (measure_mono (t := {ω | δ * κ / 2 ≤ |(∑ i ∈ Finset.range n, (W (e i ω)).toReal * (f (e i ω) - m)) / n - 0|} ∪
    {ω | κ / 2 ≤ |(∑ i ∈ Finset.range n, (W (e i ω)).toReal) / n - κ|}) fun ω hω => ?_).trans
    ((measure_union_le _ _).trans ((add_le_add c1 c2).trans ?_))
  · by_contra hc
    simp only [mem_union, mem_setOf_eq, not_or, not_le, sub_zero] at hc
    obtain ⟨a1, a2⟩ := hc
    have hD : κ / 2 < (∑ i ∈ Finset.range n, (W (e i ω)).toReal) / n := by linarith [(abs_lt.1 a2).1]
    set D := ∑ i ∈ Finset.range n, (W (e i ω)).toReal with hDdef
    have hDpos : 0 < D := by
      rw [lt_div_iff₀ hn'] at hD
      exact lt_trans (by positivity) hD
    refine hω ⟨_, posteriorMean_eq f W _ n hDpos.ne', ?_⟩
    have : (∑ i ∈ Finset.range n, (W (e i ω)).toReal * f (e i ω)) / D - m = (∑ i ∈ Finset.range n, (W (e i ω)).toReal * (f (e i ω) - m)) / D := by
      simp only [mul_sub, Finset.sum_sub_distrib, ← Finset.sum_mul]
      rw [← hDdef]
      field_simp
    rw [this, abs_div, abs_of_pos hDpos, div_le_iff₀ hDpos]
    rw [abs_div, abs_of_pos hn', div_lt_iff₀ hn'] at a1
    rw [lt_div_iff₀ hn'] at hD
    nlinarith
  · rw [← ENNReal.ofReal_add (by have : 0 ≤ mean T fun x => (f x - m) ^ 2 := hsp; positivity) (by positivity)]
    refine ENNReal.ofReal_le_ofReal (le_of_eq ?_)
    rw [show (mean T fun x => (f x - m) ^ 2) = spread T f from rfl]
    field_simp
    ring

/-! ### `PMCABC` -/

section

variable {X Y ι : Type} [MeasurableSpace X] [MeasurableSpace Y] [Fintype ι] [MeasurableSpace ι]

theorem resample_finite (hι : ∀ s : Set ι, MeasurableSet s) (w : ι → ℝ≥0∞) (hw : ∑ i, w i = 1) (K : ι → Measure X) [∀ i, IsFiniteMeasure (K i)] (S : Set X) (hS : MeasurableSet S)
    (sim : Kernel X Y) [IsMarkovKernel sim] (inner : ℕ) : IsFiniteMeasure (trial w K S sim inner) := by
  refine ⟨lt_top_iff_ne_top.2 ?_⟩
  rw [← lintegral_one, trial_eq hι _ _ hS _ _ _ measurable_const, ENNReal.sum_ne_top]
  intro i _
  refine ENNReal.mul_ne_top (fun h => ?_) (ENNReal.mul_ne_top (geo_ne_top (measure_ne_top _ _) _) (by simp))
  have := Finset.single_le_sum (f := w) (fun _ _ => zero_le) (Finset.mem_univ i)
  rw [hw, h] at this
  simp at this

theorem untilIn_finite (P : Measure E) [IsFiniteMeasure P] {S : Set E} (hS : MeasurableSet S) (n : ℕ) : IsFiniteMeasure (untilIn P S n) := by
  rw [untilIn_eq _ hS]
  exact Measure.smul_finite _ (geo_ne_top (measure_ne_top _ _) _)

theorem meanWeight_ge {P T : Measure E} [IsFiniteMeasure P] [IsFiniteMeasure T] {W : E → ℝ≥0∞} (hW : Measurable W) {c : ℝ≥0∞} (ct : c ≠ ∞) (hc : P univ ≤ c) (hP : P univ ≠ 0)
    (h : ∫⁻ e, W e ∂P = c * T univ) : T.real univ ≤ meanWeight P W := by
  have hfin : ∀ᵐ x ∂P, W x < ∞ := by
    refine ae_lt_top hW ?_
    rw [h]
    exact ENNReal.mul_ne_top ct (measure_ne_top _ _)
  have hP' : 0 < P.real univ := by
    rw [measureReal_def]
    exact ENNReal.toReal_pos hP (measure_ne_top _ _)
  rw [meanWeight, mean, integral_toReal hW.aemeasurable hfin, h, le_div_iff₀ hP', ENNReal.toReal_mul, mul_comm, ← measureReal_def]
  gcongr
  rw [measureReal_def]
  exact ENNReal.toReal_mono ct hc

/-- **C182, first iteration of `PMCABC`.** Posterior means computed from `n` particles of the first iteration, which have weight `1 / n` (line 1043), converge to the mean under the ABC posterior. -/
theorem C182_first (μ : Measure X) (π : X → ℝ≥0∞) (hP : IsProbabilityMeasure (μ.withDensity π)) (sim : Kernel X Y) [IsMarkovKernel sim] {D : Set Y} (hD : MeasurableSet D) (outer : ℕ)
    (ho : 0 < outer) (hT : target μ π sim D ≠ 0) (f : X → ℝ) (hf : Measurable f) (hi : Integrable (fun e => f e.1) (target μ π sim D))
    (ρ : Measure Ω) [IsProbabilityMeasure ρ] (e : ℕ → Ω → X × Y) (he : Draws ρ (firstResample (μ.withDensity π) sim D outer) e) :
    Consistent ρ (fun ω n => posteriorMean (fun e => f e.1) (fun _ => 1 / (n : ℝ≥0∞)) (fun i => e i ω) n) (fun e => f e.1) (target μ π sim D) := by
  have hD' : MeasurableSet (Prod.snd ⁻¹' D : Set (X × Y)) := measurable_snd hD
  have : IsFiniteMeasure (firstTrial (μ.withDensity π) sim) := by unfold firstTrial; infer_instance
  have : IsFiniteMeasure (firstResample (μ.withDensity π) sim D outer) := untilIn_finite _ hD' _
  have : IsFiniteMeasure (target μ π sim D) := by unfold target; infer_instance
  have h := C182_consistent hT measurable_const (C137_first μ π hP sim hD outer ho 1 one_pos) (fun e => f e.1) (hf.comp measurable_fst) hi ρ e he
  unfold Consistent at h ⊢
  filter_upwards [h] with ω ⟨v, h1, h2⟩
  refine ⟨v, ?_, h2⟩
  filter_upwards [h1, eventually_gt_atTop 0] with n hn hpos
  have hn' : (n : ℝ) ≠ 0 := by positivity
  rw [posteriorMean_eq _ _ _ _ (by simp [hn'])] at hn ⊢
  rw [← hn]
  simp only [← Finset.mul_sum, Finset.sum_const, Finset.card_range, Nat.cast_one, ENNReal.toReal_div, ENNReal.toReal_one, ENNReal.toReal_natCast, nsmul_eq_mul, div_one, mul_one, one_mul]
  congr 1
  field_simp

variable (hι : ∀ s : Set ι, MeasurableSet s) (μ : Measure X) [SFinite μ] (π : X → ℝ≥0∞) (hπ : Measurable π) (hP : IsProbabilityMeasure (μ.withDensity π))
    (w : ι → ℝ≥0∞) (hw : ∑ i, w i = 1) (k : ι → X → ℝ≥0∞) (hk : ∀ i, Measurable (k i)) (hk' : ∀ i x, k i x ≠ ∞) (hK : ∀ i, IsProbabilityMeasure (μ.withDensity (k i)))
    (S : Set X) (hS : MeasurableSet S) (hsupp : ∀ x, π x ≠ 0 → x ∈ S) (reach : ∀ x, π x ≠ 0 → ∃ i, w i ≠ 0 ∧ k i x ≠ 0)
    (sim : Kernel X Y) [IsMarkovKernel sim] (inner : ℕ) (hi : 0 < inner) (r : ℝ≥0∞) (same : ∀ i, μ.withDensity (k i) Sᶜ = r)

include hι hπ hP hw hk hk' hK hS hsupp reach hi same

/-- **C182, later iterations of `PMCABC`, partial.** If all particles of the previous population have the same probability of leaving the support when perturbed, posterior means computed from more and more new particles converge to
the mean under the ABC posterior. Missing: other populations, see `C182_violated`. -/
theorem C182_pmcabc_partial (D : Set Y) (hD : MeasurableSet D) (outer : ℕ) (ho : 0 < outer) (hT : target μ π sim D ≠ 0) (f : X → ℝ) (hf : Measurable f)
    (hfi : Integrable (fun e => f e.1) (target μ π sim D)) (ρ : Measure Ω) [IsProbabilityMeasure ρ] (e : ℕ → Ω → X × Y)
    (he : Draws ρ (resample w (fun i => μ.withDensity (k i)) S sim D inner outer) e) :
    Consistent ρ (fun ω => posteriorMean (fun e => f e.1) (fun e => weight π w k e.1) fun i => e i ω) (fun e => f e.1) (target μ π sim D) := by
  have hD' : MeasurableSet (Prod.snd ⁻¹' D : Set (X × Y)) := measurable_snd hD
  have := resample_finite hι w hw (fun i => μ.withDensity (k i)) S hS sim inner
  have : IsFiniteMeasure (resample w (fun i => μ.withDensity (k i)) S sim D inner outer) := untilIn_finite _ hD' _
  have : IsFiniteMeasure (target μ π sim D) := by unfold target; infer_instance
  have hW : Measurable (weight π w k) := hπ.div (Finset.measurable_sum _ fun i _ => (hk i).const_mul _)
  exact C182_consistent hT (hW.comp measurable_fst) (C137_partial hι μ π hπ w hw k hk hk' hK S hS hsupp reach sim D hD inner outer hi ho r same) _ (hf.comp measurable_fst) hfi ρ e he

/-- **C182, error of later iterations of `PMCABC`, partial.** If moreover the prior density is nowhere more than `b` times the density of the perturbed particles, the posterior mean computed from `n` new particles is off by more than `δ`
with probability at most `4 b / (n a) (1 + variance / δ²)`, where `a` is the probability that data of a parameter from the prior are accepted. The bound is the same for all previous populations with the same `b`. -/
theorem C182_pmcabc_error_partial (D : Set Y) (hD : MeasurableSet D) (outer : ℕ) (ho : 0 < outer) (hT : target μ π sim D ≠ 0) (f : X → ℝ) (hf : Measurable f)
    (hfi : Integrable (fun e => f e.1) (target μ π sim D)) (hf2 : Integrable (fun e => f e.1 ^ 2) (target μ π sim D)) (b : ℝ) (hb0 : 0 ≤ b) (hb : ∀ x, π x ≤ ENNReal.ofReal b * ∑ i, w i * k i x)
    (ρ : Measure Ω) [IsProbabilityMeasure ρ] (e : ℕ → Ω → X × Y) (he : Draws ρ (resample w (fun i => μ.withDensity (k i)) S sim D inner outer) e) (n : ℕ) (hn : 0 < n) (δ : ℝ) (hδ : 0 < δ) :
    OffBy ρ (fun ω => posteriorMean (fun e => f e.1) (fun e => weight π w k e.1) (fun i => e i ω) n) (fun e => f e.1) (target μ π sim D) δ
      (4 * b / (n * (target μ π sim D).real univ) * (1 + spread (target μ π sim D) (fun e => f e.1) / δ ^ 2)) := by
  have hD' : MeasurableSet (Prod.snd ⁻¹' D : Set (X × Y)) := measurable_snd hD
  have := resample_finite hι w hw (fun i => μ.withDensity (k i)) S hS sim inner
  have : IsFiniteMeasure (resample w (fun i => μ.withDensity (k i)) S sim D inner outer) := untilIn_finite _ hD' _
  have : IsFiniteMeasure (target μ π sim D) := by unfold target; infer_instance
  have hW : Measurable fun e : X × Y => weight π w k e.1 := (show Measurable (weight π w k) from hπ.div (Finset.measurable_sum _ fun i _ => (hk i).const_mul _)).comp measurable_fst
  have hE := C137_partial hι μ π hπ w hw k hk hk' hK S hS hsupp reach sim D hD inner outer hi ho r same
  have hle : ∀ x, weight π w k x ≤ ENNReal.ofReal b := fun x => by
    rw [weight]
    exact ENNReal.div_le_of_le_mul (hb x)
  have h := C182_error hT hW hE _ (hf.comp measurable_fst) hfi hf2 b (ae_of_all _ fun x => ENNReal.toReal_le_of_le_ofReal hb0 (hle x.1)) ρ e he n hn δ hδ
  obtain ⟨c, c0, ct, hc, hint⟩ := resample_weighted hι μ π hπ w hw k hk hk' hK S hS hsupp reach sim D hD inner outer hi ho r same
  have hone := hint (fun _ => 1) measurable_const
  simp only [one_mul, lintegral_one] at hone
  have hκ := meanWeight_ge hW ct hc (weighted hT hW hE).1 hone
  refine h.trans (ENNReal.ofReal_le_ofReal ?_)
  have hTr : 0 < (target μ π sim D).real univ := by
    rw [measureReal_def]
    exact ENNReal.toReal_pos (by simpa using hT) (measure_ne_top _ _)
  have hn' : (0 : ℝ) < n := by exact_mod_cast hn
  have hsp : 0 ≤ spread (target μ π sim D) (fun e => f e.1) := div_nonneg (integral_nonneg fun x => sq_nonneg _) measureReal_nonneg
  refine mul_le_mul_of_nonneg_right ?_ (by positivity)
  exact div_le_div_of_nonneg_left (by positivity) (by positivity) (mul_le_mul_of_nonneg_left hκ hn'.le)

/-! ### `PMC` -/

omit hP in
/-- **C182, `PMC`, partial.** The same for `PMC` if the prior is uniform on its support. Missing: other priors (`LikTarget.C173_violated`) and populations. -/
theorem C182_pmc_partial (a : ℝ≥0∞) (ha0 : a ≠ 0) (ha : a ≠ ∞) (flat : ∀ x, π x ≠ 0 → π x = a) (lik : X × Y → ℝ≥0∞) (hlik : Measurable lik) (hT : posteriorLaw μ π sim lik ≠ 0)
    (hT' : IsFiniteMeasure (posteriorLaw μ π sim lik)) (f : X → ℝ) (hf : Measurable f) (hfi : Integrable (fun e => f e.1) (posteriorLaw μ π sim lik)) (ρ : Measure Ω) [IsProbabilityMeasure ρ]
    (e : ℕ → Ω → X × Y) (he : Draws ρ (particle w (fun i => μ.withDensity (k i)) S sim inner) e) :
    Consistent ρ (fun ω => posteriorMean (fun e => f e.1) (likWeight π lik w k) fun i => e i ω) (fun e => f e.1) (posteriorLaw μ π sim lik) := by
  have : IsFiniteMeasure (particle w (fun i => μ.withDensity (k i)) S sim inner) := resample_finite hι w hw (fun i => μ.withDensity (k i)) S hS sim inner
  have hW : Measurable fun e : X × Y => weight π w k e.1 := (show Measurable (weight π w k) from hπ.div (Finset.measurable_sum _ fun i _ => (hk i).const_mul _)).comp measurable_fst
  have hL : Measurable (likWeight π lik w k) := hW.mul ((hπ.comp measurable_fst).mul hlik)
  exact C182_consistent hT hL (C173_partial hι μ π hπ a ha0 ha flat w hw k hk hk' hK S hS hsupp reach sim lik hlik inner hi r same) _ (hf.comp measurable_fst) hfi ρ e he

end

/-! ### Violation -/

/-- If weighted draws do not estimate averages under `T`, there is a set whose posterior probability is estimated wrongly, however many particles there are. -/
theorem inconsistent {P T : Measure E} [IsFiniteMeasure P] [IsFiniteMeasure T] (hT : T ≠ 0) {W : E → ℝ≥0∞} (hW : Measurable W) (hW0 : ∫⁻ x, W x ∂P ≠ 0) (hWt : ∫⁻ x, W x ∂P ≠ ∞)
    (h : ¬ Estimates P W T) : ∃ A, MeasurableSet A ∧ ∃ L ≠ mean T (A.indicator 1), ∀ (ρ : Measure Ω) [IsProbabilityMeasure ρ] (e : ℕ → Ω → E), Draws ρ P e →
      ∀ᵐ ω ∂ρ, ∃ v : ℕ → ℝ, (∀ᶠ n in atTop, posteriorMean (A.indicator 1) W (fun i => e i ω) n = some (v n)) ∧ Tendsto v atTop (𝓝 L) := by
  have hu : P.withDensity W univ = ∫⁻ x, W x ∂P := by rw [withDensity_apply _ MeasurableSet.univ, Measure.restrict_univ]
  have hfin : IsFiniteMeasure (P.withDensity W) := ⟨by rw [hu]; exact lt_top_iff_ne_top.2 hWt⟩
  have hne : P.withDensity W ≠ 0 := fun h0 => hW0 (by rw [← hu, h0]; rfl)
  have hest : Estimates P W (P.withDensity W) := ⟨1, one_ne_zero, ENNReal.one_ne_top, fun f hf => by
    rw [lintegral_withDensity_eq_lintegral_mul _ hW hf, one_mul]
    exact lintegral_congr fun x => mul_comm _ _⟩
  by_contra hno
  push Not at hno
  have key : ∀ A, MeasurableSet A → mean (P.withDensity W) (A.indicator 1) = mean T (A.indicator 1) := by
    intro A hA
    by_contra hd
    obtain ⟨ρ, hρ, e, he, hbad⟩ := hno A hA _ hd
    refine hbad ?_
    have := C182_consistent hne hW hest (A.indicator 1) (measurable_one.indicator hA) ((integrable_const 1).indicator hA) ρ e he
    unfold Consistent at this
    filter_upwards [this] with ω ⟨v, h1, h2⟩ hn
    exact hn v h1 h2
  have hTr : 0 < T.real univ := by
    rw [measureReal_def]
    exact ENNReal.toReal_pos (by simpa using hT) (measure_ne_top _ _)
  have hPr : 0 < (P.withDensity W).real univ := by
    rw [measureReal_def]
    exact ENNReal.toReal_pos (by rw [hu]; exact hW0) (measure_ne_top _ _)
  apply h
  have heq : P.withDensity W = (P.withDensity W univ / T univ) • T := by
    refine Measure.ext fun A hA => ?_
    have := key A hA
    rw [mean, mean, integral_indicator_one hA, integral_indicator_one hA, div_eq_div_iff hPr.ne' hTr.ne'] at this
    have hT0 : T univ ≠ 0 := by simpa using hT
    rw [Measure.smul_apply, smul_eq_mul, ENNReal.mul_comm_div, ← mul_div_assoc, mul_comm, ENNReal.eq_div_iff hT0 (measure_ne_top _ _)]
    rw [← ENNReal.toReal_eq_toReal_iff' (by finiteness) (by finiteness), ENNReal.toReal_mul, ENNReal.toReal_mul]
    simp only [measureReal_def] at this
    linarith
  refine ⟨P.withDensity W univ / T univ, ?_, ?_, fun f hf => ?_⟩
  · exact ENNReal.div_ne_zero.2 ⟨by rw [hu]; exact hW0, measure_ne_top _ _⟩
  · exact ENNReal.div_ne_top (measure_ne_top _ _) (by simpa using hT)
  · have e1 : ∫⁻ x, f x * W x ∂P = ∫⁻ x, f x ∂P.withDensity W := by
      rw [lintegral_withDensity_eq_lintegral_mul _ hW hf]
      exact lintegral_congr fun x => mul_comm _ _
    rw [e1, heq, lintegral_smul_measure, smul_eq_mul, ← heq]

/-- The particles of `Target.C137_violated`. -/
noncomputable def edge (inner outer : ℕ) : Measure (ℤ × Unit) := resample half (fun i => (count : Measure ℤ).withDensity (walks i)) {x | uniform 2 x ≠ 0} constant univ inner outer

theorem half_sum : ∑ i, half i = 1 := by rw [Fin.sum_univ_two]; exact ENNReal.add_halves 1

theorem walks_ne_top (i : Fin 2) (x : ℤ) : walks i x ≠ ∞ := by
  simp only [walks, walk]
  split <;> simp

theorem uniform_two {a : ℤ} (h : uniform 2 a ≠ 0) : a = 0 ∨ a = 1 ∨ a = 2 := by
  by_contra hx
  apply h
  rw [uniform, if_neg]
  push_cast
  omega

theorem edge_finite (inner outer : ℕ) : IsFiniteMeasure (edge inner outer) := by
  have hpr : ∀ i, IsProbabilityMeasure ((count : Measure ℤ).withDensity (walks i)) := fun i => walk_prob _
  have := resample_finite (fun s => by measurability) half half_sum (fun i => (count : Measure ℤ).withDensity (walks i)) {x | uniform 2 x ≠ 0} (by measurability) constant inner
  exact untilIn_finite _ MeasurableSet.univ _

theorem edge_weight_le (e : ℤ × Unit) : weight (uniform 2) half walks e.1 ≤ 2 := by
  obtain ⟨x, -⟩ := e
  by_cases hx : uniform 2 x = 0
  · simp [weight, hx]
  · have h3 : uniform 2 x = 1 / 3 := by
      rcases uniform_two hx with rfl | rfl | rfl <;> norm_num [uniform]
    have h1 : walks 1 x = 1 / 3 := by
      rcases uniform_two hx with rfl | rfl | rfl <;> norm_num [walks, walk]
    refine ENNReal.div_le_of_le_mul ?_
    rw [h3, Fin.sum_univ_two, h1]
    calc (1 / 3 : ℝ≥0∞) = 2 * (half 1 * (1 / 3)) := by rw [half, ← mul_assoc, ENNReal.mul_div_cancel (by simp) (by simp), one_mul]
      _ ≤ _ := by gcongr; exact le_add_self

theorem edge_target_finite : IsFiniteMeasure (target count (uniform 2) constant univ) := by
  refine ⟨?_⟩
  rw [target, preimage_univ, Measure.restrict_univ, ← lintegral_one, lintegral_compProd measurable_const]
  simp only [lintegral_const, measure_univ, mul_one]
  rw [one_mul, withDensity_apply _ MeasurableSet.univ, Measure.restrict_univ, lintegral_count, tsum_eq_sum (s := {0, 1, 2})]
  · rw [ENNReal.sum_lt_top]
    intro a _
    unfold uniform
    split
    · exact ENNReal.div_lt_top (by simp) (by simp)
    · simp
  · intro b hb
    by_contra h
    rcases uniform_two h with rfl | rfl | rfl <;> simp at hb

theorem edge_target : target count (uniform 2) constant univ ≠ 0 := by
  have u0 : uniform 2 0 = 1 / 3 := by norm_num [uniform]
  intro h
  have : ∫⁻ e : ℤ × Unit, (if e.1 = 0 then (1 : ℝ≥0∞) else 0) ∂(target count (uniform 2) constant univ) = 0 := by rw [h, lintegral_zero_measure]
  rw [target, preimage_univ, Measure.restrict_univ, lintegral_compProd (measurable_of_countable _), lintegral_withDensity_eq_lintegral_mul _ measurable_from_top measurable_from_top, lintegral_count,
    tsum_eq_single 0 (fun b hb => by simp [hb])] at this
  simp [constant, u0] at this

theorem edge_mass (inner outer : ℕ) (hi : 0 < inner) (ho : 0 < outer) : ∫⁻ e, weight (uniform 2) half walks e.1 ∂edge inner outer ≠ 0 := by
  have u0 : uniform 2 0 = 1 / 3 := by norm_num [uniform]
  have hS : MeasurableSet {x : ℤ | uniform 2 x ≠ 0} := by measurability
  have hpr : ∀ i, IsProbabilityMeasure ((count : Measure ℤ).withDensity (walks i)) := fun i => walk_prob _
  have hw0 : weight (uniform 2) half walks 0 ≠ 0 := by
    rw [weight, Ne, ENNReal.div_eq_zero_iff, u0, not_or]
    refine ⟨by simp, ?_⟩
    rw [← Ne, ENNReal.sum_ne_top]
    exact fun i _ => ENNReal.mul_ne_top (by simp [half]) (walks_ne_top i 0)
  rw [edge, resample, preimage_univ, lintegral_untilIn _ MeasurableSet.univ]
  refine mul_ne_zero (geo_ne_zero ho) ?_
  rw [Measure.restrict_univ, trial_eq (fun s => by measurability) _ _ hS _ _ _ (measurable_of_countable _)]
  intro h
  rw [Finset.sum_eq_zero_iff] at h
  have h := h 0 (Finset.mem_univ _)
  rw [mul_eq_zero, mul_eq_zero, ← lintegral_indicator hS] at h
  rcases h with h | h | h
  · simp [half] at h
  · exact geo_ne_zero hi h
  · rw [show walks 0 = walk 0 from rfl, lintegral_walk, ENNReal.div_eq_zero_iff] at h
    simp only [add_eq_zero] at h
    rcases h with ⟨⟨-, h⟩, -⟩ | h
    · rw [indicator_of_mem (show (0 : ℤ) ∈ {x : ℤ | uniform 2 x ≠ 0} by rw [mem_setOf_eq, u0]; simp)] at h
      simp only [lintegral_const, measure_univ, mul_one] at h
      exact hw0 h
    · simp at h

/-- **C182 is violated** when perturbed particles leave the support of the prior with different probabilities. For the prior and population of `Target.C137_violated`, in which every parameter is accepted, there is a set of
parameters whose estimated posterior probability tends to a wrong number. -/
theorem C182_violated (inner outer : ℕ) (hi : 2 ≤ inner) (ho : 0 < outer) : ∃ A : Set (ℤ × Unit), ∃ L ≠ mean (target count (uniform 2) constant univ) (A.indicator 1),
    ∀ (ρ : Measure Ω) [IsProbabilityMeasure ρ] (e : ℕ → Ω → ℤ × Unit), Draws ρ (edge inner outer) e →
      ∀ᵐ ω ∂ρ, ∃ v : ℕ → ℝ, (∀ᶠ n in atTop, posteriorMean (A.indicator 1) (fun e => weight (uniform 2) half walks e.1) (fun i => e i ω) n = some (v n)) ∧ Tendsto v atTop (𝓝 L) := by
  have := edge_finite inner outer
  have := edge_target_finite
  have ht : ∫⁻ e, weight (uniform 2) half walks e.1 ∂edge inner outer ≠ ∞ := by
    refine ne_top_of_le_ne_top ?_ (lintegral_mono edge_weight_le)
    rw [lintegral_const]
    exact ENNReal.mul_ne_top (by simp) (measure_ne_top _ _)
  obtain ⟨A, -, L, h1, h2⟩ := inconsistent (Ω := Ω) edge_target (measurable_of_countable _) (edge_mass inner outer (by omega) ho) ht (C137_violated inner outer hi)
  exact ⟨A, L, h1, h2⟩

/-! ### Examples -/

/-- Prior uniform on 0 and 1, previous particles 0 and 1, random walk, any model with a positive probability of acceptance: estimated posterior means converge, and the error of the posterior mean of `n` particles is bounded. -/
example {Y : Type} [MeasurableSpace Y] (sim : Kernel ℤ Y) [IsMarkovKernel sim] (D : Set Y) (hD : MeasurableSet D) (h0 : sim 1 D ≠ 0) :
    ∃ (ρ : Measure (ℕ → ℤ × Y)) (e : ℕ → (ℕ → ℤ × Y) → ℤ × Y), IsProbabilityMeasure ρ ∧ Draws ρ (resample half (fun i => (count : Measure ℤ).withDensity (walks i)) {x | uniform 1 x ≠ 0} sim D 5 7) e ∧
      Consistent ρ (fun ω => posteriorMean (fun e => (e.1 : ℝ)) (fun e => weight (uniform 1) half walks e.1) fun i => e i ω) (fun e => (e.1 : ℝ)) (target count (uniform 1) sim D) ∧
      ∀ n, 0 < n → ∀ δ, 0 < δ → OffBy ρ (fun ω => posteriorMean (fun e => (e.1 : ℝ)) (fun e => weight (uniform 1) half walks e.1) (fun i => e i ω) n) (fun e => (e.1 : ℝ)) (target count (uniform 1) sim D) δ
        (4 * (3 / 2) / (n * (target count (uniform 1) sim D).real univ) * (1 + spread (target count (uniform 1) sim D) (fun e => (e.1 : ℝ)) / δ ^ 2)) := by
  have e0 : uniform 1 0 = 1 / 2 := by norm_num [uniform]
  have e1 : uniform 1 1 = 1 / 2 := by norm_num [uniform]
  have e2 : uniform 1 2 = 0 := by norm_num [uniform]
  have em : uniform 1 (-1) = 0 := by norm_num [uniform]
  have k0 : {x : ℤ | uniform 1 x ≠ 0}ᶜ.indicator (1 : ℤ → ℝ≥0∞) 0 = 0 := by simp [e0]
  have k1 : {x : ℤ | uniform 1 x ≠ 0}ᶜ.indicator (1 : ℤ → ℝ≥0∞) 1 = 0 := by simp [e1]
  have k2 : {x : ℤ | uniform 1 x ≠ 0}ᶜ.indicator (1 : ℤ → ℝ≥0∞) 2 = 1 := by simp [e2]
  have km : {x : ℤ | uniform 1 x ≠ 0}ᶜ.indicator (1 : ℤ → ℝ≥0∞) (-1) = 1 := by simp [em]
  have hx01 : ∀ x, uniform 1 x ≠ 0 → x = 0 ∨ x = 1 := by
    intro x h
    by_contra hx
    apply h
    rw [uniform, if_neg]
    push_cast
    omega
  have hw : ∑ i, half i = 1 := by rw [Fin.sum_univ_two]; exact ENNReal.add_halves 1
  have hι : ∀ s : Set (Fin 2), MeasurableSet s := fun s => by measurability
  have hS : MeasurableSet {x : ℤ | uniform 1 x ≠ 0} := by measurability
  have hK : ∀ i, IsProbabilityMeasure ((count : Measure ℤ).withDensity (walks i)) := fun i => walk_prob _
  have hk' : ∀ i x, walks i x ≠ ∞ := by
    intro i x
    simp only [walks, walk]
    split <;> simp
  have reach : ∀ x, uniform 1 x ≠ 0 → ∃ i, half i ≠ 0 ∧ walks i x ≠ 0 := by
    intro x h
    refine ⟨0, by simp [half], ?_⟩
    rcases hx01 x h with rfl | rfl <;> norm_num [walks, walk]
  have same : ∀ i, (count : Measure ℤ).withDensity (walks i) {x | uniform 1 x ≠ 0}ᶜ = 1 / 3 := by
    intro i
    unfold walks
    rw [walk_apply]
    rcases Fin.exists_fin_two.1 ⟨i, rfl⟩ with h | h <;> subst h
    · norm_num [k0, k1, km]
    · norm_num [k0, k1, k2]
  have hprior : IsProbabilityMeasure ((count : Measure ℤ).withDensity (uniform 1)) := by
    refine ⟨?_⟩
    rw [withDensity_apply _ MeasurableSet.univ, Measure.restrict_univ, lintegral_count, tsum_eq_sum (s := {0, 1})]
    · rw [Finset.sum_pair (by omega), e0, e1]
      exact ENNReal.add_halves 1
    · intro b hb
      by_contra h
      rcases hx01 b h with rfl | rfl <;> simp at hb
  have hD' : MeasurableSet (Prod.snd ⁻¹' D : Set (ℤ × Y)) := measurable_snd hD
  have hTfin : IsFiniteMeasure (target count (uniform 1) sim D) := by unfold target; infer_instance
  have hT : target count (uniform 1) sim D ≠ 0 := by
    intro h
    have : target count (uniform 1) sim D univ = 0 := by rw [h]; rfl
    rw [target, Measure.restrict_apply MeasurableSet.univ, univ_inter, Measure.compProd_apply hD', lintegral_withDensity_eq_lintegral_mul _ measurable_from_top measurable_from_top, lintegral_count,
      ENNReal.tsum_eq_zero] at this
    have := this 1
    simp only [Pi.mul_apply, e1, mul_eq_zero] at this
    rcases this with h | h
    · simp at h
    · exact h0 h
  have := resample_finite hι half hw (fun i => (count : Measure ℤ).withDensity (walks i)) {x | uniform 1 x ≠ 0} hS sim 5
  have : IsFiniteMeasure (resample half (fun i => (count : Measure ℤ).withDensity (walks i)) {x | uniform 1 x ≠ 0} sim D 5 7) := untilIn_finite _ hD' _
  have hW : Measurable fun e : ℤ × Y => weight (uniform 1) half walks e.1 := (show Measurable (weight (uniform 1) half walks) from measurable_from_top).comp measurable_fst
  have hP0 : resample half (fun i => (count : Measure ℤ).withDensity (walks i)) {x | uniform 1 x ≠ 0} sim D 5 7 ≠ 0 := by
    have := (weighted hT hW (C137_partial hι count (uniform 1) measurable_from_top half hw walks (fun _ => measurable_from_top) hk' hK {x | uniform 1 x ≠ 0} hS (fun _ h => h) reach sim D hD 5 7 (by omega) (by omega)
      (1 / 3) same)).1
    simpa using this
  have hbound : ∀ᵐ x ∂(target count (uniform 1) sim D), |(x.1 : ℝ)| ≤ 1 := by
    refine ae_restrict_of_ae ?_
    have hm : MeasurableSet {x : ℤ × Y | |(x.1 : ℝ)| ≤ 1} := measurable_fst (show MeasurableSet {x : ℤ | |(x : ℝ)| ≤ 1} by measurability)
    rw [Measure.ae_compProd_iff hm, ae_withDensity_iff measurable_from_top]
    refine ae_of_all _ fun x hx => ae_of_all _ fun _ => ?_
    rcases hx01 x hx with rfl | rfl <;> simp
  have hfm : Measurable fun x : ℤ => (x : ℝ) := measurable_from_top
  have hfi : Integrable (fun e : ℤ × Y => (e.1 : ℝ)) (target count (uniform 1) sim D) := by
    refine Integrable.of_bound (hfm.comp measurable_fst).aestronglyMeasurable 1 ?_
    filter_upwards [hbound] with x hx
    exact hx
  have hf2 : Integrable (fun e : ℤ × Y => (e.1 : ℝ) ^ 2) (target count (uniform 1) sim D) := by
    refine Integrable.of_bound ((hfm.comp measurable_fst).pow_const 2).aestronglyMeasurable 1 ?_
    filter_upwards [hbound] with x hx
    rw [Real.norm_eq_abs, abs_pow]
    exact pow_le_one₀ (abs_nonneg _) hx
  obtain ⟨ρ, e, hρ, he⟩ := draws_exist _ hP0
  refine ⟨ρ, e, hρ, he, ?_, fun n hn δ hδ => ?_⟩
  · exact C182_pmcabc_partial hι count (uniform 1) measurable_from_top hprior half hw walks (fun _ => measurable_from_top) hk' hK {x | uniform 1 x ≠ 0} hS (fun _ h => h) reach sim 5 (by omega) (1 / 3) same D hD 7
      (by omega) hT (fun x => (x : ℝ)) hfm hfi ρ e he
  · refine C182_pmcabc_error_partial hι count (uniform 1) measurable_from_top hprior half hw walks (fun _ => measurable_from_top) hk' hK {x | uniform 1 x ≠ 0} hS (fun _ h => h) reach sim 5 (by omega) (1 / 3) same D hD 7
      (by omega) hT (fun x => (x : ℝ)) hfm hfi hf2 (3 / 2) (by norm_num) (fun x => ?_) ρ e he n hn δ hδ
    by_cases hx : uniform 1 x = 0
    · rw [hx]; exact zero_le
    · have a0 : walks 0 x = 1 / 3 := by rcases hx01 x hx with rfl | rfl <;> norm_num [walks, walk]
      have a1 : walks 1 x = 1 / 3 := by rcases hx01 x hx with rfl | rfl <;> norm_num [walks, walk]
      have a2 : uniform 1 x = 1 / 2 := by
        rcases hx01 x hx with rfl | rfl
        · exact e0
        · exact e1
      rw [a2, Fin.sum_univ_two, a0, a1, half, half, ← add_mul, ENNReal.add_halves, one_mul]
      rw [← ENNReal.toReal_le_toReal (by simp) (by finiteness)]
      norm_num [ENNReal.toReal_mul, ENNReal.toReal_div]

end Verif.Pmc.Averages
