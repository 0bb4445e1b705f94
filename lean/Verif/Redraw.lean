import Verif.Pmc.Target

/-!
# Moves whose proposals are drawn again until they are inside the support of the prior

`SMCABC` (`abcpy/inferences.py` 3768-3771), `SABC` (1981-1985) and `ABCsubsim` (2353-2356) perturb a value again and again until the graph accepts the result and its prior density is not zero. Here is what the three have in common: the law of
the value proposed (given that the loop ends), and which distribution a move with such proposals leaves as it is.
-/

namespace Verif.Redraw

open MeasureTheory ProbabilityTheory Measure Set Verif.Pmc.Target
open scoped ENNReal

variable {X Y Z : Type} [MeasurableSpace X] [MeasurableSpace Y] [MeasurableSpace Z]

/-! ## Model -/

/-- The value proposed by the loop, given that it ends within `tries` draws from `P`; `S` are the values that are not refused. -/
noncomputable def proposed (P : Measure X) (S : Set X) (tries : ℕ) : Measure X := (untilIn P S tries univ)⁻¹ • untilIn P S tries

/-- The expectation of `f` of parameters and data after a move from `z`: a value is drawn from `Q`, data are simulated, and both are accepted with probability `a`. -/
noncomputable def moveMean (Q : Measure X) (sim : Kernel X Y) (a : X × Y → X × Y → ℝ) (f : X × Y → ℝ≥0∞) (z : X × Y) : ℝ≥0∞ :=
  ∫⁻ x', ∫⁻ y', ENNReal.ofReal (a z (x', y')) * f (x', y') + ENNReal.ofReal (1 - a z (x', y')) * f z ∂sim x' ∂Q

/-! ## Proofs -/

theorem proposed_eq (P : Measure X) [IsProbabilityMeasure P] {S : Set X} (hS : MeasurableSet S) (tries : ℕ) (ht : 0 < tries) : proposed P S tries = (P S)⁻¹ • P.restrict S := by
  have g0 : geo (P Sᶜ) tries ≠ 0 := geo_ne_zero ht
  have gt : geo (P Sᶜ) tries ≠ ∞ := geo_ne_top (measure_ne_top _ _) _
  rw [proposed, untilIn_eq P hS, Measure.smul_apply, Measure.restrict_apply MeasurableSet.univ, univ_inter, smul_smul, smul_eq_mul, ENNReal.mul_inv (.inl g0) (.inl gt), mul_right_comm, ENNReal.inv_mul_cancel g0 gt,
    one_mul]

/-- If the flows between states are balanced, a move keeps averages. -/
theorem balanced (m : Measure Z) [SFinite m] (τ : Z → ℝ≥0∞) (hτ : Measurable τ) (r a : Z → Z → ℝ≥0∞) (hr : Measurable fun q : Z × Z => r q.1 q.2) (ha : Measurable fun q : Z × Z => a q.1 q.2)
    (ha1 : ∀ z z', a z z' ≤ 1) (sym : ∀ z z', τ z * r z z' * a z z' = τ z' * r z' z * a z' z) (f : Z → ℝ≥0∞) (hf : Measurable f) :
    ∫⁻ z, τ z * ∫⁻ z', r z z' * (a z z' * f z' + (1 - a z z') * f z) ∂m ∂m = ∫⁻ z, τ z * (∫⁻ z', r z z' ∂m) * f z ∂m := by
  have hF : Measurable fun q : Z × Z => τ q.1 * r q.1 q.2 * a q.1 q.2 := ((hτ.comp measurable_fst).mul hr).mul ha
  have hR : Measurable fun q : Z × Z => τ q.1 * r q.1 q.2 * (1 - a q.1 q.2) := ((hτ.comp measurable_fst).mul hr).mul (measurable_const.sub ha)
  have e1 : ∀ z, τ z * ∫⁻ z', r z z' * (a z z' * f z' + (1 - a z z') * f z) ∂m = (∫⁻ z', τ z * r z z' * a z z' * f z' ∂m) + ∫⁻ z', τ z * r z z' * (1 - a z z') * f z ∂m := by
    intro z
    have i0 : Measurable fun z' => r z z' * (a z z' * f z' + (1 - a z z') * f z) :=
      (hr.comp measurable_prodMk_left).mul (((ha.comp measurable_prodMk_left).mul hf).add ((measurable_const.sub (ha.comp measurable_prodMk_left)).mul_const _))
    have i1 : Measurable fun z' => τ z * r z z' * a z z' * f z' := (hF.comp measurable_prodMk_left).mul hf
    rw [← lintegral_const_mul _ i0, ← lintegral_add_left i1]
    refine lintegral_congr fun z' => ?_
    ring
  have s1 : ∫⁻ z, ∫⁻ z', τ z * r z z' * a z z' * f z' ∂m ∂m = ∫⁻ z, ∫⁻ z', τ z * r z z' * a z z' * f z ∂m ∂m := by
    have hmeas : AEMeasurable (Function.uncurry fun z z' => τ z * r z z' * a z z' * f z') (m.prod m) := (hF.mul (hf.comp measurable_snd)).aemeasurable
    rw [lintegral_lintegral_swap hmeas]
    refine lintegral_congr fun z => lintegral_congr fun z' => ?_
    rw [sym]
  have h1 : Measurable fun z => ∫⁻ z', τ z * r z z' * a z z' * f z' ∂m := Measurable.lintegral_prod_right' (f := fun q : Z × Z => τ q.1 * r q.1 q.2 * a q.1 q.2 * f q.2) (hF.mul (hf.comp measurable_snd))
  have h2 : Measurable fun z => ∫⁻ z', τ z * r z z' * a z z' * f z ∂m := Measurable.lintegral_prod_right' (f := fun q : Z × Z => τ q.1 * r q.1 q.2 * a q.1 q.2 * f q.1) (hF.mul (hf.comp measurable_fst))
  rw [lintegral_congr e1, lintegral_add_left h1, s1, ← lintegral_add_left h2]
  refine lintegral_congr fun z => ?_
  have i1 : Measurable fun z' => τ z * r z z' * a z z' * f z := (hF.comp measurable_prodMk_left).mul_const _
  have i2 : Measurable fun z' => r z z' := hr.comp measurable_prodMk_left
  rw [← lintegral_add_left i1, mul_right_comm, ← lintegral_const_mul _ i2]
  refine lintegral_congr fun z' => ?_
  rw [← add_mul, ← mul_add, add_tsub_cancel_of_le (ha1 z z')]
  ring

/-- Averages over parameters from a prior with density `π` and data with weight `v`, as integrals with respect to one measure. -/
theorem weighted_eq (μ : Measure X) [SFinite μ] (π : X → ℝ≥0∞) (hπ : Measurable π) (sim : Kernel X Y) [IsMarkovKernel sim] (v : Y → ℝ≥0∞) (hv : Measurable v) (g : X × Y → ℝ≥0∞) (hg : Measurable g) :
    ∫⁻ x, ∫⁻ y, v y * g (x, y) ∂sim x ∂μ.withDensity π = ∫⁻ z, π z.1 * v z.2 * g z ∂(μ ⊗ₘ sim) := by
  have hb : Measurable fun z : X × Y => v z.2 * g z := (hv.comp measurable_snd).mul hg
  have hm : Measurable fun z : X × Y => π z.1 * v z.2 * g z := ((hπ.comp measurable_fst).mul (hv.comp measurable_snd)).mul hg
  rw [lintegral_withDensity_eq_lintegral_mul _ hπ (Measurable.lintegral_kernel_prod_right' hb), lintegral_compProd hm]
  refine lintegral_congr fun x => ?_
  have hbx : Measurable fun y => v y * g (x, y) := hb.comp measurable_prodMk_left
  rw [Pi.mul_apply, ← lintegral_const_mul _ hbx]
  refine lintegral_congr fun y => ?_
  ring

/-- The density of a proposal with its data with respect to `μ ⊗ₘ sim`. -/
noncomputable def density (μ : Measure X) (k : X → X → ℝ≥0∞) (S : Set X) (x x' : X) : ℝ≥0∞ := (μ.withDensity (k x) S)⁻¹ * S.indicator (k x) x'

section

variable (μ : Measure X) [SFinite μ] (k : X → X → ℝ≥0∞) (hk : Measurable fun q : X × X => k q.1 q.2) (hK : ∀ x, IsProbabilityMeasure (μ.withDensity (k x))) (S : Set X) (hS : MeasurableSet S)
  (sim : Kernel X Y) [IsMarkovKernel sim] (tries : ℕ) (ht : 0 < tries) (a : X × Y → X × Y → ℝ) (ha : Measurable fun q : (X × Y) × (X × Y) => a q.1 q.2) (ha0 : ∀ z z', 0 ≤ a z z') (ha1 : ∀ z z', a z z' ≤ 1)
  (f : X × Y → ℝ≥0∞) (hf : Measurable f)

include hk hS in
theorem staysMeas : Measurable fun x => μ.withDensity (k x) S := by
  have : (fun x => μ.withDensity (k x) S) = fun x => ∫⁻ x' in S, k x x' ∂μ := funext fun x => withDensity_apply _ hS
  rw [this]
  exact Measurable.lintegral_prod_right' (ν := μ.restrict S) hk

include hk hS in
theorem densityMeas : Measurable fun q : X × X => density μ k S q.1 q.2 := by
  have h1 : Measurable fun q : X × X => (μ.withDensity (k q.1) S)⁻¹ := ((staysMeas μ k hk S hS).comp measurable_fst).inv
  have h2 : (fun q : X × X => S.indicator (k q.1) q.2) = {q : X × X | q.2 ∈ S}.indicator fun q => k q.1 q.2 := by
    funext q
    by_cases h : q.2 ∈ S
    · rw [indicator_of_mem h, indicator_of_mem (by exact h)]
    · rw [indicator_of_notMem h, indicator_of_notMem (by exact h)]
  have h3 : Measurable fun q : X × X => S.indicator (k q.1) q.2 := by
    rw [h2]
    exact hk.indicator (measurable_snd hS)
  exact h1.mul h3

attribute [local irreducible] density

include hk hK hS ht in
/-- Expectations over a proposal with its data. -/
theorem proposed_mean (z : X × Y) (g : X × Y → ℝ≥0∞) (hg : Measurable g) :
    ∫⁻ x', ∫⁻ y', g (x', y') ∂sim x' ∂proposed (μ.withDensity (k z.1)) S tries = ∫⁻ z', density μ k S z.1 z'.1 * g z' ∂(μ ⊗ₘ sim) := by
  have hkx : ∀ x, Measurable (k x) := fun x => hk.comp measurable_prodMk_left
  have hgx : Measurable fun x' => ∫⁻ y', g (x', y') ∂sim x' := hg.lintegral_kernel_prod_right'
  have hr : Measurable fun z' : X × Y => density μ k S z.1 z'.1 := (densityMeas μ k hk S hS).comp (measurable_const.prodMk measurable_fst)
  have hm : Measurable fun z' : X × Y => density μ k S z.1 z'.1 * g z' := hr.mul hg
  have := hK z.1
  have hi : Measurable fun x' => S.indicator (fun x' => k z.1 x' * ∫⁻ y', g (x', y') ∂sim x') x' := ((hkx z.1).mul hgx).indicator hS
  calc ∫⁻ x', ∫⁻ y', g (x', y') ∂sim x' ∂proposed (μ.withDensity (k z.1)) S tries
      = (μ.withDensity (k z.1) S)⁻¹ * ∫⁻ x' in S, ∫⁻ y', g (x', y') ∂sim x' ∂μ.withDensity (k z.1) := by rw [proposed_eq _ hS tries ht, lintegral_smul_measure, smul_eq_mul]
    _ = (μ.withDensity (k z.1) S)⁻¹ * ∫⁻ x', S.indicator (fun x' => k z.1 x' * ∫⁻ y', g (x', y') ∂sim x') x' ∂μ := by
        rw [setLIntegral_withDensity_eq_setLIntegral_mul _ (hkx z.1) hgx hS, ← lintegral_indicator hS]
        rfl
    _ = ∫⁻ x', (μ.withDensity (k z.1) S)⁻¹ * S.indicator (fun x' => k z.1 x' * ∫⁻ y', g (x', y') ∂sim x') x' ∂μ := (lintegral_const_mul _ hi).symm
    _ = ∫⁻ x', ∫⁻ y', density μ k S z.1 x' * g (x', y') ∂sim x' ∂μ := by
        refine lintegral_congr fun x' => ?_
        have hgx' : Measurable fun y => g (x', y) := hg.comp measurable_prodMk_left
        rw [lintegral_const_mul _ hgx', density, mul_assoc]
        by_cases h : x' ∈ S
        · rw [indicator_of_mem h, indicator_of_mem h]
        · rw [indicator_of_notMem h, indicator_of_notMem h, zero_mul]
    _ = ∫⁻ z', density μ k S z.1 z'.1 * g z' ∂(μ ⊗ₘ sim) := by rw [lintegral_compProd hm]

include hk hK hS ht ha ha0 hf in
theorem moveMean_eq (z : X × Y) : moveMean (proposed (μ.withDensity (k z.1)) S tries) sim a f z =
    ∫⁻ z', density μ k S z.1 z'.1 * (ENNReal.ofReal (a z z') * f z' + (1 - ENNReal.ofReal (a z z')) * f z) ∂(μ ⊗ₘ sim) := by
  have hA : Measurable fun z' => ENNReal.ofReal (a z z') := (ha.comp measurable_prodMk_left).ennreal_ofReal
  have hg : Measurable fun z' => ENNReal.ofReal (a z z') * f z' + (1 - ENNReal.ofReal (a z z')) * f z := (hA.mul hf).add ((measurable_const.sub hA).mul_const _)
  rw [← proposed_mean μ k hk hK S hS sim tries ht z _ hg, moveMean]
  refine lintegral_congr fun x' => lintegral_congr fun y' => ?_
  rw [ENNReal.ofReal_sub _ (ha0 _ _), ENNReal.ofReal_one]

include hk hK hS ht ha ha0 hf in
theorem moveMeas : Measurable fun z => moveMean (proposed (μ.withDensity (k z.1)) S tries) sim a f z := by
  simp only [moveMean_eq μ k hk hK S hS sim tries ht a ha ha0 f hf]
  have hA : Measurable fun q : (X × Y) × (X × Y) => ENNReal.ofReal (a q.1 q.2) := ha.ennreal_ofReal
  have hD : Measurable fun q : (X × Y) × (X × Y) => density μ k S q.1.1 q.2.1 := (densityMeas μ k hk S hS).comp ((measurable_fst.comp measurable_fst).prodMk (measurable_fst.comp measurable_snd))
  exact Measurable.lintegral_prod_right' (f := fun q : (X × Y) × (X × Y) => density μ k S q.1.1 q.2.1 * (ENNReal.ofReal (a q.1 q.2) * f q.2 + (1 - ENNReal.ofReal (a q.1 q.2)) * f q.1))
    (hD.mul ((hA.mul (hf.comp measurable_snd)).add ((measurable_const.sub hA).mul (hf.comp measurable_fst))))

include hk hK hS ht ha ha0 ha1 hf in
/-- Moves with redrawn proposals: if the flows of `τ` with the densities of single proposals are balanced inside the support, `τ` times the probability of staying inside is left as it is. -/
theorem invariant (stays : ∀ x ∈ S, μ.withDensity (k x) S ≠ 0) (τ : X × Y → ℝ≥0∞) (hτ : Measurable τ) (hτ0 : ∀ z, z.1 ∉ S → τ z = 0)
    (sym : ∀ z z', z.1 ∈ S → z'.1 ∈ S → τ z * k z.1 z'.1 * ENNReal.ofReal (a z z') = τ z' * k z'.1 z.1 * ENNReal.ofReal (a z' z)) :
    ∫⁻ z, τ z * μ.withDensity (k z.1) S * moveMean (proposed (μ.withDensity (k z.1)) S tries) sim a f z ∂(μ ⊗ₘ sim) = ∫⁻ z, τ z * μ.withDensity (k z.1) S * f z ∂(μ ⊗ₘ sim) := by
  have hp := staysMeas μ k hk S hS
  have hA : Measurable fun q : (X × Y) × (X × Y) => ENNReal.ofReal (a q.1 q.2) := ha.ennreal_ofReal
  have hD : Measurable fun q : (X × Y) × (X × Y) => density μ k S q.1.1 q.2.1 := (densityMeas μ k hk S hS).comp ((measurable_fst.comp measurable_fst).prodMk (measurable_fst.comp measurable_snd))
  have hτ' : Measurable fun z : X × Y => τ z * μ.withDensity (k z.1) S := hτ.mul (hp.comp measurable_fst)
  simp only [moveMean_eq μ k hk hK S hS sim tries ht a ha ha0 f hf]
  rw [balanced (μ ⊗ₘ sim) _ hτ' (fun z z' => density μ k S z.1 z'.1) (fun z z' => ENNReal.ofReal (a z z')) hD hA (fun z z' => by simpa using ENNReal.ofReal_le_ofReal (ha1 z z')) ?_ f hf]
  · refine lintegral_congr fun z => ?_
    by_cases hz : z.1 ∈ S
    · have h1 : ∫⁻ z' : X × Y, density μ k S z.1 z'.1 ∂(μ ⊗ₘ sim) = 1 := by
        have := proposed_mean μ k hk hK S hS sim tries ht z (fun _ => 1) measurable_const
        simp only [lintegral_const, measure_univ, mul_one] at this
        rw [← this, proposed_eq _ hS tries ht, one_mul, Measure.smul_apply, Measure.restrict_apply MeasurableSet.univ, univ_inter, smul_eq_mul]
        have := hK z.1
        exact ENNReal.inv_mul_cancel (stays z.1 hz) (measure_ne_top _ _)
      rw [h1, mul_one]
    · simp [hτ0 z hz]
  · intro z z'
    simp only [density]
    by_cases hz : z.1 ∈ S
    · by_cases hz' : z'.1 ∈ S
      · have := hK z.1
        have := hK z'.1
        rw [indicator_of_mem hz', indicator_of_mem hz]
        calc τ z * μ.withDensity (k z.1) S * ((μ.withDensity (k z.1) S)⁻¹ * k z.1 z'.1) * ENNReal.ofReal (a z z')
            = (μ.withDensity (k z.1) S * (μ.withDensity (k z.1) S)⁻¹) * (τ z * k z.1 z'.1 * ENNReal.ofReal (a z z')) := by ring
          _ = (μ.withDensity (k z'.1) S * (μ.withDensity (k z'.1) S)⁻¹) * (τ z' * k z'.1 z.1 * ENNReal.ofReal (a z' z)) := by
              rw [ENNReal.mul_inv_cancel (stays z.1 hz) (measure_ne_top _ _), ENNReal.mul_inv_cancel (stays z'.1 hz') (measure_ne_top _ _), sym z z' hz hz']
          _ = _ := by ring
      · rw [hτ0 z' hz', indicator_of_notMem hz']
        ring
    · rw [hτ0 z hz, indicator_of_notMem hz]
      ring

end

end Verif.Redraw
