import Verif.Pmc.Target
/-!
# C173: what the weighted particles of one PMC iteration estimate

`PMC.sample` (abcpy/inferences.py 1293-1340), `_approx_log_lik_calc` (1388-1429) and `_calculate_weight` (1431-1463) with random draws, as in `Verif.Pmc.Target`. The likelihood estimate is any function of parameter and simulated data.
Weights are on the scale before the common factor of lines 1338-1340.
-/

namespace Verif.Pmc.LikTarget

open MeasureTheory ProbabilityTheory Measure Set Verif.Pmc.Target
open scoped ENNReal

variable {X Y : Type} [MeasurableSpace X] [MeasurableSpace Y] {ι : Type} [Fintype ι] [MeasurableSpace ι]

/-! ### Model -/

/-- Lines 1293-1316: a new particle and the data simulated for it. A particle is chosen, perturbed until the result is a valid parameter of non-zero prior density (`S`), and data are simulated for it once. -/
noncomputable def particle (w : ι → ℝ≥0∞) (K : ι → Measure X) (S : Set X) (sim : Kernel X Y) (inner : ℕ) : Measure (X × Y) := trial w K S sim inner

/-- Lines 1322-1340: the weight of a new particle up to the common factor. `_approx_log_lik_calc` returns likelihood times prior density on the logarithmic scale (1423-1429), which is added to the logarithm of the
weight of `_calculate_weight` (1325), prior density over mixture of kernels (1452-1463). -/
noncomputable def likWeight (π : X → ℝ≥0∞) (lik : X × Y → ℝ≥0∞) (w : ι → ℝ≥0∞) (k : ι → X → ℝ≥0∞) (e : X × Y) : ℝ≥0∞ := weight π w k e.1 * (π e.1 * lik e)

/-! ### Specification -/

/-- The joint law of parameters from the prior and their data, weighted by the likelihood estimate. With the data forgotten and normalised it is the posterior for the mean of the estimates. -/
noncomputable def posteriorLaw (μ : Measure X) (π : X → ℝ≥0∞) (sim : Kernel X Y) (lik : X × Y → ℝ≥0∞) : Measure (X × Y) := ((μ.withDensity π) ⊗ₘ sim).withDensity lik

/-! ### Properties -/

/-- **C173, what is estimated.** If all particles have the same probability of leaving the support when perturbed, weighted particles of PMC estimate averages with respect to likelihood times the square of the prior
density. -/
theorem C173_squared (hι : ∀ s : Set ι, MeasurableSet s) (μ : Measure X) [SFinite μ] (π : X → ℝ≥0∞) (hπ : Measurable π)
    (w : ι → ℝ≥0∞) (hw : ∑ i, w i = 1) (k : ι → X → ℝ≥0∞) (hk : ∀ i, Measurable (k i)) (hk' : ∀ i x, k i x ≠ ∞) (hK : ∀ i, IsProbabilityMeasure (μ.withDensity (k i)))
    (S : Set X) (hS : MeasurableSet S) (hsupp : ∀ x, π x ≠ 0 → x ∈ S) (reach : ∀ x, π x ≠ 0 → ∃ i, w i ≠ 0 ∧ k i x ≠ 0)
    (sim : Kernel X Y) [IsMarkovKernel sim] (lik : X × Y → ℝ≥0∞) (hlik : Measurable lik) (inner : ℕ) (hi : 0 < inner) (r : ℝ≥0∞) (same : ∀ i, μ.withDensity (k i) Sᶜ = r) :
    Estimates (particle w (fun i => μ.withDensity (k i)) S sim inner) (likWeight π lik w k) (posteriorLaw μ π sim fun e => π e.1 * lik e) := by
  obtain ⟨c, c0, ct, h⟩ := C137_partial hι μ π hπ w hw k hk hk' hK S hS hsupp reach sim univ MeasurableSet.univ inner 1 hi one_pos r same
  refine ⟨c, c0, ct, fun f hf => ?_⟩
  have hm : Measurable fun e : X × Y => π e.1 * lik e := (hπ.comp measurable_fst).mul hlik
  have := h (fun e => f e * (π e.1 * lik e)) (hf.mul hm)
  unfold resample Target.target at this
  rw [preimage_univ, lintegral_untilIn _ MeasurableSet.univ, Measure.restrict_univ, Measure.restrict_univ, geo, geo, mul_zero, add_zero, one_mul] at this
  rw [posteriorLaw, lintegral_withDensity_eq_lintegral_mul _ hm hf, particle]
  unfold likWeight
  rw [show (∫⁻ e, f e * (weight π w k e.1 * (π e.1 * lik e)) ∂trial w (fun i => μ.withDensity (k i)) S sim inner) =
    ∫⁻ e, f e * (π e.1 * lik e) * weight π w k e.1 ∂trial w (fun i => μ.withDensity (k i)) S sim inner from lintegral_congr fun e => by ring, this]
  congr 1
  exact lintegral_congr fun e => by rw [Pi.mul_apply, mul_comm]

/-- **C173, partial.** For priors that are uniform on their support, and if all particles have the same probability of leaving the support when perturbed, weighted particles of PMC estimate averages under the posterior.
Missing: other priors and populations, see `C173_violated` and `Target.C137_violated`. -/
theorem C173_partial (hι : ∀ s : Set ι, MeasurableSet s) (μ : Measure X) [SFinite μ] (π : X → ℝ≥0∞) (hπ : Measurable π) (a : ℝ≥0∞) (ha0 : a ≠ 0) (ha : a ≠ ∞) (flat : ∀ x, π x ≠ 0 → π x = a)
    (w : ι → ℝ≥0∞) (hw : ∑ i, w i = 1) (k : ι → X → ℝ≥0∞) (hk : ∀ i, Measurable (k i)) (hk' : ∀ i x, k i x ≠ ∞) (hK : ∀ i, IsProbabilityMeasure (μ.withDensity (k i)))
    (S : Set X) (hS : MeasurableSet S) (hsupp : ∀ x, π x ≠ 0 → x ∈ S) (reach : ∀ x, π x ≠ 0 → ∃ i, w i ≠ 0 ∧ k i x ≠ 0)
    (sim : Kernel X Y) [IsMarkovKernel sim] (lik : X × Y → ℝ≥0∞) (hlik : Measurable lik) (inner : ℕ) (hi : 0 < inner) (r : ℝ≥0∞) (same : ∀ i, μ.withDensity (k i) Sᶜ = r) :
    Estimates (particle w (fun i => μ.withDensity (k i)) S sim inner) (likWeight π lik w k) (posteriorLaw μ π sim lik) := by
  obtain ⟨c, c0, ct, h⟩ := C173_squared hι μ π hπ w hw k hk hk' hK S hS hsupp reach sim lik hlik inner hi r same
  refine ⟨c * a, mul_ne_zero c0 ha0, ENNReal.mul_ne_top ct ha, fun f hf => ?_⟩
  have hm : Measurable fun e : X × Y => π e.1 * lik e := (hπ.comp measurable_fst).mul hlik
  rw [h f hf, mul_assoc, posteriorLaw, posteriorLaw, lintegral_withDensity_eq_lintegral_mul _ hm hf, lintegral_withDensity_eq_lintegral_mul _ hlik hf]
  congr 1
  have m1 : Measurable fun e : X × Y => π e.1 * lik e * f e := hm.mul hf
  have m2 : Measurable fun e : X × Y => lik e * f e := hlik.mul hf
  simp only [Pi.mul_apply]
  rw [← lintegral_const_mul _ m2, lintegral_compProd m1, lintegral_compProd (m2.const_mul a), lintegral_withDensity_eq_lintegral_mul _ hπ m1.lintegral_kernel_prod_right',
    lintegral_withDensity_eq_lintegral_mul _ hπ (m2.const_mul a).lintegral_kernel_prod_right']
  refine lintegral_congr fun x => ?_
  simp only [Pi.mul_apply]
  by_cases hx : π x = 0
  · simp [hx]
  · congr 1
    exact lintegral_congr fun y => by rw [flat x hx, mul_assoc]

/-! ### Violation -/

/-- A prior on the integers 0 and 1 that is not uniform. -/
noncomputable def tilted (x : ℤ) : ℝ≥0∞ := if x = 0 then 1 / 3 else if x = 1 then 2 / 3 else 0

theorem tilted_supp (x : ℤ) : tilted x ≠ 0 ↔ x = 0 ∨ x = 1 := by
  unfold tilted
  by_cases h0 : x = 0 <;> by_cases h1 : x = 1 <;> simp [h0, h1]

/-- For this prior and the particles 0 and 1 with equal weights, perturbed by the random walk, `C173_squared` applies. -/
theorem tilted_squared (inner : ℕ) (hi : 0 < inner) : Estimates (particle half (fun i => (count : Measure ℤ).withDensity (walks i)) {x | tilted x ≠ 0} constant inner)
    (likWeight tilted (fun _ => 1) half walks) (posteriorLaw count tilted constant fun e => tilted e.1 * 1) := by
  have k0 : {x : ℤ | tilted x ≠ 0}ᶜ.indicator (1 : ℤ → ℝ≥0∞) 0 = 0 := by simp [tilted]
  have k1 : {x : ℤ | tilted x ≠ 0}ᶜ.indicator (1 : ℤ → ℝ≥0∞) 1 = 0 := by simp [tilted]
  have k2 : {x : ℤ | tilted x ≠ 0}ᶜ.indicator (1 : ℤ → ℝ≥0∞) 2 = 1 := by simp [tilted]
  have km : {x : ℤ | tilted x ≠ 0}ᶜ.indicator (1 : ℤ → ℝ≥0∞) (-1) = 1 := by simp [tilted]
  refine C173_squared (fun s => by measurability) count tilted measurable_from_top half ?_ walks (fun _ => measurable_from_top) ?_ (fun i => walk_prob _)
    {x | tilted x ≠ 0} (by measurability) (fun _ h => h) ?_ constant (fun _ => 1) measurable_const inner hi (1 / 3) ?_
  · rw [Fin.sum_univ_two]
    exact ENNReal.add_halves 1
  · intro i x
    simp only [walks, walk]
    split <;> simp
  · intro x h
    refine ⟨0, by simp [half], ?_⟩
    rcases (tilted_supp x).1 h with rfl | rfl <;> norm_num [walks, walk]
  · intro i
    unfold walks
    rw [walk_apply]
    rcases Fin.exists_fin_two.1 ⟨i, rfl⟩ with h | h <;> subst h
    · norm_num [k0, k1, km]
    · norm_num [k0, k1, k2]

/-- **C173 is violated** for priors that are not uniform: with prior probabilities 1/3 and 2/3 of two parameters and data without information the weighted particles do not estimate averages under the posterior, which is the prior. They
estimate averages under the probabilities 1/5 and 4/5. -/
theorem C173_violated (inner : ℕ) (hi : 0 < inner) : ¬ Estimates (particle half (fun i => (count : Measure ℤ).withDensity (walks i)) {x | tilted x ≠ 0} constant inner)
    (likWeight tilted (fun _ => 1) half walks) (posteriorLaw count tilted constant fun _ => 1) := by
  obtain ⟨c, c0, ct, h⟩ := tilted_squared inner hi
  rintro ⟨c', c0', ct', h'⟩
  have ha : ∀ a : ℤ, Measurable fun e : ℤ × Unit => if e.1 = a then (1 : ℝ≥0∞) else 0 := fun a => measurable_of_countable _
  have hT : ∀ (lik : ℤ × Unit → ℝ≥0∞) (a : ℤ), ∫⁻ e : ℤ × Unit, (if e.1 = a then (1 : ℝ≥0∞) else 0) ∂(posteriorLaw count tilted constant lik) = tilted a * lik (a, ()) := by
    intro lik a
    have hm : Measurable (lik * fun e : ℤ × Unit => if e.1 = a then (1 : ℝ≥0∞) else 0) := measurable_of_countable _
    rw [posteriorLaw, lintegral_withDensity_eq_lintegral_mul _ (measurable_of_countable _) (ha a), lintegral_compProd hm, lintegral_withDensity_eq_lintegral_mul _ measurable_from_top measurable_from_top,
      lintegral_count, tsum_eq_single a (fun b hb => by simp [hb])]
    simp [constant]
  have e0 : tilted 0 = 1 / 3 := by simp [tilted]
  have e1 : tilted 1 = 2 / 3 := by simp [tilted]
  have a0 := (h _ (ha 0)).symm.trans (h' _ (ha 0))
  have a1 := (h _ (ha 1)).symm.trans (h' _ (ha 1))
  rw [hT, hT, e0] at a0
  rw [hT, hT, e1] at a1
  have t0 := congrArg ENNReal.toReal a0
  have t1 := congrArg ENNReal.toReal a1
  have hc := ENNReal.toReal_pos c0 ct
  norm_num [ENNReal.toReal_mul, ENNReal.toReal_div] at t0 t1
  linarith

/-- `C173_partial` applies to the same population when the prior is uniform on 0, 1, whatever model and likelihood. -/
example (sim : Kernel ℤ Y) [IsMarkovKernel sim] (lik : ℤ × Y → ℝ≥0∞) (hl : Measurable lik) :
    Estimates (particle half (fun i => (count : Measure ℤ).withDensity (walks i)) {x | uniform 1 x ≠ 0} sim 5) (likWeight (uniform 1) lik half walks) (posteriorLaw count (uniform 1) sim lik) := by
  have e0 : uniform 1 0 = 1 / 2 := by norm_num [uniform]
  have e1 : uniform 1 1 = 1 / 2 := by norm_num [uniform]
  have e2 : uniform 1 2 = 0 := by norm_num [uniform]
  have em : uniform 1 (-1) = 0 := by norm_num [uniform]
  have k0 : {x : ℤ | uniform 1 x ≠ 0}ᶜ.indicator (1 : ℤ → ℝ≥0∞) 0 = 0 := by simp [e0]
  have k1 : {x : ℤ | uniform 1 x ≠ 0}ᶜ.indicator (1 : ℤ → ℝ≥0∞) 1 = 0 := by simp [e1]
  have k2 : {x : ℤ | uniform 1 x ≠ 0}ᶜ.indicator (1 : ℤ → ℝ≥0∞) 2 = 1 := by simp [e2]
  have km : {x : ℤ | uniform 1 x ≠ 0}ᶜ.indicator (1 : ℤ → ℝ≥0∞) (-1) = 1 := by simp [em]
  have hx01 : ∀ x, uniform 1 x ≠ 0 → x = 0 ∨ x = 1 := by
    intro x h
    by_contra hx
    apply h
    rw [uniform, if_neg]
    push_cast
    omega
  refine C173_partial (fun s => by measurability) count (uniform 1) measurable_from_top (1 / 2) (by simp) (by simp) (fun x h => ?_) half ?_ walks (fun _ => measurable_from_top) ?_ (fun i => walk_prob _)
    {x | uniform 1 x ≠ 0} (by measurability) (fun _ h => h) ?_ sim lik hl 5 (by omega) (1 / 3) ?_
  · rcases hx01 x h with rfl | rfl
    · exact e0
    · exact e1
  · rw [Fin.sum_univ_two]
    exact ENNReal.add_halves 1
  · intro i x
    simp only [walks, walk]
    split <;> simp
  · intro x h
    refine ⟨0, by simp [half], ?_⟩
    rcases hx01 x h with rfl | rfl <;> norm_num [walks, walk]
  · intro i
    unfold walks
    rw [walk_apply]
    rcases Fin.exists_fin_two.1 ⟨i, rfl⟩ with h | h <;> subst h
    · norm_num [k0, k1, km]
    · norm_num [k0, k1, k2]

end Verif.Pmc.LikTarget
