import Verif.Apmc.Target
import Verif.Pmc.ExactMeans

/-!
# C184: what averages over the particles of `APMCABC` converge to, for all populations

`abcpy/inferences.py` 3036-3066 and 3094-3149, as modelled in `Apmc/Target`. Nothing is assumed about the probabilities with which perturbed particles leave the support of the prior.
-/

namespace Verif.Apmc.Target

open MeasureTheory Measure ProbabilityTheory Filter Topology Set Verif.Pmc Verif.Pmc.Target Verif.Pmc.Averages
open scoped ENNReal

variable {X Y ι Ω : Type} [MeasurableSpace X] [MeasurableSpace Y] [Fintype ι] [MeasurableSpace ι] [MeasurableSpace Ω]

variable (hι : ∀ s : Set ι, MeasurableSet s) (μ : Measure X) [SFinite μ] (π : X → ℝ≥0∞) (hπ : Measurable π) (hP : IsProbabilityMeasure (μ.withDensity π))
    (w : ι → ℝ≥0∞) (hw : ∑ i, w i = 1) (k : ι → X → ℝ≥0∞) (hk : ∀ i, Measurable (k i)) (hk' : ∀ i x, k i x ≠ ∞) (hK : ∀ i, IsProbabilityMeasure (μ.withDensity (k i)))
    (S : Set X) (hS : MeasurableSet S) (hsupp : ∀ x, π x ≠ 0 → x ∈ S) (reach : ∀ x, π x ≠ 0 → ∃ i, w i ≠ 0 ∧ k i x ≠ 0)
    (sim : Kernel X Y) [IsMarkovKernel sim] (inner : ℕ) (hi : 0 < inner)

include hι hπ hw hk hK hS hsupp in
theorem later_tilted : Estimates (later w (fun i => μ.withDensity (k i)) S sim inner) (fun e => weight π w k e.1)
    (((μ.withDensity π) ⊗ₘ sim).withDensity fun e => tilt w (fun i => geo (μ.withDensity (k i) Sᶜ) inner) k e.1) := by
  obtain ⟨c, c0, ct, h⟩ := C137_exact hι μ π hπ w hw k hk hK S hS hsupp sim univ MeasurableSet.univ inner 1 one_pos
  refine ⟨c, c0, ct, fun f hf => ?_⟩
  have := h f hf
  unfold resample Pmc.Target.target at this
  rw [preimage_univ, lintegral_untilIn _ MeasurableSet.univ, Measure.restrict_univ, Measure.restrict_univ, geo, geo, mul_zero, add_zero, one_mul] at this
  exact this

include hι hπ hP hw hk hk' hK hS hsupp reach hi

/-- **C184, kept particles of later steps, for every population.** Averages over the new particles below the threshold converge, to the mean under the ABC posterior with the additional factor `tilt`. -/
theorem C184_kept_exact (D : Set Y) (hD : MeasurableSet D) (hT : Pmc.Target.target μ π sim D ≠ 0) (f : X → ℝ) (hf : Measurable f) (hfi : Integrable (fun e => f e.1) (Pmc.Target.target μ π sim D))
    (ρ : Measure Ω) [IsProbabilityMeasure ρ] (e : ℕ → Ω → X × Y) (he : Draws ρ (later w (fun i => μ.withDensity (k i)) S sim inner) e) :
    Consistent ρ (fun ω => keptMean f (weight π w k) D fun i => e i ω) (fun e => f e.1)
      ((Pmc.Target.target μ π sim D).withDensity fun e => tilt w (fun i => geo (μ.withDensity (k i) Sᶜ) inner) k e.1) := by
  have hD' : MeasurableSet (Prod.snd ⁻¹' D : Set (X × Y)) := measurable_snd hD
  have : IsFiniteMeasure (later w (fun i => μ.withDensity (k i)) S sim inner) := resample_finite hι w hw (fun i => μ.withDensity (k i)) S hS sim inner
  have : IsFiniteMeasure (Pmc.Target.target μ π sim D) := by unfold Pmc.Target.target; infer_instance
  have hW : Measurable fun e : X × Y => weight π w k e.1 := (show Measurable (weight π w k) from hπ.div (Finset.measurable_sum _ fun i _ => (hk i).const_mul _)).comp measurable_fst
  have htm : Measurable fun e : X × Y => tilt w (fun i => geo (μ.withDensity (k i) Sᶜ) inner) k e.1 :=
    ((Finset.measurable_sum _ fun i _ => (hk i).const_mul _).div (Finset.measurable_sum _ fun i _ => (hk i).const_mul _)).comp measurable_fst
  have hw' : ∀ i, w i ≠ ∞ := fun i h => by
    have := Finset.single_le_sum (f := w) (fun _ _ => zero_le) (Finset.mem_univ i)
    rw [hw, h] at this
    simp at this
  have hle : ∀ᵐ e ∂Pmc.Target.target μ π sim D, tilt w (fun i => geo (μ.withDensity (k i) Sᶜ) inner) k e.1 ≤ ENNReal.ofReal inner := ae_of_all _ fun e => by
    simpa using tilt_le μ w k hK S inner e.1
  have hge : ∀ᵐ e ∂Pmc.Target.target μ π sim D, 1 ≤ tilt w (fun i => geo (μ.withDensity (k i) Sᶜ) inner) k e.1 := by
    filter_upwards [target_positive μ π hπ sim D] with e he
    exact (tilt_bounds μ w hw' k hk' hK S hS inner hi 0 (fun _ => zero_le) e.1 (reach e.1 he)).1
  have := withDensity_finite (T := Pmc.Target.target μ π sim D) ENNReal.ofReal_ne_top hle
  have hest := estimates_restrict (later_tilted hι μ π hπ w hw k hk hK S hS hsupp sim inner) hD'
  rw [restrict_withDensity hD'] at hest
  have h := C182_consistent (withDensity_ne hT hge) (hW.indicator hD') hest (fun e => f e.1) (hf.comp measurable_fst) (withDensity_integrable (by positivity) htm hle hfi).1 ρ e he
  refine consistent_congr h fun ω n v hv => ?_
  exact (keptMean_eq f _ D _ n (sum_of_some hv)).trans hv

/-- **C184, how wrong the limit is.** If each particle stays inside the support with probability at least `s` when perturbed, averages of a non-negative function over the kept particles converge to a number between `s` times and `1 / s` times
its mean under the ABC posterior. -/
theorem C184_kept_bounds (D : Set Y) (hD : MeasurableSet D) (hT : Pmc.Target.target μ π sim D ≠ 0) (f : X → ℝ) (hf : Measurable f) (hf0 : ∀ x, 0 ≤ f x)
    (hfi : Integrable (fun e => f e.1) (Pmc.Target.target μ π sim D)) (s : ℝ) (hs : 0 < s) (hsS : ∀ i, ENNReal.ofReal s ≤ μ.withDensity (k i) S)
    (ρ : Measure Ω) [IsProbabilityMeasure ρ] (e : ℕ → Ω → X × Y) (he : Draws ρ (later w (fun i => μ.withDensity (k i)) S sim inner) e) :
    TendsBetween ρ (fun ω => keptMean f (weight π w k) D fun i => e i ω)
      (s * mean (Pmc.Target.target μ π sim D) fun e => f e.1) (mean (Pmc.Target.target μ π sim D) (fun e => f e.1) / s) := by
  have : IsFiniteMeasure (Pmc.Target.target μ π sim D) := by unfold Pmc.Target.target; infer_instance
  have htm : Measurable fun e : X × Y => tilt w (fun i => geo (μ.withDensity (k i) Sᶜ) inner) k e.1 :=
    ((Finset.measurable_sum _ fun i _ => (hk i).const_mul _).div (Finset.measurable_sum _ fun i _ => (hk i).const_mul _)).comp measurable_fst
  have hw' : ∀ i, w i ≠ ∞ := fun i h => by
    have := Finset.single_le_sum (f := w) (fun _ _ => zero_le) (Finset.mem_univ i)
    rw [hw, h] at this
    simp at this
  have hb : ∀ᵐ e ∂Pmc.Target.target μ π sim D, 1 ≤ tilt w (fun i => geo (μ.withDensity (k i) Sᶜ) inner) k e.1 ∧ tilt w (fun i => geo (μ.withDensity (k i) Sᶜ) inner) k e.1 ≤ ENNReal.ofReal s⁻¹ := by
    filter_upwards [target_positive μ π hπ sim D] with e he
    rw [ENNReal.ofReal_inv_of_pos hs]
    exact tilt_bounds μ w hw' k hk' hK S hS inner hi _ hsS e.1 (reach e.1 he)
  obtain ⟨a, b⟩ := mean_withDensity hT htm hs (hb.mono fun _ h => h.1) (hb.mono fun _ h => h.2) hfi fun e => hf0 e.1
  exact ⟨_, a, b, C184_kept_exact hι μ π hπ hP w hw k hk hk' hK S hS hsupp reach sim inner hi D hD hT f hf hfi ρ e he⟩

/-- **C184 is violated for every population.** Averages over all new particles of a later step, which the journal lists, converge to a number that does not depend on the observations, the distance or the threshold: it is between `s` times and
`1 / s` times the mean under the prior. -/
theorem C184_later_bounds_violated (f : X → ℝ) (hf : Measurable f) (hf0 : ∀ x, 0 ≤ f x) (hfi : Integrable f (μ.withDensity π)) (s : ℝ) (hs : 0 < s) (hsS : ∀ i, ENNReal.ofReal s ≤ μ.withDensity (k i) S)
    (ρ : Measure Ω) [IsProbabilityMeasure ρ] (e : ℕ → Ω → X × Y) (he : Draws ρ (later w (fun i => μ.withDensity (k i)) S sim inner) e) :
    TendsBetween ρ (fun ω => journalMean f (weight π w k) fun i => e i ω) (s * ∫ x, f x ∂μ.withDensity π) ((∫ x, f x ∂μ.withDensity π) / s) := by
  have hfst : ((μ.withDensity π) ⊗ₘ sim).map Prod.fst = μ.withDensity π := Measure.fst_compProd _ sim
  have htar : Pmc.Target.target μ π sim univ = (μ.withDensity π) ⊗ₘ sim := by rw [Pmc.Target.target, preimage_univ, Measure.restrict_univ]
  have hi' : Integrable (fun e : X × Y => f e.1) ((μ.withDensity π) ⊗ₘ sim) := by
    rw [← hfst, integrable_map_measure hf.aestronglyMeasurable measurable_fst.aemeasurable] at hfi
    exact hfi
  have hmean : mean ((μ.withDensity π) ⊗ₘ sim) (fun e => f e.1) = ∫ x, f x ∂μ.withDensity π := by
    rw [mean, measureReal_def, measure_univ, ENNReal.toReal_one, div_one]
    conv_rhs => rw [← hfst]
    rw [integral_map measurable_fst.aemeasurable hf.aestronglyMeasurable]
  have h := C184_kept_bounds hι μ π hπ hP w hw k hk hk' hK S hS hsupp reach sim inner hi univ MeasurableSet.univ (by rw [htar]; exact IsProbabilityMeasure.ne_zero _) f hf hf0 (by rw [htar]; exact hi') s hs hsS ρ e he
  rw [htar, hmean] at h
  obtain ⟨L, a, b, c⟩ := h
  refine ⟨L, a, b, ?_⟩
  filter_upwards [c] with ω ⟨v, h1, h2⟩
  refine ⟨v, ?_, h2⟩
  filter_upwards [h1] with n hn
  have hsum : ∑ i ∈ Finset.range n, (weight π w k (e i ω).1).toReal ≠ 0 := by
    intro h0
    unfold keptMean Journal.npAverage at hn
    simp only [mem_univ, decide_true, List.filter_true] at hn
    rw [if_pos] at hn
    · cases hn
    · right
      rw [normalise, range_sum, h0, List.map_map]
      simp [Function.comp_def]
  rw [← hn]
  unfold journalMean keptMean
  simp only [mem_univ, decide_true, List.filter_true]
  rw [npAverage_normalise _ _ (by rw [range_sum]; exact hsum)]

omit hι hπ hP hw hk hk' hK hS hsupp reach hi

/-! ## Example -/

/-- The prior is uniform on 0, 1, 2, and the particles of the previous step are 0 and 1 with equal weights. For every model, the probability of a set of parameters that is estimated from the journal tends to a number between 2/3 and 3/2 times
its prior probability. -/
example (A : Set ℤ) (sim : Kernel ℤ Y) [IsMarkovKernel sim] (inner : ℕ) (hi : 0 < inner) (ρ : Measure Ω) [IsProbabilityMeasure ρ] (e : ℕ → Ω → ℤ × Y)
    (he : Draws ρ (later half (fun i => (count : Measure ℤ).withDensity (walks i)) {x | uniform 2 x ≠ 0} sim inner) e) :
    TendsBetween ρ (fun ω => journalMean (A.indicator 1) (weight (uniform 2) half walks) fun i => e i ω) (2 / 3 * ∫ x, A.indicator 1 x ∂count.withDensity (uniform 2))
      ((∫ x, A.indicator 1 x ∂count.withDensity (uniform 2)) / (2 / 3)) := by
  have := edge_prior
  refine C184_later_bounds_violated (fun _ => .of_discrete) count (uniform 2) .of_discrete edge_prior half half_sum walks (fun _ => .of_discrete) walks_ne_top (fun i => walk_prob _) {x | uniform 2 x ≠ 0} .of_discrete (fun x h => h)
    edge_reach sim inner hi (A.indicator 1) .of_discrete (fun x => indicator_nonneg (fun _ _ => zero_le_one) x) ?_ (2 / 3) (by norm_num) edge_stays ρ e he
  refine Integrable.of_bound (C := 1) (measurable_of_countable _).aestronglyMeasurable (ae_of_all _ fun x => ?_)
  by_cases h : x ∈ A <;> simp [h]

end Verif.Apmc.Target
