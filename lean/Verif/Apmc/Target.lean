import Verif.Pmc.Averages
import Mathlib.Probability.Kernel.Basic
/-!
# C184: what the averages over the particles of `APMCABC` estimate

`APMCABC._accept_parameter` (abcpy/inferences.py 3094-3149) makes one simulation for each new particle and returns it whatever its distance. `APMCABC.sample` then computes the threshold and keeps the particles below it
for the next step (3036-3043), but gives all particles to the journal (3063-3066). As in `Pmc/Averages` the previous population is fixed and the number of new particles grows; the threshold, which is a percentile
of the distances, is taken to be a fixed number: `D` is the set of data whose distance is below it.
-/

namespace Verif.Apmc.Target

open MeasureTheory Measure ProbabilityTheory Filter Topology Set Verif.Pmc Verif.Pmc.Target Verif.Pmc.Averages
open scoped ENNReal

variable {X Y ι Ω : Type} [MeasurableSpace X] [MeasurableSpace Y] [Fintype ι] [MeasurableSpace ι] [MeasurableSpace Ω]

/-! ### Model -/

/-- Lines 3119-3125: a particle of the first step and its data. -/
noncomputable def first (prior : Measure X) (sim : Kernel X Y) : Measure (X × Y) := firstTrial prior sim

/-- Lines 3127-3138: a new particle of a later step and its data. -/
noncomputable def later (w : ι → ℝ≥0∞) (K : ι → Measure X) (S : Set X) (sim : Kernel X Y) (inner : ℕ) : Measure (X × Y) := trial w K S sim inner

/-- `Journal.posterior_mean` (abcpy/output.py 410-414) of `f` for the first `n` particles with weights `W`: `np.average` with the weights as the sampler stored them (3066). -/
noncomputable def journalMean (f : X → ℝ) (W : X → ℝ≥0∞) (e : ℕ → X × Y) (n : ℕ) : Option ℝ :=
  Journal.npAverage ((List.range n).map fun i => f (e i).1) ((List.range n).map fun i => (W (e i).1).toReal)

open Classical in
/-- The average over the particles that are kept for the next step, with the weights of lines 3040-3042. -/
noncomputable def keptMean (f : X → ℝ) (W : X → ℝ≥0∞) (D : Set Y) (e : ℕ → X × Y) (n : ℕ) : Option ℝ :=
  let kept := (List.range n).filter fun i => (e i).2 ∈ D
  Journal.npAverage (kept.map fun i => f (e i).1) (normalise (kept.map fun i => (W (e i).1).toReal))

/-! ### Properties -/

theorem npAverage_normalise (x w : List ℝ) (h : w.sum ≠ 0) : Journal.npAverage x (normalise w) = Journal.npAverage x w := by
  have h1 : (normalise w).sum = 1 := by
    rw [normalise, show (fun x => x / w.sum) = fun x => x * w.sum⁻¹ from funext fun x => div_eq_mul_inv _ _, List.sum_map_mul_right, List.map_id', mul_inv_cancel₀ h]
  have h2 : (List.zipWith (· * ·) x (normalise w)).sum = (List.zipWith (· * ·) x w).sum / w.sum := by
    unfold normalise
    generalize w.sum = s
    clear h h1
    induction x generalizing w with
    | nil => simp
    | cons a x ih =>
      cases w with
      | nil => simp
      | cons b w => simp only [List.map_cons, List.zipWith_cons_cons, List.sum_cons, ih]; ring
  unfold Journal.npAverage
  rw [h1, h2]
  simp [normalise, h]

theorem journalMean_eq (f : X → ℝ) (W : X → ℝ≥0∞) (e : ℕ → X × Y) (n : ℕ) (h : ∑ i ∈ Finset.range n, (W (e i).1).toReal ≠ 0) :
    journalMean f W e n = posteriorMean (fun e => f e.1) (fun e => W e.1) e n := by
  unfold journalMean posteriorMean
  rw [npAverage_normalise _ _ (by rw [range_sum]; exact h)]

open Classical in
theorem keptMean_eq (f : X → ℝ) (W : X → ℝ≥0∞) (D : Set Y) (e : ℕ → X × Y) (n : ℕ) (h : ∑ i ∈ Finset.range n, ((Prod.snd ⁻¹' D : Set (X × Y)).indicator (fun e => W e.1) (e i)).toReal ≠ 0) :
    keptMean f W D e n = posteriorMean (fun e => f e.1) ((Prod.snd ⁻¹' D : Set (X × Y)).indicator fun e => W e.1) e n := by
  have hs : ∀ (g : ℕ → ℝ) (l : List ℕ), ((l.filter fun i => (e i).2 ∈ D).map g).sum = (l.map fun i => if (e i).2 ∈ D then g i else 0).sum := by
    intro g l
    induction l with
    | nil => simp
    | cons a l ih => by_cases ha : (e a).2 ∈ D <;> simp [ha, ih]
  have hi : ∀ i, ((Prod.snd ⁻¹' D : Set (X × Y)).indicator (fun e => W e.1) (e i)).toReal = if (e i).2 ∈ D then (W (e i).1).toReal else 0 := by
    intro i
    by_cases ha : (e i).2 ∈ D
    · rw [indicator_of_mem (by exact ha), if_pos ha]
    · rw [indicator_of_notMem (by exact ha), if_neg ha]; rfl
  rw [posteriorMean_eq _ _ _ _ h]
  simp only [hi] at h ⊢
  have hw : (((List.range n).filter fun i => (e i).2 ∈ D).map fun i => (W (e i).1).toReal).sum = ∑ i ∈ Finset.range n, if (e i).2 ∈ D then (W (e i).1).toReal else 0 := by rw [hs, range_sum]
  unfold keptMean
  simp only
  rw [npAverage_normalise _ _ (by rw [hw]; exact h), Journal.npAverage, hw, if_neg (by simp [h]), List.zipWith_map, List.zipWith_self, hs, range_sum]
  congr 2
  refine Finset.sum_congr rfl fun i _ => ?_
  by_cases ha : (e i).2 ∈ D <;> simp [ha, mul_comm]

/-- With the other particles dropped, weighted particles estimate averages under the restricted law. -/
theorem estimates_restrict {E : Type} [MeasurableSpace E] {P T : Measure E} {W : E → ℝ≥0∞} (h : Estimates P W T) {A : Set E} (hA : MeasurableSet A) : Estimates P (A.indicator W) (T.restrict A) := by
  obtain ⟨c, c0, ct, h⟩ := h
  refine ⟨c, c0, ct, fun f hf => ?_⟩
  rw [← lintegral_indicator hA, ← h _ (hf.indicator hA)]
  refine lintegral_congr fun x => ?_
  by_cases hx : x ∈ A <;> simp [hx]

theorem consistent_congr {E : Type} [MeasurableSpace E] {T : Measure E} {f : E → ℝ} {ρ : Measure Ω} {m m' : Ω → ℕ → Option ℝ} (h : Consistent ρ m f T) (he : ∀ ω n v, m ω n = some v → m' ω n = some v) :
    Consistent ρ m' f T := by
  unfold Consistent at h ⊢
  filter_upwards [h] with ω ⟨v, h1, h2⟩
  refine ⟨v, ?_, h2⟩
  filter_upwards [h1] with n hn
  exact he ω n _ hn

theorem sum_of_some {E : Type} {f : E → ℝ} {W : E → ℝ≥0∞} {e : ℕ → E} {n : ℕ} {v : ℝ} (h : posteriorMean f W e n = some v) : ∑ i ∈ Finset.range n, (W (e i)).toReal ≠ 0 := by
  intro h0
  unfold posteriorMean Journal.npAverage at h
  rw [if_pos] at h
  · cases h
  · right
    rw [normalise, range_sum, h0, List.map_map]
    simp [Function.comp_def]

theorem first_estimates (prior : Measure X) [IsProbabilityMeasure prior] (sim : Kernel X Y) [IsMarkovKernel sim] : Estimates (first prior sim) (fun _ => 1) (prior ⊗ₘ sim) :=
  ⟨1, one_ne_zero, ENNReal.one_ne_top, fun f _ => by simp [first, firstTrial]⟩

/-- **C184, kept particles of the first step.** Averages over the particles below the threshold, which have weight 1 (line 3125), converge to the mean under the ABC posterior. -/
theorem C184_first_kept (prior : Measure X) [IsProbabilityMeasure prior] (sim : Kernel X Y) [IsMarkovKernel sim] (D : Set Y) (hD : MeasurableSet D)
    (hT : (prior ⊗ₘ sim).restrict (Prod.snd ⁻¹' D) ≠ 0) (f : X → ℝ) (hf : Measurable f) (hi : Integrable (fun e => f e.1) ((prior ⊗ₘ sim).restrict (Prod.snd ⁻¹' D)))
    (ρ : Measure Ω) [IsProbabilityMeasure ρ] (e : ℕ → Ω → X × Y) (he : Draws ρ (first prior sim) e) :
    Consistent ρ (fun ω => keptMean f (fun _ => 1) D fun i => e i ω) (fun e => f e.1) ((prior ⊗ₘ sim).restrict (Prod.snd ⁻¹' D)) := by
  have hD' : MeasurableSet (Prod.snd ⁻¹' D : Set (X × Y)) := measurable_snd hD
  have : IsFiniteMeasure (first prior sim) := by unfold first firstTrial; infer_instance
  have h := C182_consistent hT (show Measurable ((Prod.snd ⁻¹' D : Set (X × Y)).indicator fun _ => (1 : ℝ≥0∞)) from measurable_const.indicator hD') (estimates_restrict (first_estimates prior sim) hD') (fun e => f e.1) (hf.comp measurable_fst) hi ρ e he
  refine consistent_congr h fun ω n v hv => ?_
  exact (keptMean_eq f _ D _ n (sum_of_some hv)).trans hv

/-- **C184 is violated** by the journal of the first step. Whatever the threshold is, the posterior mean computed from the journal converges to the mean under the prior. -/
theorem C184_first_violated (prior : Measure X) [IsProbabilityMeasure prior] (sim : Kernel X Y) [IsMarkovKernel sim] (f : X → ℝ) (hf : Measurable f) (hi : Integrable f prior)
    (ρ : Measure Ω) [IsProbabilityMeasure ρ] (e : ℕ → Ω → X × Y) (he : Draws ρ (first prior sim) e) :
    ∀ᵐ ω ∂ρ, ∃ v : ℕ → ℝ, (∀ᶠ n in atTop, journalMean f (fun _ => 1) (fun i => e i ω) n = some (v n)) ∧ Tendsto v atTop (𝓝 (∫ x, f x ∂prior)) := by
  have : IsFiniteMeasure (first prior sim) := by unfold first firstTrial; infer_instance
  have hfst : (prior ⊗ₘ sim).map Prod.fst = prior := Measure.fst_compProd prior sim
  have hi' : Integrable (fun e : X × Y => f e.1) (prior ⊗ₘ sim) := by
    rw [← hfst, integrable_map_measure hf.aestronglyMeasurable measurable_fst.aemeasurable] at hi
    exact hi
  have h := C182_consistent (IsProbabilityMeasure.ne_zero _) (show Measurable fun _ : X × Y => (1 : ℝ≥0∞) from measurable_const) (first_estimates prior sim) (fun e => f e.1) (hf.comp measurable_fst) hi' ρ e he
  have hmean : mean (prior ⊗ₘ sim) (fun e => f e.1) = ∫ x, f x ∂prior := by
    rw [mean, measureReal_def, measure_univ, ENNReal.toReal_one, div_one]
    conv_rhs => rw [← hfst]
    rw [integral_map measurable_fst.aemeasurable hf.aestronglyMeasurable]
  unfold Consistent at h
  simp only [hmean] at h
  filter_upwards [h] with ω ⟨v, h1, h2⟩
  refine ⟨v, ?_, h2⟩
  filter_upwards [h1] with n hn
  exact (journalMean_eq f _ _ n (sum_of_some hn)).trans hn

section

variable (hι : ∀ s : Set ι, MeasurableSet s) (μ : Measure X) [SFinite μ] (π : X → ℝ≥0∞) (hπ : Measurable π) [IsProbabilityMeasure (μ.withDensity π)]
    (w : ι → ℝ≥0∞) (hw : ∑ i, w i = 1) (k : ι → X → ℝ≥0∞) (hk : ∀ i, Measurable (k i)) (hk' : ∀ i x, k i x ≠ ∞) (hK : ∀ i, IsProbabilityMeasure (μ.withDensity (k i)))
    (S : Set X) (hS : MeasurableSet S) (hsupp : ∀ x, π x ≠ 0 → x ∈ S) (reach : ∀ x, π x ≠ 0 → ∃ i, w i ≠ 0 ∧ k i x ≠ 0)
    (sim : Kernel X Y) [IsMarkovKernel sim] (inner : ℕ) (hi : 0 < inner) (r : ℝ≥0∞) (same : ∀ i, μ.withDensity (k i) Sᶜ = r)

include hι hπ hw hk hk' hK hS hsupp reach hi same

omit [IsProbabilityMeasure (μ.withDensity π)] in
/-- If all particles of the previous population have the same probability of leaving the support, new particles estimate averages under the joint law of prior and model. -/
theorem later_estimates : Estimates (later w (fun i => μ.withDensity (k i)) S sim inner) (fun e => weight π w k e.1) ((μ.withDensity π) ⊗ₘ sim) := by
  obtain ⟨c, c0, ct, h⟩ := C137_partial hι μ π hπ w hw k hk hk' hK S hS hsupp reach sim univ MeasurableSet.univ inner 1 hi one_pos r same
  refine ⟨c, c0, ct, fun f hf => ?_⟩
  have := h f hf
  unfold resample Pmc.Target.target at this
  rw [preimage_univ, lintegral_untilIn _ MeasurableSet.univ, Measure.restrict_univ, Measure.restrict_univ, geo, geo, mul_zero, add_zero, one_mul] at this
  exact this

/-- **C184, kept particles of later steps, partial.** If moreover all particles of the previous population have the same probability of leaving the support, averages over the new particles below the threshold converge to the mean under the
ABC posterior. Missing: other populations (`Averages.C182_violated`), and the particles kept from earlier steps, whose weights are on another scale (`Apmc.C101_violated`). -/
theorem C184_kept_partial (D : Set Y) (hD : MeasurableSet D) (hT : Pmc.Target.target μ π sim D ≠ 0) (f : X → ℝ) (hf : Measurable f) (hfi : Integrable (fun e => f e.1) (Pmc.Target.target μ π sim D))
    (ρ : Measure Ω) [IsProbabilityMeasure ρ] (e : ℕ → Ω → X × Y) (he : Draws ρ (later w (fun i => μ.withDensity (k i)) S sim inner) e) :
    Consistent ρ (fun ω => keptMean f (weight π w k) D fun i => e i ω) (fun e => f e.1) (Pmc.Target.target μ π sim D) := by
  have hD' : MeasurableSet (Prod.snd ⁻¹' D : Set (X × Y)) := measurable_snd hD
  have : IsFiniteMeasure (later w (fun i => μ.withDensity (k i)) S sim inner) := resample_finite hι w hw (fun i => μ.withDensity (k i)) S hS sim inner
  have : IsFiniteMeasure (Pmc.Target.target μ π sim D) := by unfold Pmc.Target.target; infer_instance
  have hW : Measurable fun e : X × Y => weight π w k e.1 := (show Measurable (weight π w k) from hπ.div (Finset.measurable_sum _ fun i _ => (hk i).const_mul _)).comp measurable_fst
  have h := C182_consistent hT (hW.indicator hD') (estimates_restrict (later_estimates hι μ π hπ w hw k hk hk' hK S hS hsupp reach sim inner hi r same) hD') (fun e => f e.1) (hf.comp measurable_fst) hfi ρ e he
  refine consistent_congr h fun ω n v hv => ?_
  exact (keptMean_eq f _ D _ n (sum_of_some hv)).trans hv

/-- **C184 is violated** by the journal of later steps, too: averages over all new particles, which the journal lists, converge to the mean under the prior. -/
theorem C184_later_violated (f : X → ℝ) (hf : Measurable f) (hfi : Integrable f (μ.withDensity π))
    (ρ : Measure Ω) [IsProbabilityMeasure ρ] (e : ℕ → Ω → X × Y) (he : Draws ρ (later w (fun i => μ.withDensity (k i)) S sim inner) e) :
    ∀ᵐ ω ∂ρ, ∃ v : ℕ → ℝ, (∀ᶠ n in atTop, journalMean f (weight π w k) (fun i => e i ω) n = some (v n)) ∧ Tendsto v atTop (𝓝 (∫ x, f x ∂μ.withDensity π)) := by
  have : IsFiniteMeasure (later w (fun i => μ.withDensity (k i)) S sim inner) := resample_finite hι w hw (fun i => μ.withDensity (k i)) S hS sim inner
  have hW : Measurable fun e : X × Y => weight π w k e.1 := (show Measurable (weight π w k) from hπ.div (Finset.measurable_sum _ fun i _ => (hk i).const_mul _)).comp measurable_fst
  have hfst : ((μ.withDensity π) ⊗ₘ sim).map Prod.fst = μ.withDensity π := Measure.fst_compProd _ sim
  have hi' : Integrable (fun e : X × Y => f e.1) ((μ.withDensity π) ⊗ₘ sim) := by
    rw [← hfst, integrable_map_measure hf.aestronglyMeasurable measurable_fst.aemeasurable] at hfi
    exact hfi
  have h := C182_consistent (IsProbabilityMeasure.ne_zero _) hW (later_estimates hι μ π hπ w hw k hk hk' hK S hS hsupp reach sim inner hi r same) (fun e => f e.1) (hf.comp measurable_fst) hi' ρ e he
  have hmean : mean ((μ.withDensity π) ⊗ₘ sim) (fun e => f e.1) = ∫ x, f x ∂μ.withDensity π := by
    rw [mean, measureReal_def, measure_univ, ENNReal.toReal_one, div_one]
    conv_rhs => rw [← hfst]
    rw [integral_map measurable_fst.aemeasurable hf.aestronglyMeasurable]
  unfold Consistent at h
  simp only [hmean] at h
  filter_upwards [h] with ω ⟨v, h1, h2⟩
  refine ⟨v, ?_, h2⟩
  filter_upwards [h1] with n hn
  exact (journalMean_eq f _ _ n (sum_of_some hn)).trans hn

end

/-! ### Example -/

/-- The prior on 0 and 1, as a measure. -/
noncomputable def coin : Measure ℤ := count.withDensity (uniform 1)

theorem lintegral_coin (f : ℤ → ℝ≥0∞) : ∫⁻ x, f x ∂coin = (f 0 + f 1) / 2 := by
  have e0 : uniform 1 0 = 1 / 2 := by norm_num [uniform]
  have e1 : uniform 1 1 = 1 / 2 := by norm_num [uniform]
  rw [coin, lintegral_withDensity_eq_lintegral_mul _ measurable_from_top measurable_from_top, lintegral_count, tsum_eq_sum (s := {0, 1})]
  · rw [Finset.sum_pair (by omega)]
    simp only [Pi.mul_apply, e0, e1]
    rw [← mul_add, ENNReal.div_eq_inv_mul, ENNReal.div_eq_inv_mul, mul_one]
  · intro b hb
    have : uniform 1 b = 0 := by
      rw [uniform, if_neg]
      simp only [Finset.mem_insert, Finset.mem_singleton, not_or] at hb
      push_cast
      omega
    simp [this]

theorem coin_eq : coin = (2⁻¹ : ℝ≥0∞) • dirac 0 + (2⁻¹ : ℝ≥0∞) • dirac 1 := by
  refine Measure.ext fun A hA => ?_
  rw [← lintegral_indicator_one hA, lintegral_coin]
  simp [ENNReal.div_eq_inv_mul, mul_add]

instance : IsProbabilityMeasure coin := ⟨by rw [coin_eq]; simp [ENNReal.inv_two_add_inv_two]⟩

/-- The data are the parameter, observed is 1, and the threshold lets only the data 1 pass. Averages over the kept particles tend to 1, the mean of the ABC posterior, averages over the particles in the journal to 1/2. -/
theorem C184_example_violated : ∃ (ρ : Measure (ℕ → ℤ × ℤ)) (e : ℕ → (ℕ → ℤ × ℤ) → ℤ × ℤ), IsProbabilityMeasure ρ ∧ Draws ρ (first coin Kernel.id) e ∧
    (∀ᵐ ω ∂ρ, ∃ v : ℕ → ℝ, (∀ᶠ n in atTop, keptMean (fun x : ℤ => (x : ℝ)) (fun _ => 1) ({1} : Set ℤ) (fun i => e i ω) n = some (v n)) ∧ Tendsto v atTop (𝓝 1)) ∧
    ∀ᵐ ω ∂ρ, ∃ v : ℕ → ℝ, (∀ᶠ n in atTop, journalMean (fun x : ℤ => (x : ℝ)) (fun _ => 1) (fun i => e i ω) n = some (v n)) ∧ Tendsto v atTop (𝓝 (1 / 2)) := by
  have : IsProbabilityMeasure (first coin Kernel.id) := by unfold first firstTrial; infer_instance
  obtain ⟨ρ, e, hρ, he⟩ := draws_exist (first coin Kernel.id) (IsProbabilityMeasure.ne_zero _)
  have hm : Measurable fun x : ℤ => (x : ℝ) := measurable_from_top
  have hi : Integrable (fun x : ℤ => (x : ℝ)) coin := by
    rw [coin_eq]
    exact ((integrable_dirac (by simp)).smul_measure (by simp)).add_measure ((integrable_dirac (by simp)).smul_measure (by simp))
  have h1 : ∫ x : ℤ, (x : ℝ) ∂coin = 1 / 2 := by
    rw [coin_eq, integral_add_measure ((integrable_dirac (by simp)).smul_measure (by simp)) ((integrable_dirac (by simp)).smul_measure (by simp)), integral_smul_measure, integral_smul_measure]
    simp
  have hT : (coin ⊗ₘ Kernel.id).restrict (Prod.snd ⁻¹' {1}) = (2⁻¹ : ℝ≥0∞) • dirac ((1 : ℤ), (1 : ℤ)) := by
    refine Measure.ext fun A hA => ?_
    have hs : MeasurableSet (A ∩ Prod.snd ⁻¹' {(1 : ℤ)}) := hA.inter (measurable_snd (measurableSet_singleton 1))
    rw [Measure.restrict_apply hA, Measure.compProd_apply hs, lintegral_coin]
    simp [Kernel.id_apply, ENNReal.div_eq_inv_mul, indicator]
    have : (1 : ℤ) ∈ Prod.mk (1 : ℤ) ⁻¹' A ∩ Prod.mk (1 : ℤ) ⁻¹' Prod.snd ⁻¹' {(1 : ℤ)} ↔ ((1 : ℤ), (1 : ℤ)) ∈ A := ⟨fun h => h.1, fun h => ⟨h, rfl⟩⟩
    by_cases hA1 : ((1 : ℤ), (1 : ℤ)) ∈ A
    · rw [if_pos (this.2 hA1), if_pos hA1]
    · rw [if_neg fun h => hA1 (this.1 h), if_neg hA1]
  have hT0 : (coin ⊗ₘ Kernel.id).restrict (Prod.snd ⁻¹' {1}) ≠ 0 := by
    rw [hT]
    intro h
    have := congrArg (fun m : Measure (ℤ × ℤ) => m univ) h
    simp at this
  have hmean : mean ((coin ⊗ₘ Kernel.id).restrict (Prod.snd ⁻¹' {1})) (fun e : ℤ × ℤ => (e.1 : ℝ)) = 1 := by
    rw [hT, mean, integral_smul_measure, integral_dirac, measureReal_def, Measure.smul_apply]
    simp
  refine ⟨ρ, e, hρ, he, ?_, ?_⟩
  · have := C184_first_kept coin Kernel.id {1} (measurableSet_singleton 1) hT0 (fun x => (x : ℝ)) hm (by rw [hT]; exact (integrable_dirac (by simp)).smul_measure (by simp)) ρ e he
    rw [Consistent, hmean] at this
    exact this
  · have := C184_first_violated coin Kernel.id (fun x => (x : ℝ)) hm hi ρ e he
    rw [h1] at this
    exact this

/-- A later step from the particles 0 and 1 with the random walk: the theorems apply, for every model. -/
example (sim : Kernel ℤ Y) [IsMarkovKernel sim] : ∃ (ρ : Measure (ℕ → ℤ × Y)) (e : ℕ → (ℕ → ℤ × Y) → ℤ × Y), IsProbabilityMeasure ρ ∧
    Draws ρ (later half (fun i => (count : Measure ℤ).withDensity (walks i)) {x | uniform 1 x ≠ 0} sim 5) e ∧
    (∀ᵐ ω ∂ρ, ∃ v : ℕ → ℝ, (∀ᶠ n in atTop, journalMean (fun x : ℤ => (x : ℝ)) (weight (uniform 1) half walks) (fun i => e i ω) n = some (v n)) ∧ Tendsto v atTop (𝓝 (1 / 2))) ∧
    ∀ D, MeasurableSet D → sim 1 D ≠ 0 → Consistent ρ (fun ω => keptMean (fun x : ℤ => (x : ℝ)) (weight (uniform 1) half walks) D fun i => e i ω) (fun e => (e.1 : ℝ)) (Pmc.Target.target count (uniform 1) sim D) := by
  have e0 : uniform 1 0 = 1 / 2 := by norm_num [uniform]
  have e1 : uniform 1 1 = 1 / 2 := by norm_num [uniform]
  have e2 : uniform 1 2 = 0 := by norm_num [uniform]
  have em : uniform 1 (-1) = 0 := by norm_num [uniform]
  have k0 : {x : ℤ | uniform 1 x ≠ 0}ᶜ.indicator (1 : ℤ → ℝ≥0∞) 0 = 0 := by simp [e0]
  have k1 : {x : ℤ | uniform 1 x ≠ 0}ᶜ.indicator (1 : ℤ → ℝ≥0∞) 1 = 0 := by simp [e1]
  have k2 : {x : ℤ | uniform 1 x ≠ 0}ᶜ.indicator (1 : ℤ → ℝ≥0∞) 2 = 1 := by simp [e2]
  have km : {x : ℤ | uniform 1 x ≠ 0}ᶜ.indicator (1 : ℤ → ℝ≥0∞) (-1) = 1 := by simp [em]
  have hx01 : ∀ x, uniform 1 x ≠ 0 → x = 0 ∨ x = 1 := by
    intro x h
    by_contra hx
    apply h
    rw [uniform, if_neg]
    push_cast
    omega
  have hι : ∀ s : Set (Fin 2), MeasurableSet s := fun s => by measurability
  have hS : MeasurableSet {x : ℤ | uniform 1 x ≠ 0} := by measurability
  have hK : ∀ i, IsProbabilityMeasure ((count : Measure ℤ).withDensity (walks i)) := fun i => walk_prob _
  have reach : ∀ x, uniform 1 x ≠ 0 → ∃ i, half i ≠ 0 ∧ walks i x ≠ 0 := by
    intro x h
    refine ⟨0, by simp [half], ?_⟩
    rcases hx01 x h with rfl | rfl <;> norm_num [walks, walk]
  have same : ∀ i, (count : Measure ℤ).withDensity (walks i) {x | uniform 1 x ≠ 0}ᶜ = 1 / 3 := by
    intro i
    unfold walks
    rw [walk_apply]
    rcases Fin.exists_fin_two.1 ⟨i, rfl⟩ with h | h <;> subst h
    · norm_num [k0, k1, km]
    · norm_num [k0, k1, k2]
  have hprob : IsProbabilityMeasure ((count : Measure ℤ).withDensity (uniform 1)) := inferInstanceAs (IsProbabilityMeasure coin)
  have : IsFiniteMeasure (later half (fun i => (count : Measure ℤ).withDensity (walks i)) {x | uniform 1 x ≠ 0} sim 5) := resample_finite hι half half_sum _ _ hS sim 5
  have hm : Measurable fun x : ℤ => (x : ℝ) := measurable_from_top
  have hi : Integrable (fun x : ℤ => (x : ℝ)) coin := by
    rw [coin_eq]
    exact ((integrable_dirac (by simp)).smul_measure (by simp)).add_measure ((integrable_dirac (by simp)).smul_measure (by simp))
  have h1 : ∫ x : ℤ, (x : ℝ) ∂coin = 1 / 2 := by
    rw [coin_eq, integral_add_measure ((integrable_dirac (by simp)).smul_measure (by simp)) ((integrable_dirac (by simp)).smul_measure (by simp)), integral_smul_measure, integral_smul_measure]
    simp
  have hW : Measurable fun e : ℤ × Y => weight (uniform 1) half walks e.1 := (show Measurable (weight (uniform 1) half walks) from measurable_from_top).comp measurable_fst
  have hP0 : later half (fun i => (count : Measure ℤ).withDensity (walks i)) {x | uniform 1 x ≠ 0} sim 5 ≠ 0 := by
    have := (weighted (IsProbabilityMeasure.ne_zero _) hW
      (later_estimates hι count (uniform 1) measurable_from_top half half_sum walks (fun _ => measurable_from_top) walks_ne_top hK {x | uniform 1 x ≠ 0} hS (fun _ h => h) reach sim 5 (by omega) (1 / 3) same)).1
    simpa using this
  obtain ⟨ρ, e, hρ, he⟩ := draws_exist _ hP0
  refine ⟨ρ, e, hρ, he, ?_, fun D hD hD1 => ?_⟩
  · have := C184_later_violated hι count (uniform 1) measurable_from_top half half_sum walks (fun _ => measurable_from_top) walks_ne_top hK {x | uniform 1 x ≠ 0} hS (fun _ h => h) reach sim 5 (by omega) (1 / 3) same
      (fun x => (x : ℝ)) hm hi ρ e he
    rw [show (∫ x : ℤ, (x : ℝ) ∂count.withDensity (uniform 1)) = 1 / 2 from h1] at this
    exact this
  · have hD' : MeasurableSet (Prod.snd ⁻¹' D : Set (ℤ × Y)) := measurable_snd hD
    have hT : Pmc.Target.target count (uniform 1) sim D ≠ 0 := by
      intro h
      have : Pmc.Target.target count (uniform 1) sim D univ = 0 := by rw [h]; rfl
      rw [Pmc.Target.target, Measure.restrict_apply MeasurableSet.univ, univ_inter, Measure.compProd_apply hD', show (count : Measure ℤ).withDensity (uniform 1) = coin from rfl, lintegral_coin] at this
      simp only [ENNReal.div_eq_zero_iff, add_eq_zero] at this
      rcases this with ⟨-, h⟩ | h
      · exact hD1 h
      · simp at h
    refine C184_kept_partial hι count (uniform 1) measurable_from_top half half_sum walks (fun _ => measurable_from_top) walks_ne_top hK {x | uniform 1 x ≠ 0} hS (fun _ h => h) reach sim 5 (by omega) (1 / 3) same D hD hT
      (fun x => (x : ℝ)) hm ?_ ρ e he
    have hfst : (coin ⊗ₘ sim).map Prod.fst = coin := Measure.fst_compProd _ sim
    rw [← hfst, integrable_map_measure hm.aestronglyMeasurable measurable_fst.aemeasurable] at hi
    exact hi.restrict

end Verif.Apmc.Target
