import Verif.Pmc.LikTarget

/-!
# C137, C173: what weighted particles estimate, for all populations

`abcpy/inferences.py` 967-1058 (`PMCABC._resample_parameter`, `_calculate_weight`) and 1293-1463 (`PMC`), as modelled in `Pmc/Target` and `Pmc/LikTarget`. There the particles have to leave the support of the
prior with the same probability; here nothing is assumed about these probabilities.
-/

namespace Verif.Pmc.Target

open MeasureTheory ProbabilityTheory Measure Set Verif.Pmc.LikTarget
open scoped ENNReal

variable {X Y ι : Type} [MeasurableSpace X] [MeasurableSpace Y] [MeasurableSpace ι] [Fintype ι]

/-! ## Specification -/

/-- The factor that is missing in the weights. A particle is perturbed again and again, at most `inner` times, until the result is inside the support; `tries i` is the expected number of perturbations of particle `i`
(the sum of the probabilities that the first `j` results are outside). The factor at `x` is the mean of `tries` over the particles, each weighted with its weight and its density of proposing `x`. -/
noncomputable def tilt (w tries : ι → ℝ≥0∞) (k : ι → X → ℝ≥0∞) (x : X) : ℝ≥0∞ := (∑ i, w i * tries i * k i x) / ∑ i, w i * k i x

/-! ## Proofs -/

theorem trial_tilted (hι : ∀ s : Set ι, MeasurableSet s) (μ : Measure X) [SFinite μ] (w : ι → ℝ≥0∞) (k : ι → X → ℝ≥0∞) (hk : ∀ i, Measurable (k i))
    (hK : ∀ i, IsProbabilityMeasure (μ.withDensity (k i))) (S : Set X) (hS : MeasurableSet S) (sim : Kernel X Y) [IsMarkovKernel sim] (inner : ℕ) (f : X × Y → ℝ≥0∞) (hf : Measurable f) :
    ∫⁻ e, f e ∂trial w (fun i => μ.withDensity (k i)) S sim inner =
      ∫⁻ x in S, (∑ i, w i * geo (μ.withDensity (k i) Sᶜ) inner * k i x) * ∫⁻ y, f (x, y) ∂sim x ∂μ := by
  have hg : Measurable fun x => ∫⁻ y, f (x, y) ∂sim x := hf.lintegral_kernel_prod_right'
  rw [trial_eq hι _ _ hS _ _ _ hf]
  simp only [Finset.sum_mul]
  rw [lintegral_finsetSum _ fun i _ => show Measurable (fun x => w i * geo (μ.withDensity (k i) Sᶜ) inner * k i x * ∫⁻ y, f (x, y) ∂sim x) from ((hk i).const_mul _).mul hg]
  refine Finset.sum_congr rfl fun i _ => ?_
  rw [setLIntegral_withDensity_eq_setLIntegral_mul _ (hk i) hg hS]
  simp only [mul_assoc, Pi.mul_apply]
  rw [lintegral_const_mul _ (show Measurable (fun x => geo (μ.withDensity (k i) Sᶜ) inner * (k i x * ∫⁻ y, f (x, y) ∂sim x)) from ((hk i).mul hg).const_mul _),
    lintegral_const_mul _ (show Measurable (fun x => k i x * ∫⁻ y, f (x, y) ∂sim x) from (hk i).mul hg)]

/-- Weighted proposals that are inside, for any function of parameters and data: PMC takes all of them. -/
theorem weighted_tilted (hι : ∀ s : Set ι, MeasurableSet s) (μ : Measure X) [SFinite μ] (π : X → ℝ≥0∞) (hπ : Measurable π)
    (w : ι → ℝ≥0∞) (k : ι → X → ℝ≥0∞) (hk : ∀ i, Measurable (k i)) (hK : ∀ i, IsProbabilityMeasure (μ.withDensity (k i)))
    (S : Set X) (hS : MeasurableSet S) (hsupp : ∀ x, π x ≠ 0 → x ∈ S) (sim : Kernel X Y) [IsMarkovKernel sim] (inner : ℕ) (f : X × Y → ℝ≥0∞) (hf : Measurable f) :
    ∫⁻ e, f e * weight π w k e.1 ∂trial w (fun i => μ.withDensity (k i)) S sim inner =
      ∫⁻ e, f e * tilt w (fun i => geo (μ.withDensity (k i) Sᶜ) inner) k e.1 ∂(μ.withDensity π) ⊗ₘ sim := by
  have hq : Measurable fun x => ∑ i, w i * k i x := Finset.measurable_sum _ fun i _ => (hk i).const_mul _
  have hW : Measurable (weight π w k) := hπ.div hq
  have hT : Measurable (tilt w (fun i => geo (μ.withDensity (k i) Sᶜ) inner) k) := (Finset.measurable_sum _ fun i _ => (hk i).const_mul _).div hq
  have hfW : Measurable fun e : X × Y => f e * weight π w k e.1 := hf.mul (hW.comp measurable_fst)
  have hfT : Measurable fun e : X × Y => f e * tilt w (fun i => geo (μ.withDensity (k i) Sᶜ) inner) k e.1 := hf.mul (hT.comp measurable_fst)
  rw [trial_tilted hι μ w k hk hK S hS sim inner _ hfW, lintegral_compProd hfT, lintegral_withDensity_eq_lintegral_mul _ hπ hfT.lintegral_kernel_prod_right', ← lintegral_indicator hS]
  refine lintegral_congr fun x => ?_
  have hfx : Measurable fun y => f (x, y) := hf.comp measurable_prodMk_left
  rw [Pi.mul_apply]
  simp only [lintegral_mul_const _ hfx]
  by_cases h0 : π x = 0
  · by_cases hx : x ∈ S
    · rw [indicator_of_mem hx]; simp [weight, h0]
    · rw [indicator_of_notMem hx]; simp [h0]
  · rw [indicator_of_mem (hsupp x h0)]
    simp only [lintegral_mul_const _ hfx]
    unfold weight tilt
    rw [div_eq_mul_inv, div_eq_mul_inv]
    ring

/-- **C137, what is estimated, for every population.** Accepted particles with the weights of the code estimate averages under the target with an additional factor `tilt`, which depends on how often the particles
propose values outside of the support. -/
theorem C137_exact (hι : ∀ s : Set ι, MeasurableSet s) (μ : Measure X) [SFinite μ] (π : X → ℝ≥0∞) (hπ : Measurable π)
    (w : ι → ℝ≥0∞) (hw : ∑ i, w i = 1) (k : ι → X → ℝ≥0∞) (hk : ∀ i, Measurable (k i)) (hK : ∀ i, IsProbabilityMeasure (μ.withDensity (k i)))
    (S : Set X) (hS : MeasurableSet S) (hsupp : ∀ x, π x ≠ 0 → x ∈ S) (sim : Kernel X Y) [IsMarkovKernel sim] (D : Set Y) (hD : MeasurableSet D) (inner outer : ℕ) (ho : 0 < outer) :
    Estimates (resample w (fun i => μ.withDensity (k i)) S sim D inner outer) (fun e => weight π w k e.1)
      ((target μ π sim D).withDensity fun e => tilt w (fun i => geo (μ.withDensity (k i) Sᶜ) inner) k e.1) := by
  have hD' : MeasurableSet (Prod.snd ⁻¹' D : Set (X × Y)) := measurable_snd hD
  have hw' : ∀ i, w i ≠ ∞ := fun i h => by
    have := Finset.single_le_sum (f := w) (fun _ _ => zero_le) (Finset.mem_univ i)
    rw [hw, h] at this
    simp at this
  have hfin : trial w (fun i => μ.withDensity (k i)) S sim inner (Prod.snd ⁻¹' D)ᶜ ≠ ∞ := by
    refine ne_top_of_le_ne_top ?_ (measure_mono (subset_univ _))
    rw [← lintegral_one, trial_eq hι _ _ hS _ _ _ measurable_const, ENNReal.sum_ne_top]
    intro i _
    refine ENNReal.mul_ne_top (hw' i) (ENNReal.mul_ne_top (geo_ne_top (measure_ne_top _ _) _) ?_)
    simp
  have hT : Measurable (tilt w (fun i => geo (μ.withDensity (k i) Sᶜ) inner) k) :=
    (Finset.measurable_sum _ fun i _ => (hk i).const_mul _).div (Finset.measurable_sum _ fun i _ => (hk i).const_mul _)
  refine ⟨geo (trial w (fun i => μ.withDensity (k i)) S sim inner (Prod.snd ⁻¹' D)ᶜ) outer, geo_ne_zero ho, geo_ne_top hfin _, fun f hf => ?_⟩
  have e1 : ∀ g : X → ℝ≥0∞, ((Prod.snd ⁻¹' D : Set (X × Y)).indicator fun e => f e * g e.1) = fun e => (Prod.snd ⁻¹' D : Set (X × Y)).indicator f e * g e.1 := by
    intro g; funext e
    by_cases h : e ∈ (Prod.snd ⁻¹' D : Set (X × Y)) <;> simp [h]
  have hTf : Measurable fun e : X × Y => tilt w (fun i => geo (μ.withDensity (k i) Sᶜ) inner) k e.1 := hT.comp measurable_fst
  unfold resample target
  rw [lintegral_untilIn _ hD', ← lintegral_indicator hD', e1, weighted_tilted hι μ π hπ w k hk hK S hS hsupp sim inner _ (hf.indicator hD'),
    lintegral_withDensity_eq_lintegral_mul _ hTf hf, ← lintegral_indicator hD', ← e1]
  congr 3
  funext e
  simp [mul_comm]

/-- **C173, what is estimated, for every population.** Weighted particles of PMC estimate averages with respect to likelihood times the square of the prior density, with the same factor. -/
theorem C173_exact (hι : ∀ s : Set ι, MeasurableSet s) (μ : Measure X) [SFinite μ] (π : X → ℝ≥0∞) (hπ : Measurable π)
    (w : ι → ℝ≥0∞) (k : ι → X → ℝ≥0∞) (hk : ∀ i, Measurable (k i)) (hK : ∀ i, IsProbabilityMeasure (μ.withDensity (k i)))
    (S : Set X) (hS : MeasurableSet S) (hsupp : ∀ x, π x ≠ 0 → x ∈ S) (sim : Kernel X Y) [IsMarkovKernel sim] (lik : X × Y → ℝ≥0∞) (hlik : Measurable lik) (inner : ℕ) :
    Estimates (particle w (fun i => μ.withDensity (k i)) S sim inner) (likWeight π lik w k)
      (posteriorLaw μ π sim fun e => π e.1 * lik e * tilt w (fun i => geo (μ.withDensity (k i) Sᶜ) inner) k e.1) := by
  have hT : Measurable (tilt w (fun i => geo (μ.withDensity (k i) Sᶜ) inner) k) :=
    (Finset.measurable_sum _ fun i _ => (hk i).const_mul _).div (Finset.measurable_sum _ fun i _ => (hk i).const_mul _)
  refine ⟨1, one_ne_zero, ENNReal.one_ne_top, fun f hf => ?_⟩
  have hp : Measurable fun e : X × Y => π e.1 := hπ.comp measurable_fst
  have := weighted_tilted hι μ π hπ w k hk hK S hS hsupp sim inner (fun e : X × Y => f e * (π e.1 * lik e)) (hf.mul (hp.mul hlik))
  unfold particle posteriorLaw
  have hd : Measurable fun e : X × Y => π e.1 * lik e * tilt w (fun i => geo (μ.withDensity (k i) Sᶜ) inner) k e.1 := (hp.mul hlik).mul (hT.comp measurable_fst)
  rw [one_mul, lintegral_withDensity_eq_lintegral_mul _ hd hf]
  refine Eq.trans ?_ (this.trans ?_)
  · refine lintegral_congr fun e => ?_
    unfold likWeight
    ring
  · refine lintegral_congr fun e => ?_
    rw [Pi.mul_apply]
    ring

/-! ## How wrong averages can be -/

theorem geo_le {r : ℝ≥0∞} (s : ℝ≥0∞) (hs : s + r = 1) (n : ℕ) : geo r n ≤ s⁻¹ := by
  have hr : r ≠ ∞ := fun h => by rw [h] at hs; simp at hs
  have hst : s ≠ ∞ := fun h => by rw [h] at hs; simp at hs
  have key : ∀ n, s * geo r n + r ^ n = 1 := by
    intro n
    rw [geo_eq]
    induction n with
    | zero => simp
    | succ n ih =>
      rw [Finset.sum_range_succ, mul_add, pow_succ]
      calc _ = s * ∑ j ∈ Finset.range n, r ^ j + r ^ n * (s + r) := by ring
        _ = _ := by rw [hs, mul_one, ih]
  rcases eq_or_ne s 0 with rfl | h0
  · simp
  · rw [← one_div, ENNReal.le_div_iff_mul_le (.inl h0) (.inl hst), mul_comm]
    exact (key n).le.trans' le_self_add

/-- The factor at a parameter in reach. -/
theorem tilt_bounds (μ : Measure X) (w : ι → ℝ≥0∞) (hw' : ∀ i, w i ≠ ∞) (k : ι → X → ℝ≥0∞) (hk' : ∀ i x, k i x ≠ ∞) (hK : ∀ i, IsProbabilityMeasure (μ.withDensity (k i)))
    (S : Set X) (hS : MeasurableSet S) (inner : ℕ) (hi : 0 < inner) (s : ℝ≥0∞) (hs : ∀ i, s ≤ μ.withDensity (k i) S) (x : X) (hx : ∃ i, w i ≠ 0 ∧ k i x ≠ 0) :
    1 ≤ tilt w (fun i => geo (μ.withDensity (k i) Sᶜ) inner) k x ∧ tilt w (fun i => geo (μ.withDensity (k i) Sᶜ) inner) k x ≤ s⁻¹ := by
  obtain ⟨i, a, b⟩ := hx
  have q0 : ∑ i, w i * k i x ≠ 0 := by
    intro h
    rw [Finset.sum_eq_zero_iff] at h
    exact mul_ne_zero a b (h i (Finset.mem_univ i))
  have qt : ∑ i, w i * k i x ≠ ∞ := by
    rw [ENNReal.sum_ne_top]
    exact fun i _ => ENNReal.mul_ne_top (hw' i) (hk' i x)
  unfold tilt
  constructor
  · rw [ENNReal.le_div_iff_mul_le (.inl q0) (.inl qt), one_mul]
    refine Finset.sum_le_sum fun i _ => ?_
    have : 1 ≤ geo (μ.withDensity (k i) Sᶜ) inner := by
      rw [geo_eq]
      calc (1 : ℝ≥0∞) = (μ.withDensity (k i) Sᶜ) ^ 0 := (pow_zero _).symm
        _ ≤ _ := Finset.single_le_sum (f := fun j => (μ.withDensity (k i) Sᶜ) ^ j) (fun _ _ => zero_le) (Finset.mem_range.2 hi)
    calc w i * k i x = w i * 1 * k i x := by ring
      _ ≤ _ := by gcongr
  · rw [ENNReal.div_le_iff_le_mul (.inl q0) (.inl qt), Finset.mul_sum]
    refine Finset.sum_le_sum fun i _ => ?_
    have : geo (μ.withDensity (k i) Sᶜ) inner ≤ s⁻¹ := by
      refine (geo_le (μ.withDensity (k i) S) ?_ inner).trans (ENNReal.inv_le_inv.2 (hs i))
      rw [prob_add_prob_compl hS]
    calc w i * geo (μ.withDensity (k i) Sᶜ) inner * k i x ≤ w i * s⁻¹ * k i x := by gcongr
      _ = _ := by ring

/-- Nor is the factor larger than the number of perturbations. -/
theorem tilt_le (μ : Measure X) (w : ι → ℝ≥0∞) (k : ι → X → ℝ≥0∞) (hK : ∀ i, IsProbabilityMeasure (μ.withDensity (k i))) (S : Set X) (inner : ℕ) (x : X) :
    tilt w (fun i => geo (μ.withDensity (k i) Sᶜ) inner) k x ≤ inner := by
  unfold tilt
  refine ENNReal.div_le_of_le_mul ?_
  rw [Finset.mul_sum]
  refine Finset.sum_le_sum fun i _ => ?_
  have : geo (μ.withDensity (k i) Sᶜ) inner ≤ inner := by
    rw [geo_eq]
    refine (Finset.sum_le_sum fun j _ => pow_le_one₀ zero_le prob_le_one).trans (by simp)
  calc w i * geo (μ.withDensity (k i) Sᶜ) inner * k i x ≤ w i * inner * k i x := by gcongr
    _ = _ := by ring

/-- Under the target almost all parameters have positive prior density. -/
theorem target_positive (μ : Measure X) [SFinite μ] (π : X → ℝ≥0∞) (hπ : Measurable π) (sim : Kernel X Y) [IsMarkovKernel sim] (D : Set Y) : ∀ᵐ e ∂target μ π sim D, π e.1 ≠ 0 := by
  unfold target
  refine ae_restrict_of_ae ?_
  have hset : MeasurableSet {x : X | π x ≠ 0} := (hπ (measurableSet_singleton 0)).compl
  rw [Measure.ae_compProd_iff (p := fun e : X × Y => π e.1 ≠ 0) (measurable_fst hset)]
  rw [ae_withDensity_iff hπ]
  exact ae_of_all _ fun x hx => ae_of_all _ fun y => hx

/-- **C137, the error at the boundary.** If every particle stays inside the support with probability at least `s` when it is perturbed, and every parameter of positive prior density is in reach, the expected weighted value of every
function is, up to one factor for all functions, between `s` times and once its integral under the target: averages are wrong by a factor of at most `1 / s`, for all populations and kernels. -/
theorem C137_bounds (hι : ∀ s : Set ι, MeasurableSet s) (μ : Measure X) [SFinite μ] (π : X → ℝ≥0∞) (hπ : Measurable π)
    (w : ι → ℝ≥0∞) (hw : ∑ i, w i = 1) (k : ι → X → ℝ≥0∞) (hk : ∀ i, Measurable (k i)) (hk' : ∀ i x, k i x ≠ ∞) (hK : ∀ i, IsProbabilityMeasure (μ.withDensity (k i)))
    (S : Set X) (hS : MeasurableSet S) (hsupp : ∀ x, π x ≠ 0 → x ∈ S) (reach : ∀ x, π x ≠ 0 → ∃ i, w i ≠ 0 ∧ k i x ≠ 0)
    (sim : Kernel X Y) [IsMarkovKernel sim] (D : Set Y) (hD : MeasurableSet D) (inner outer : ℕ) (hi : 0 < inner) (ho : 0 < outer)
    (s : ℝ≥0∞) (hs0 : s ≠ 0) (hs : ∀ i, s ≤ μ.withDensity (k i) S) :
    ∃ c : ℝ≥0∞, c ≠ 0 ∧ c ≠ ∞ ∧ ∀ f : X × Y → ℝ≥0∞, Measurable f →
      c * (s * ∫⁻ e, f e ∂target μ π sim D) ≤ ∫⁻ e, f e * weight π w k e.1 ∂resample w (fun i => μ.withDensity (k i)) S sim D inner outer ∧
      ∫⁻ e, f e * weight π w k e.1 ∂resample w (fun i => μ.withDensity (k i)) S sim D inner outer ≤ c * ∫⁻ e, f e ∂target μ π sim D := by
  have hw' : ∀ i, w i ≠ ∞ := fun i h => by
    have := Finset.single_le_sum (f := w) (fun _ _ => zero_le) (Finset.mem_univ i)
    rw [hw, h] at this
    simp at this
  have hne : Nonempty ι := by
    by_contra h
    rw [not_nonempty_iff] at h
    simp at hw
  have hst : s ≠ ∞ := by
    obtain ⟨i⟩ := hne
    exact ne_top_of_le_ne_top (measure_ne_top _ _) (hs i)
  obtain ⟨c, c0, ct, h⟩ := C137_exact hι μ π hπ w hw k hk hK S hS hsupp sim D hD inner outer ho
  have hT : Measurable fun e : X × Y => tilt w (fun i => geo (μ.withDensity (k i) Sᶜ) inner) k e.1 :=
    ((Finset.measurable_sum _ fun i _ => (hk i).const_mul _).div (Finset.measurable_sum _ fun i _ => (hk i).const_mul _)).comp measurable_fst
  have lower := fun x hx => tilt_bounds μ w hw' k hk' hK S hS inner hi s hs x hx
  have hae := target_positive μ π hπ sim D
  refine ⟨c * s⁻¹, mul_ne_zero c0 (ENNReal.inv_ne_zero.2 hst), ENNReal.mul_ne_top ct (ENNReal.inv_ne_top.2 hs0), fun f hf => ?_⟩
  rw [h f hf, lintegral_withDensity_eq_lintegral_mul _ hT hf]
  constructor
  · rw [← mul_assoc, mul_assoc c, ENNReal.inv_mul_cancel hs0 hst, mul_one]
    refine mul_le_mul_right (lintegral_mono_ae ?_) _
    filter_upwards [hae] with e he
    rw [Pi.mul_apply]
    exact le_mul_of_one_le_left' (lower e.1 (reach e.1 he)).1
  · rw [mul_assoc]
    refine mul_le_mul_right ?_ _
    rw [← lintegral_const_mul _ hf]
    refine lintegral_mono_ae ?_
    filter_upwards [hae] with e he
    rw [Pi.mul_apply]
    exact mul_le_mul_left (lower e.1 (reach e.1 he)).2 _

/-- The hypotheses hold for the population of `C137_violated`, particles 0 and 1 with equal weights and a prior that is uniform on 0, 1, 2: particle 0 stays inside with probability 2/3, and averages are wrong by a factor
of at most 3/2. -/
example (inner outer : ℕ) (hi : 0 < inner) (ho : 0 < outer) : ∃ c : ℝ≥0∞, c ≠ 0 ∧ c ≠ ∞ ∧ ∀ f : ℤ × Unit → ℝ≥0∞, Measurable f →
    c * (2 / 3 * ∫⁻ e, f e ∂target count (uniform 2) constant univ) ≤
      ∫⁻ e, f e * weight (uniform 2) half walks e.1 ∂resample half (fun i => (count : Measure ℤ).withDensity (walks i)) {x | uniform 2 x ≠ 0} constant univ inner outer ∧
    ∫⁻ e, f e * weight (uniform 2) half walks e.1 ∂resample half (fun i => (count : Measure ℤ).withDensity (walks i)) {x | uniform 2 x ≠ 0} constant univ inner outer ≤
      c * ∫⁻ e, f e ∂target count (uniform 2) constant univ := by
  have hu : ∀ x : ℤ, uniform 2 x ≠ 0 ↔ x = 0 ∨ x = 1 ∨ x = 2 := by
    intro x
    unfold uniform
    split_ifs with h
    · simp only [Nat.cast_ofNat] at h
      constructor
      · intro; omega
      · intro _; simp
    · simp only [Nat.cast_ofNat] at h
      simp
      omega
  refine C137_bounds (fun _ => .of_discrete) count (uniform 2) (.of_discrete) half ?_ walks (fun _ => .of_discrete) ?_ (fun i => walk_prob _) {x | uniform 2 x ≠ 0} (.of_discrete) (fun x h => h) ?_ constant univ .univ inner outer hi ho
    (2 / 3) (by simp) ?_
  · simp only [half, Finset.sum_const, Finset.card_univ, Fintype.card_fin]
    rw [nsmul_eq_mul]
    exact ENNReal.mul_div_cancel (by simp) (by simp)
  · intro i x
    unfold walks walk
    split_ifs <;> simp
  · intro x hx
    refine ⟨if x = 2 then 1 else 0, by simp [half], ?_⟩
    unfold walks walk
    rcases (hu x).1 hx with rfl | rfl | rfl <;> simp
  · intro i
    have k0 : {x : ℤ | uniform 2 x ≠ 0}.indicator (1 : ℤ → ℝ≥0∞) 0 = 1 := indicator_of_mem ((hu 0).2 (by simp)) _
    have k1 : {x : ℤ | uniform 2 x ≠ 0}.indicator (1 : ℤ → ℝ≥0∞) 1 = 1 := indicator_of_mem ((hu 1).2 (by simp)) _
    unfold walks
    rw [walk_apply]
    refine ENNReal.div_le_div_right ?_ _
    rcases Fin.exists_fin_two.1 ⟨i, rfl⟩ with h | h <;> subst h
    · simp only [Fin.val_zero, Nat.cast_zero, zero_add, k0, k1]
      rw [add_assoc]
      exact le_add_left (by norm_num)
    · simp only [Fin.val_one, Nat.cast_one, sub_self, k0, k1]
      exact le_add_right (by norm_num)

end Verif.Pmc.Target
