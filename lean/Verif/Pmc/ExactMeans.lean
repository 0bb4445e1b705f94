import Verif.Pmc.Exact
import Verif.Pmc.Averages

/-!
# C182: what posterior means of `PMCABC` and `PMC` converge to, for all populations

`abcpy/inferences.py` 890-940, 967-1058 (`PMCABC`) and 1293-1463 (`PMC`), `abcpy/output.py` 385-416, as modelled in `Pmc/Target`, `Pmc/LikTarget` and `Pmc/Averages`. Nothing is assumed about the probabilities with
which perturbed particles leave the support of the prior.
-/

namespace Verif.Pmc.Averages

open MeasureTheory Measure ProbabilityTheory Filter Topology Set Verif.Pmc.Target Verif.Pmc.LikTarget
open scoped ENNReal

variable {E Ω : Type} [MeasurableSpace E] [MeasurableSpace Ω]

/-! ## Specification -/

/-- With probability one, the numbers `m n` are there from some `n` on and tend to one and the same number, which is between `lo` and `hi`. -/
def TendsBetween (ρ : Measure Ω) (m : Ω → ℕ → Option ℝ) (lo hi : ℝ) : Prop :=
  ∃ L, lo ≤ L ∧ L ≤ hi ∧ ∀ᵐ ω ∂ρ, ∃ v : ℕ → ℝ, (∀ᶠ n in atTop, m ω n = some (v n)) ∧ Tendsto v atTop (𝓝 L)

/-! ## Proofs -/

section

variable {T : Measure E} {t : E → ℝ≥0∞}

theorem withDensity_finite [IsFiniteMeasure T] {b : ℝ≥0∞} (hb : b ≠ ∞) (ht : ∀ᵐ e ∂T, t e ≤ b) : IsFiniteMeasure (T.withDensity t) := by
  refine ⟨lt_top_iff_ne_top.2 ?_⟩
  rw [withDensity_apply _ MeasurableSet.univ, Measure.restrict_univ]
  refine ne_top_of_le_ne_top ?_ (lintegral_mono_ae ht)
  rw [lintegral_const]
  exact ENNReal.mul_ne_top hb (measure_ne_top _ _)

theorem withDensity_ne (hT : T ≠ 0) (h1 : ∀ᵐ e ∂T, 1 ≤ t e) : T.withDensity t ≠ 0 := by
  intro h
  apply hT
  rw [← Measure.measure_univ_eq_zero] at h ⊢
  rw [withDensity_apply _ MeasurableSet.univ, Measure.restrict_univ] at h
  have : ∫⁻ _, 1 ∂T ≤ ∫⁻ e, t e ∂T := lintegral_mono_ae h1
  rw [h, lintegral_one] at this
  exact le_antisymm this zero_le

theorem withDensity_integrable {b : ℝ} (hb : 0 ≤ b) (htm : Measurable t) (ht : ∀ᵐ e ∂T, t e ≤ ENNReal.ofReal b) {f : E → ℝ} (hf : Integrable f T) :
    Integrable f (T.withDensity t) ∧ Integrable (fun e => (t e).toReal * f e) T := by
  have hlt : ∀ᵐ e ∂T, t e < ∞ := by
    filter_upwards [ht] with e he
    exact he.trans_lt ENNReal.ofReal_lt_top
  have key : Integrable (fun e => (t e).toReal * f e) T := by
    refine hf.bdd_mul (c := b) htm.ennreal_toReal.aestronglyMeasurable ?_
    filter_upwards [ht] with e he
    rw [Real.norm_eq_abs, abs_of_nonneg ENNReal.toReal_nonneg]
    exact ENNReal.toReal_le_of_le_ofReal hb he
  refine ⟨?_, key⟩
  rw [integrable_withDensity_iff_integrable_smul' htm hlt]
  simpa only [smul_eq_mul] using key

/-- Means of non-negative functions under a measure with density between 1 and `1 / s`. -/
theorem mean_withDensity [IsFiniteMeasure T] (hT : T ≠ 0) (htm : Measurable t) {s : ℝ} (hs : 0 < s) (h1 : ∀ᵐ e ∂T, 1 ≤ t e) (ht : ∀ᵐ e ∂T, t e ≤ ENNReal.ofReal s⁻¹) {f : E → ℝ}
    (hf : Integrable f T) (hf0 : ∀ e, 0 ≤ f e) : s * mean T f ≤ mean (T.withDensity t) f ∧ mean (T.withDensity t) f ≤ mean T f / s := by
  have hlt : ∀ᵐ e ∂T, t e < ∞ := by
    filter_upwards [ht] with e he
    exact he.trans_lt ENNReal.ofReal_lt_top
  have hsi : 0 ≤ s⁻¹ := by positivity
  have := withDensity_finite (T := T) (t := t) ENNReal.ofReal_ne_top ht
  -- the integral of a function under the new measure
  have bounds : ∀ g : E → ℝ, (∀ e, 0 ≤ g e) → Integrable g T → ∫ e, g e ∂T ≤ ∫ e, g e ∂T.withDensity t ∧ ∫ e, g e ∂T.withDensity t ≤ s⁻¹ * ∫ e, g e ∂T := by
    intro g g0 hg
    obtain ⟨-, hi⟩ := withDensity_integrable hsi htm ht hg
    rw [integral_withDensity_eq_integral_toReal_smul htm hlt]
    simp only [smul_eq_mul]
    constructor
    · refine integral_mono_ae hg hi ?_
      filter_upwards [h1, hlt] with e a b
      refine le_mul_of_one_le_left (g0 e) ?_
      rw [← ENNReal.toReal_one]
      exact ENNReal.toReal_mono b.ne a
    · rw [← integral_const_mul]
      refine integral_mono_ae hi (hg.const_mul _) ?_
      filter_upwards [ht] with e a
      exact mul_le_mul_of_nonneg_right (ENNReal.toReal_le_of_le_ofReal hsi a) (g0 e)
  obtain ⟨a1, a2⟩ := bounds f hf0 hf
  obtain ⟨b1, b2⟩ := bounds (fun _ => 1) (fun _ => zero_le_one) (integrable_const _)
  simp only [integral_const, smul_eq_mul, mul_one] at b1 b2
  have p0 : 0 < T.real univ := by
    rw [measureReal_def]
    exact ENNReal.toReal_pos (by simpa using hT) (measure_ne_top _ _)
  have p1 : 0 < (T.withDensity t).real univ := p0.trans_le b1
  have f0 : 0 ≤ ∫ e, f e ∂T := integral_nonneg hf0
  unfold mean
  constructor
  · rw [← mul_div_assoc, div_le_div_iff₀ p0 p1]
    calc s * (∫ e, f e ∂T) * (T.withDensity t).real univ ≤ s * (∫ e, f e ∂T) * (s⁻¹ * T.real univ) := by gcongr
      _ = (∫ e, f e ∂T) * T.real univ := by field_simp
      _ ≤ _ := by gcongr
  · rw [div_div, div_le_div_iff₀ p1 (mul_pos p0 hs)]
    calc (∫ e, f e ∂T.withDensity t) * (T.real univ * s) ≤ s⁻¹ * (∫ e, f e ∂T) * (T.real univ * s) := by gcongr
      _ = (∫ e, f e ∂T) * T.real univ := by field_simp
      _ ≤ _ := by gcongr

end

section

variable {X Y ι : Type} [MeasurableSpace X] [MeasurableSpace Y] [MeasurableSpace ι] [Fintype ι]
variable (hι : ∀ s : Set ι, MeasurableSet s) (μ : Measure X) [SFinite μ] (π : X → ℝ≥0∞) (hπ : Measurable π) (hP : IsProbabilityMeasure (μ.withDensity π))
    (w : ι → ℝ≥0∞) (hw : ∑ i, w i = 1) (k : ι → X → ℝ≥0∞) (hk : ∀ i, Measurable (k i)) (hk' : ∀ i x, k i x ≠ ∞) (hK : ∀ i, IsProbabilityMeasure (μ.withDensity (k i)))
    (S : Set X) (hS : MeasurableSet S) (hsupp : ∀ x, π x ≠ 0 → x ∈ S) (reach : ∀ x, π x ≠ 0 → ∃ i, w i ≠ 0 ∧ k i x ≠ 0)
    (sim : Kernel X Y) [IsMarkovKernel sim] (inner : ℕ) (hi : 0 < inner)
include hι hπ hw hk hk' hK hS hsupp reach hi

include hP in
/-- **C182, the limit for `PMCABC`, for every population.** Posterior means computed from more and more particles of a later iteration converge, to the mean under the ABC posterior with the additional factor `tilt`. -/
theorem C182_pmcabc_exact (D : Set Y) (hD : MeasurableSet D) (outer : ℕ) (ho : 0 < outer) (hT : target μ π sim D ≠ 0) (f : X → ℝ) (hf : Measurable f)
    (hfi : Integrable (fun e => f e.1) (target μ π sim D)) (ρ : Measure Ω) [IsProbabilityMeasure ρ] (e : ℕ → Ω → X × Y)
    (he : Draws ρ (resample w (fun i => μ.withDensity (k i)) S sim D inner outer) e) :
    Consistent ρ (fun ω => posteriorMean (fun e => f e.1) (fun e => weight π w k e.1) fun i => e i ω) (fun e => f e.1)
      ((target μ π sim D).withDensity fun e => tilt w (fun i => geo (μ.withDensity (k i) Sᶜ) inner) k e.1) := by
  have hD' : MeasurableSet (Prod.snd ⁻¹' D : Set (X × Y)) := measurable_snd hD
  have := resample_finite hι w hw (fun i => μ.withDensity (k i)) S hS sim inner
  have : IsFiniteMeasure (resample w (fun i => μ.withDensity (k i)) S sim D inner outer) := untilIn_finite _ hD' _
  have : IsFiniteMeasure (target μ π sim D) := by unfold target; infer_instance
  have hW : Measurable (weight π w k) := hπ.div (Finset.measurable_sum _ fun i _ => (hk i).const_mul _)
  have htm : Measurable fun e : X × Y => tilt w (fun i => geo (μ.withDensity (k i) Sᶜ) inner) k e.1 :=
    ((Finset.measurable_sum _ fun i _ => (hk i).const_mul _).div (Finset.measurable_sum _ fun i _ => (hk i).const_mul _)).comp measurable_fst
  have hw' : ∀ i, w i ≠ ∞ := fun i h => by
    have := Finset.single_le_sum (f := w) (fun _ _ => zero_le) (Finset.mem_univ i)
    rw [hw, h] at this
    simp at this
  have hle : ∀ᵐ e ∂target μ π sim D, tilt w (fun i => geo (μ.withDensity (k i) Sᶜ) inner) k e.1 ≤ ENNReal.ofReal inner := ae_of_all _ fun e => by
    simpa using tilt_le μ w k hK S inner e.1
  have hge : ∀ᵐ e ∂target μ π sim D, 1 ≤ tilt w (fun i => geo (μ.withDensity (k i) Sᶜ) inner) k e.1 := by
    filter_upwards [target_positive μ π hπ sim D] with e he
    exact (tilt_bounds μ w hw' k hk' hK S hS inner hi 0 (fun _ => zero_le) e.1 (reach e.1 he)).1
  have := withDensity_finite (T := target μ π sim D) ENNReal.ofReal_ne_top hle
  exact C182_consistent (withDensity_ne hT hge) (hW.comp measurable_fst) (C137_exact hι μ π hπ w hw k hk hK S hS hsupp sim D hD inner outer ho) _ (hf.comp measurable_fst)
    (withDensity_integrable (by positivity) htm hle hfi).1 ρ e he

include hP in
/-- **C182, how wrong the limit is.** If each particle stays inside the support with probability at least `s` when perturbed, posterior means of a non-negative function converge to a number between `s` times and `1 / s` times its mean under
the ABC posterior. -/
theorem C182_pmcabc_bounds (D : Set Y) (hD : MeasurableSet D) (outer : ℕ) (ho : 0 < outer) (hT : target μ π sim D ≠ 0) (f : X → ℝ) (hf : Measurable f) (hf0 : ∀ x, 0 ≤ f x)
    (hfi : Integrable (fun e => f e.1) (target μ π sim D)) (s : ℝ) (hs : 0 < s) (hsS : ∀ i, ENNReal.ofReal s ≤ μ.withDensity (k i) S) (ρ : Measure Ω) [IsProbabilityMeasure ρ] (e : ℕ → Ω → X × Y)
    (he : Draws ρ (resample w (fun i => μ.withDensity (k i)) S sim D inner outer) e) :
    TendsBetween ρ (fun ω => posteriorMean (fun e => f e.1) (fun e => weight π w k e.1) fun i => e i ω)
      (s * mean (target μ π sim D) fun e => f e.1) (mean (target μ π sim D) (fun e => f e.1) / s) := by
  have : IsFiniteMeasure (target μ π sim D) := by unfold target; infer_instance
  have htm : Measurable fun e : X × Y => tilt w (fun i => geo (μ.withDensity (k i) Sᶜ) inner) k e.1 :=
    ((Finset.measurable_sum _ fun i _ => (hk i).const_mul _).div (Finset.measurable_sum _ fun i _ => (hk i).const_mul _)).comp measurable_fst
  have hw' : ∀ i, w i ≠ ∞ := fun i h => by
    have := Finset.single_le_sum (f := w) (fun _ _ => zero_le) (Finset.mem_univ i)
    rw [hw, h] at this
    simp at this
  have hb : ∀ᵐ e ∂target μ π sim D, 1 ≤ tilt w (fun i => geo (μ.withDensity (k i) Sᶜ) inner) k e.1 ∧ tilt w (fun i => geo (μ.withDensity (k i) Sᶜ) inner) k e.1 ≤ ENNReal.ofReal s⁻¹ := by
    filter_upwards [target_positive μ π hπ sim D] with e he
    rw [ENNReal.ofReal_inv_of_pos hs]
    exact tilt_bounds μ w hw' k hk' hK S hS inner hi _ hsS e.1 (reach e.1 he)
  obtain ⟨a, b⟩ := mean_withDensity hT htm hs (hb.mono fun _ h => h.1) (hb.mono fun _ h => h.2) hfi fun e => hf0 e.1
  exact ⟨_, a, b, C182_pmcabc_exact hι μ π hπ hP w hw k hk hk' hK S hS hsupp reach sim inner hi D hD outer ho hT f hf hfi ρ e he⟩

/-- **C182, the limit for `PMC`, for every prior and population.** Posterior means converge to the mean with respect to likelihood times the square of the prior density, with the additional factor. -/
theorem C182_pmc_exact (lik : X × Y → ℝ≥0∞) (hlik : Measurable lik) (hT : posteriorLaw μ π sim (fun e => π e.1 * lik e) ≠ 0)
    (hT' : IsFiniteMeasure (posteriorLaw μ π sim fun e => π e.1 * lik e)) (f : X → ℝ) (hf : Measurable f) (hfi : Integrable (fun e => f e.1) (posteriorLaw μ π sim fun e => π e.1 * lik e))
    (ρ : Measure Ω) [IsProbabilityMeasure ρ] (e : ℕ → Ω → X × Y) (he : Draws ρ (particle w (fun i => μ.withDensity (k i)) S sim inner) e) :
    Consistent ρ (fun ω => posteriorMean (fun e => f e.1) (likWeight π lik w k) fun i => e i ω) (fun e => f e.1)
      (posteriorLaw μ π sim fun e => π e.1 * lik e * tilt w (fun i => geo (μ.withDensity (k i) Sᶜ) inner) k e.1) := by
  have : IsFiniteMeasure (particle w (fun i => μ.withDensity (k i)) S sim inner) := resample_finite hι w hw (fun i => μ.withDensity (k i)) S hS sim inner
  have hW : Measurable fun e : X × Y => weight π w k e.1 := (show Measurable (weight π w k) from hπ.div (Finset.measurable_sum _ fun i _ => (hk i).const_mul _)).comp measurable_fst
  have hpl : Measurable fun e : X × Y => π e.1 * lik e := (hπ.comp measurable_fst).mul hlik
  have hL : Measurable (likWeight π lik w k) := hW.mul hpl
  have htm : Measurable fun e : X × Y => tilt w (fun i => geo (μ.withDensity (k i) Sᶜ) inner) k e.1 :=
    ((Finset.measurable_sum _ fun i _ => (hk i).const_mul _).div (Finset.measurable_sum _ fun i _ => (hk i).const_mul _)).comp measurable_fst
  have hw' : ∀ i, w i ≠ ∞ := fun i h => by
    have := Finset.single_le_sum (f := w) (fun _ _ => zero_le) (Finset.mem_univ i)
    rw [hw, h] at this
    simp at this
  have hle : ∀ᵐ e ∂posteriorLaw μ π sim (fun e => π e.1 * lik e), tilt w (fun i => geo (μ.withDensity (k i) Sᶜ) inner) k e.1 ≤ ENNReal.ofReal inner := ae_of_all _ fun e => by
    simpa using tilt_le μ w k hK S inner e.1
  have hge : ∀ᵐ e ∂posteriorLaw μ π sim (fun e => π e.1 * lik e), 1 ≤ tilt w (fun i => geo (μ.withDensity (k i) Sᶜ) inner) k e.1 := by
    unfold posteriorLaw
    rw [ae_withDensity_iff hpl]
    refine ae_of_all _ fun e he => ?_
    exact (tilt_bounds μ w hw' k hk' hK S hS inner hi 0 (fun _ => zero_le) e.1 (reach e.1 fun h => he (by rw [h, zero_mul]))).1
  have hfin := withDensity_finite (T := posteriorLaw μ π sim fun e => π e.1 * lik e) ENNReal.ofReal_ne_top hle
  have heq : (posteriorLaw μ π sim fun e => π e.1 * lik e).withDensity (fun e => tilt w (fun i => geo (μ.withDensity (k i) Sᶜ) inner) k e.1) =
      posteriorLaw μ π sim fun e => π e.1 * lik e * tilt w (fun i => geo (μ.withDensity (k i) Sᶜ) inner) k e.1 := by
    unfold posteriorLaw
    rw [← withDensity_mul _ hpl htm]
    rfl
  have h := C182_consistent (T := (posteriorLaw μ π sim fun e => π e.1 * lik e).withDensity fun e => tilt w (fun i => geo (μ.withDensity (k i) Sᶜ) inner) k e.1) (withDensity_ne hT hge) hL
    (by rw [heq]; exact C173_exact hι μ π hπ w k hk hK S hS hsupp sim lik hlik inner) _ (hf.comp measurable_fst) (withDensity_integrable (by positivity) htm hle hfi).1 ρ e he
  rw [heq] at h
  exact h

end

/-! ## Example -/

theorem edge_prior : IsProbabilityMeasure ((count : Measure ℤ).withDensity (uniform 2)) := ⟨by
  rw [withDensity_apply _ MeasurableSet.univ, Measure.restrict_univ, lintegral_count, tsum_eq_sum (s := {0, 1, 2})]
  · rw [Finset.sum_insert (by simp), Finset.sum_pair (by simp), show uniform 2 0 = 1 / 3 by norm_num [uniform], show uniform 2 1 = 1 / 3 by norm_num [uniform], show uniform 2 2 = 1 / 3 by norm_num [uniform],
      ← ENNReal.add_div, ← ENNReal.add_div]
    norm_num
    exact ENNReal.div_self (by simp) (by simp)
  · intro b hb
    by_contra h
    rcases uniform_two h with rfl | rfl | rfl <;> simp at hb⟩

theorem edge_reach (x : ℤ) (hx : uniform 2 x ≠ 0) : ∃ i, half i ≠ 0 ∧ walks i x ≠ 0 := by
  refine ⟨if x = 2 then 1 else 0, by simp [half], ?_⟩
  unfold walks walk
  rcases uniform_two hx with rfl | rfl | rfl <;> simp

theorem edge_stays (i : Fin 2) : ENNReal.ofReal (2 / 3) ≤ (count : Measure ℤ).withDensity (walks i) {x | uniform 2 x ≠ 0} := by
  have hu : ∀ x : ℤ, x = 0 ∨ x = 1 ∨ x = 2 → uniform 2 x ≠ 0 := by
    rintro x (rfl | rfl | rfl) <;> norm_num [uniform]
  have k0 : {x : ℤ | uniform 2 x ≠ 0}.indicator (1 : ℤ → ℝ≥0∞) 0 = 1 := indicator_of_mem (hu 0 (by simp)) _
  have k1 : {x : ℤ | uniform 2 x ≠ 0}.indicator (1 : ℤ → ℝ≥0∞) 1 = 1 := indicator_of_mem (hu 1 (by simp)) _
  unfold walks
  rw [walk_apply, ENNReal.ofReal_div_of_pos (by norm_num), ENNReal.ofReal_ofNat, ENNReal.ofReal_ofNat]
  refine ENNReal.div_le_div_right ?_ _
  rcases Fin.exists_fin_two.1 ⟨i, rfl⟩ with h | h <;> subst h
  · simp only [Fin.val_zero, Nat.cast_zero, zero_add, k0, k1]
    rw [add_assoc]
    exact le_add_left (by norm_num)
  · simp only [Fin.val_one, Nat.cast_one, sub_self, k0, k1]
    exact le_add_right (by norm_num)

/-- The population of `C182_violated`: the prior is uniform on 0, 1, 2, and the particles are 0 and 1 with equal weights. The estimated probability of every set of parameters converges, to a number between 2/3 and 3/2 times its posterior
probability. -/
example (A : Set ℤ) (inner outer : ℕ) (hi : 0 < inner) (ho : 0 < outer) : ∃ (ρ : Measure (ℕ → ℤ × Unit)) (e : ℕ → (ℕ → ℤ × Unit) → ℤ × Unit), IsProbabilityMeasure ρ ∧ Draws ρ (edge inner outer) e ∧
    TendsBetween ρ (fun ω => posteriorMean (fun e => A.indicator 1 e.1) (fun e => weight (uniform 2) half walks e.1) fun i => e i ω)
      (2 / 3 * mean (target count (uniform 2) constant univ) fun e => A.indicator 1 e.1) (mean (target count (uniform 2) constant univ) (fun e => A.indicator 1 e.1) / (2 / 3)) := by
  have := edge_finite inner outer
  have := edge_target_finite
  have hne : edge inner outer ≠ 0 := fun h => edge_mass inner outer hi ho (by rw [h, lintegral_zero_measure])
  obtain ⟨ρ, e, hρ, he⟩ := draws_exist _ hne
  refine ⟨ρ, e, hρ, he, ?_⟩
  refine C182_pmcabc_bounds (fun _ => .of_discrete) count (uniform 2) .of_discrete edge_prior half half_sum walks (fun _ => .of_discrete) walks_ne_top (fun i => walk_prob _) {x | uniform 2 x ≠ 0} .of_discrete (fun x h => h)
    edge_reach constant inner hi univ .univ outer ho edge_target (A.indicator 1) .of_discrete (fun x => indicator_nonneg (fun _ _ => zero_le_one) x) ?_ (2 / 3) (by norm_num) edge_stays ρ e he
  refine Integrable.of_bound (C := 1) (measurable_of_countable _).aestronglyMeasurable (ae_of_all _ fun e => ?_)
  by_cases h : e.1 ∈ A <;> simp [h]

end Verif.Pmc.Averages
