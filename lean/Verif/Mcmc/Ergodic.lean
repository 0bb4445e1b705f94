import Verif.Mcmc.Kernels
import Mathlib.MeasureTheory.Integral.Layercake
import Mathlib.Topology.MetricSpace.Bounded
import Mathlib.Topology.Order.Compact
import Mathlib.Analysis.SpecificLimits.Basic
/-
C172: the chain of `MCMCMetropoliHastings` (inferences.py 4340-4400) forgets where it started. `Verif.Mcmc.Kernels` shows that a step leaves the posterior invariant; here the law of the state after `n` steps is compared with the
posterior. The covariance matrix is fixed (no adaptation, or after the burn-in), the parameter space is bounded and the values are not transformed or transformed with a bounded Jacobian.
-/
namespace Verif.Mcmc

open MeasureTheory Set Filter Matrix
open scoped ENNReal Topology

variable {X : Type} [MeasurableSpace X]

/-! ### Specification -/

/-- The laws of the states of the chain: the first state has law `ν 0`, each next one is obtained by a step of the sampler (inferences.py 4355-4400) from the one before. -/
structure Chain (K : X → Measure X) (pdf L J : X → ℝ) (ν : ℕ → Measure X) : Prop where
  first : ν 0 univ = 1
  next : ∀ n B, MeasurableSet B → ν (n + 1) B = ∫⁻ x, stepLaw K pdf L J x B ∂ν n

/-- The posterior: the density `prior * likelihood / Jacobian` with respect to `μ`, normalised. -/
noncomputable def posterior (μ : Measure X) (pdf L J : X → ℝ) : Measure X := (∫⁻ x, target pdf L J x ∂μ)⁻¹ • μ.withDensity (target pdf L J)

/-! ### Integrals of two laws that are close on all sets -/

theorem lintegral_close {ν π : Measure X} {d : ℝ≥0∞} (h : ∀ B, MeasurableSet B → ν B ≤ π B + d) {g : X → ℝ≥0∞} (hg : Measurable g) {c : ℝ≥0∞} (hc : c ≠ ∞) (hgc : ∀ x, g x ≤ c) :
    ∫⁻ x, g x ∂ν ≤ ∫⁻ x, g x ∂π + c * d := by
  have hfin : ∀ x, g x ≠ ∞ := fun x => ne_top_of_le_ne_top hc (hgc x)
  have e : ∀ m : Measure X, ∫⁻ x, g x ∂m = ∫⁻ t in Ioi (0 : ℝ), m {a | t < (g a).toReal} := by
    intro m
    rw [← lintegral_eq_lintegral_meas_lt m (Eventually.of_forall fun x => ENNReal.toReal_nonneg) hg.ennreal_toReal.aemeasurable]
    exact lintegral_congr fun x => (ENNReal.ofReal_toReal (hfin x)).symm
  rw [e ν, e π]
  have hle : ∀ t ∈ Ioi (0 : ℝ), ν {a | t < (g a).toReal} ≤ π {a | t < (g a).toReal} + (Iio c.toReal).indicator (fun _ => d) t := by
    intro t _
    by_cases ht : t < c.toReal
    · rw [indicator_of_mem (show t ∈ Iio c.toReal from ht)]
      exact h _ (measurableSet_lt measurable_const hg.ennreal_toReal)
    · have : {a | t < (g a).toReal} = ∅ := by
        ext a
        simp only [mem_setOf_eq, mem_empty_iff_false, iff_false, not_lt]
        exact le_trans (ENNReal.toReal_mono hc (hgc a)) (not_lt.1 ht)
      rw [this]
      simp
  refine (setLIntegral_mono' measurableSet_Ioi hle).trans ?_
  rw [lintegral_add_right _ (measurable_const.indicator measurableSet_Iio)]
  refine add_le_add le_rfl ?_
  rw [lintegral_indicator measurableSet_Iio, Measure.restrict_restrict measurableSet_Iio, setLIntegral_const, Iio_inter_Ioi, Real.volume_Ioo, sub_zero, ENNReal.ofReal_toReal hc, mul_comm]

/-- One step of a chain whose law of the next state is at least `ε` times `π`: the distance to `π` shrinks by the factor `1 - ε`. -/
theorem contraction {P : X → Set X → ℝ≥0∞} {S : Set X} (hS : MeasurableSet S) {π ν ν' : Measure X} (hπ : π univ = 1) (hν : ν univ = 1) (hπS : π Sᶜ = 0) (hνS : ν Sᶜ = 0) {ε : ℝ≥0∞} (hε : ε ≤ 1)
    (meas : ∀ B, MeasurableSet B → Measurable fun x => P x B) (total : ∀ x ∈ S, ∀ B, MeasurableSet B → P x B + P x Bᶜ = 1) (low : ∀ x ∈ S, ∀ B, MeasurableSet B → ε * π B ≤ P x B)
    (inv : ∀ B, MeasurableSet B → ∫⁻ x, P x B ∂π = π B) (hν' : ∀ B, MeasurableSet B → ν' B = ∫⁻ x, P x B ∂ν) {d : ℝ≥0∞} (h : ∀ B, MeasurableSet B → ν B ≤ π B + d) :
    ∀ B, MeasurableSet B → ν' B ≤ π B + (1 - ε) * d := by
  intro B hB
  have hπB : ∀ B, π B ≤ 1 := fun B => hπ ▸ measure_mono (subset_univ B)
  have hεfin : ε ≠ ∞ := ne_top_of_le_ne_top ENNReal.one_ne_top hε
  have hefin : ∀ B, ε * π B ≠ ∞ := fun B => ENNReal.mul_ne_top hεfin (ne_top_of_le_ne_top ENNReal.one_ne_top (hπB B))
  set g : X → ℝ≥0∞ := S.indicator fun x => P x B - ε * π B with hg
  have mg : Measurable g := ((meas B hB).sub measurable_const).indicator hS
  have hsplit : ε * π B + ε * π Bᶜ = ε := by
    rw [← mul_add, measure_add_measure_compl hB, hπ, mul_one]
  have gle : ∀ x, g x ≤ 1 - ε := by
    intro x
    by_cases hx : x ∈ S
    · rw [hg, indicator_of_mem hx]
      have t := total x hx B hB
      have l := low x hx Bᶜ hB.compl
      refine ENNReal.le_sub_of_add_le_right hεfin ?_
      calc P x B - ε * π B + ε = P x B - ε * π B + ε * π B + ε * π Bᶜ := by rw [add_assoc, hsplit]
        _ = P x B + ε * π Bᶜ := by rw [tsub_add_cancel_of_le (low x hx B hB)]
        _ ≤ P x B + P x Bᶜ := add_le_add le_rfl l
        _ = 1 := t
    · rw [hg, indicator_of_notMem hx]
      exact zero_le
  have eq : ∀ m : Measure X, m univ = 1 → m Sᶜ = 0 → ∫⁻ x, P x B ∂m = ∫⁻ x, g x ∂m + ε * π B := by
    intro m hm hmS
    have : ∫⁻ x, P x B ∂m = ∫⁻ x, (g x + ε * π B) ∂m := by
      refine lintegral_congr_ae ?_
      have hae : ∀ᵐ x ∂m, x ∈ S := by
        rw [ae_iff]
        exact hmS
      filter_upwards [hae] with x hx
      rw [hg, indicator_of_mem hx, tsub_add_cancel_of_le (low x hx B hB)]
    rw [this, lintegral_add_right _ measurable_const, lintegral_const, hm, mul_one]
  calc ν' B = ∫⁻ x, g x ∂ν + ε * π B := by rw [hν' B hB, eq ν hν hνS]
    _ ≤ (∫⁻ x, g x ∂π + (1 - ε) * d) + ε * π B := add_le_add (lintegral_close h mg (ne_top_of_le_ne_top ENNReal.one_ne_top tsub_le_self) gle) le_rfl
    _ = (∫⁻ x, g x ∂π + ε * π B) + (1 - ε) * d := by ring
    _ = π B + (1 - ε) * d := by rw [← eq π hπ hπS, inv B hB]

/-! ### The steps of the sampler -/

theorem moveProb_le_one (pdf L J : X → ℝ) (x y : X) : moveProb pdf L J x y ≤ 1 := by
  rw [moveProb_eq]
  split_ifs
  · exact zero_le
  · exact le_rfl
  · rw [← ENNReal.ofReal_one]
    exact ENNReal.ofReal_le_ofReal (min_le_left _ _)

theorem step_total {K : X → Measure X} (hK : ∀ x, K x univ = 1) (pdf L J : X → ℝ) (x : X) {B : Set X} (hB : MeasurableSet B) : stepLaw K pdf L J x B + stepLaw K pdf L J x Bᶜ = 1 := by
  have hle : ∫⁻ y, moveProb pdf L J x y ∂(K x) ≤ 1 := by
    calc ∫⁻ y, moveProb pdf L J x y ∂(K x) ≤ ∫⁻ _, 1 ∂(K x) := lintegral_mono fun y => moveProb_le_one pdf L J x y
      _ = 1 := by rw [lintegral_one, hK]
  have hsum := lintegral_add_compl (μ := K x) (fun y => moveProb pdf L J x y) hB
  unfold stepLaw
  by_cases hx : x ∈ B
  · rw [indicator_of_mem hx, indicator_of_notMem (by simpa using hx), add_zero, add_right_comm, hsum]
    exact add_tsub_cancel_of_le hle
  · rw [indicator_of_notMem hx, indicator_of_mem (by simpa using hx), add_zero, ← add_assoc, hsum]
    exact add_tsub_cancel_of_le hle

theorem target_pos {pdf L J : X → ℝ} (h0 : ∀ x, 0 ≤ pdf x) {x : X} : target pdf L J x ≠ 0 ↔ pdf x ≠ 0 := by
  unfold target
  constructor
  · intro h hx
    simp [hx] at h
  · intro h
    have : 0 < pdf x := lt_of_le_of_ne (h0 x) (Ne.symm h)
    rw [ne_eq, ENNReal.ofReal_eq_zero, not_le]
    positivity

/-- The probability of a move is at least the target at the proposed point, divided by a bound of the target. -/
theorem moveProb_low {pdf L J : X → ℝ} (h0 : ∀ x, 0 ≤ pdf x) {T : ℝ≥0∞} (hT : ∀ x, target pdf L J x ≤ T) (hT' : T ≠ ∞) {x : X} (hx : pdf x ≠ 0) (y : X) :
    target pdf L J y / T ≤ moveProb pdf L J x y := by
  have hT0 : T ≠ 0 := fun e => (target_pos (L := L) (J := J) h0).2 hx (le_zero_iff.1 (e ▸ hT x))
  rw [moveProb_eq]
  split_ifs with hy
  · have : target pdf L J y = 0 := by
      by_contra h
      exact (target_pos h0).1 h hy
    simp [this]
  · have px : 0 < pdf x := lt_of_le_of_ne (h0 x) (Ne.symm hx)
    have py : 0 < pdf y := lt_of_le_of_ne (h0 y) (Ne.symm hy)
    have ea : alpha (J x) (J y) (L y) (L x) (pdf y) (pdf x) = (pdf y * Real.exp (L y) / Real.exp (J y)) / (pdf x * Real.exp (L x) / Real.exp (J x)) := by
      unfold alpha
      rw [show J x - J y + L y - L x = J x + L y - (J y + L x) by ring, Real.exp_sub, Real.exp_add, Real.exp_add]
      field_simp
    rw [ENNReal.ofReal_min, le_min_iff, ENNReal.ofReal_one, ea, ENNReal.ofReal_div_of_pos (by positivity)]
    constructor
    · exact ENNReal.div_le_of_le_mul (by rw [one_mul]; exact hT y)
    · exact ENNReal.div_le_div le_rfl (hT x)

theorem measurable_step {μ : Measure X} [SFinite μ] {K : X → Measure X} {q : X → X → ℝ≥0∞} (h : Symmetric μ K q) {pdf L J : X → ℝ} (m1 : Measurable pdf) (m2 : Measurable L) (m3 : Measurable J)
    {B : Set X} (hB : MeasurableSet B) : Measurable fun x => stepLaw K pdf L J x B := by
  simp only [fun x => step_eq h m1 m2 m3 x hB, transition]
  have mm : Measurable (Function.uncurry fun x y => q x y * moveProb pdf L J x y) := h.meas.mul (measurable_moveProb m1 m2 m3)
  refine Measurable.add mm.lintegral_prod_right ?_
  exact (measurable_const.sub mm.lintegral_prod_right).indicator hB

/-! ### Properties -/

/-- **C166, every state of the chain.** A chain with one of the symmetric kernels that starts in the posterior stays there: every state has the law of the posterior. -/
theorem C166_chain {μ : Measure X} [SFinite μ] {K : X → Measure X} {q : X → X → ℝ≥0∞} (h : Symmetric μ K q) {pdf L J : X → ℝ} (h0 : ∀ x, 0 ≤ pdf x) (m1 : Measurable pdf) (m2 : Measurable L)
    (m3 : Measurable J) {ν : ℕ → Measure X} (hν : Chain K pdf L J ν) (hstart : ν 0 = posterior μ pdf L J) (n : ℕ) : ν n = posterior μ pdf L J := by
  induction n with
  | zero => exact hstart
  | succ n ih =>
    ext B hB
    rw [hν.next n B hB, ih, posterior, lintegral_smul_measure, lintegral_withDensity_eq_lintegral_mul _ (measurable_target m1 m2 m3) (measurable_step h m1 m2 m3 hB), Measure.smul_apply,
      withDensity_apply _ hB]
    congr 1
    exact h.reliable pdf L J h0 m1 m2 m3 B hB

/-- **C172.** The kernel has a symmetric density that is at least `δ > 0` between any two points where the prior density is not zero, and `prior * likelihood / Jacobian` is bounded by `T` and not zero
everywhere. Then the total mass of the posterior density is finite and there is `ρ < 1` such that, wherever the chain starts among the points with positive prior density, the probability that the state after `n` steps lies in a set
differs from its posterior probability by at most `ρ ^ n`. -/
theorem C172_chain {μ : Measure X} [SFinite μ] {K : X → Measure X} {q : X → X → ℝ≥0∞} (h : Symmetric μ K q) {pdf L J : X → ℝ} (h0 : ∀ x, 0 ≤ pdf x) (m1 : Measurable pdf) (m2 : Measurable L)
    (m3 : Measurable J) {δ T : ℝ≥0∞} (hδ0 : δ ≠ 0) (hδ : ∀ x y, pdf x ≠ 0 → pdf y ≠ 0 → δ ≤ q x y) (hT' : T ≠ ∞) (hT : ∀ x, target pdf L J x ≤ T) (hZ : ∫⁻ x, target pdf L J x ∂μ ≠ 0) :
    ∫⁻ x, target pdf L J x ∂μ ≠ ∞ ∧ ∃ ρ : ℝ, 0 ≤ ρ ∧ ρ < 1 ∧ ∀ ν : ℕ → Measure X, Chain K pdf L J ν → ν 0 {x | pdf x = 0} = 0 →
      ∀ n B, MeasurableSet B → |(ν n B).toReal - (posterior μ pdf L J B).toReal| ≤ ρ ^ n := by
  have mt : Measurable (target pdf L J) := measurable_target m1 m2 m3
  set Z := ∫⁻ x, target pdf L J x ∂μ with hZdef
  set S : Set X := {x | pdf x ≠ 0} with hSdef
  have hS : MeasurableSet S := (measurableSet_eq_fun m1 measurable_const).compl
  have hSc : Sᶜ = {x | pdf x = 0} := by ext x; simp [hSdef]
  obtain ⟨x0, hx0⟩ : ∃ x, pdf x ≠ 0 := by
    by_contra hno
    push Not at hno
    apply hZ
    rw [hZdef, show target pdf L J = fun _ => 0 from funext fun x => by simp [target, hno x], lintegral_zero]
  have hT0 : T ≠ 0 := fun e => (target_pos (L := L) (J := J) h0).2 hx0 (le_zero_iff.1 (e ▸ hT x0))
  -- the minorisation
  have key : ∀ x ∈ S, ∀ B, MeasurableSet B → (δ / T) * ∫⁻ y in B, target pdf L J y ∂μ ≤ stepLaw K pdf L J x B := by
    intro x hx B hB
    rw [step_eq h m1 m2 m3 x hB, transition, ← lintegral_const_mul _ mt]
    refine le_trans (lintegral_mono fun y => ?_) (le_add_right le_rfl)
    by_cases hy : pdf y = 0
    · simp [target, hy]
    · calc δ / T * target pdf L J y = δ * (target pdf L J y / T) := by rw [div_eq_mul_inv, div_eq_mul_inv]; ring
        _ ≤ q x y * moveProb pdf L J x y := mul_le_mul' (hδ x y hx hy) (moveProb_low h0 hT hT' hx y)
  have step1 : ∀ x B, MeasurableSet B → stepLaw K pdf L J x B ≤ 1 := fun x B hB => (step_total h.one pdf L J x hB) ▸ le_add_right le_rfl
  have hεle : δ / T * Z ≤ 1 := by
    have := key x0 hx0 univ MeasurableSet.univ
    rw [Measure.restrict_univ] at this
    exact this.trans (step1 x0 univ MeasurableSet.univ)
  have hδT : δ / T ≠ 0 := (ENNReal.div_pos hδ0 hT').ne'
  have hZfin : Z ≠ ∞ := by
    intro e
    rw [e, ENNReal.mul_top hδT] at hεle
    exact absurd hεle (by simp)
  refine ⟨hZfin, ?_⟩
  set ε := δ / T * Z with hε
  have hε0 : ε ≠ 0 := mul_ne_zero hδT hZ
  have hεfin : ε ≠ ∞ := ne_top_of_le_ne_top ENNReal.one_ne_top hεle
  have postB : ∀ B, MeasurableSet B → posterior μ pdf L J B = Z⁻¹ * ∫⁻ y in B, target pdf L J y ∂μ := by
    intro B hB
    rw [posterior, Measure.smul_apply, withDensity_apply _ hB, smul_eq_mul]
  set π := posterior μ pdf L J with hπdef
  have hπ1 : π univ = 1 := by
    rw [postB _ MeasurableSet.univ, Measure.restrict_univ]
    exact ENNReal.inv_mul_cancel hZ hZfin
  have hπS : π Sᶜ = 0 := by
    rw [postB _ hS.compl]
    have : ∫⁻ y in Sᶜ, target pdf L J y ∂μ = 0 := by
      rw [setLIntegral_congr_fun (g := fun _ => 0) hS.compl fun y hy => ?_]
      · simp
      · have : pdf y = 0 := by simpa [hSdef] using hy
        simp [target, this]
    rw [this, mul_zero]
  have low : ∀ x ∈ S, ∀ B, MeasurableSet B → ε * π B ≤ stepLaw K pdf L J x B := by
    intro x hx B hB
    rw [postB B hB, hε, show δ / T * Z * (Z⁻¹ * ∫⁻ y in B, target pdf L J y ∂μ) = δ / T * (Z * Z⁻¹) * ∫⁻ y in B, target pdf L J y ∂μ by ring, ENNReal.mul_inv_cancel hZ hZfin, mul_one]
    exact key x hx B hB
  have inv : ∀ B, MeasurableSet B → ∫⁻ x, stepLaw K pdf L J x B ∂π = π B := by
    intro B hB
    rw [postB B hB, hπdef, posterior, lintegral_smul_measure, lintegral_withDensity_eq_lintegral_mul _ mt (measurable_step h m1 m2 m3 hB), smul_eq_mul]
    congr 1
    exact h.reliable pdf L J h0 m1 m2 m3 B hB
  refine ⟨(1 - ε).toReal, ENNReal.toReal_nonneg, ?_, ?_⟩
  · rw [← ENNReal.toReal_one]
    refine (ENNReal.toReal_lt_toReal (ne_top_of_le_ne_top ENNReal.one_ne_top tsub_le_self) ENNReal.one_ne_top).2 ?_
    exact ENNReal.sub_lt_self ENNReal.one_ne_top one_ne_zero hε0
  · intro ν hν hstart
    have basic : ∀ n, ν n univ = 1 ∧ ν n Sᶜ = 0 := by
      intro n
      induction n with
      | zero => exact ⟨hν.first, hSc ▸ hstart⟩
      | succ n ih =>
        constructor
        · rw [hν.next n _ MeasurableSet.univ]
          have : ∀ x, stepLaw K pdf L J x univ = 1 := by
            intro x
            have := step_total h.one pdf L J x MeasurableSet.univ
            simpa [stepLaw] using this
          simp only [this, lintegral_one, ih.1]
        · rw [hν.next n _ hS.compl]
          have hae : ∀ᵐ x ∂ν n, stepLaw K pdf L J x Sᶜ = 0 := by
            have : ∀ᵐ x ∂ν n, x ∈ S := by
              rw [ae_iff]
              exact ih.2
            filter_upwards [this] with x hx
            rw [stepLaw, indicator_of_notMem (by simpa using hx), add_zero]
            rw [setLIntegral_congr_fun (g := fun _ => 0) hS.compl fun y hy => ?_]
            · simp
            · have : pdf y = 0 := by simpa [hSdef] using hy
              rw [moveProb_eq, if_pos this]
          rw [lintegral_congr_ae hae, lintegral_zero]
    have bound : ∀ n B, MeasurableSet B → ν n B ≤ π B + (1 - ε) ^ n := by
      intro n
      induction n with
      | zero =>
        intro B _
        rw [pow_zero]
        exact le_add_left ((measure_mono (subset_univ B)).trans hν.first.le)
      | succ n ih =>
        intro B hB
        rw [pow_succ']
        exact contraction hS hπ1 (basic n).1 hπS (basic n).2 hεle (fun B hB => measurable_step h m1 m2 m3 hB) (fun x _ B hB => step_total h.one pdf L J x hB) low inv (hν.next n) ih B hB
    intro n B hB
    have hp : (1 - ε) ^ n ≠ ∞ := ENNReal.pow_ne_top (ne_top_of_le_ne_top ENNReal.one_ne_top tsub_le_self)
    have finπ : ∀ B, π B ≠ ∞ := fun B => ne_top_of_le_ne_top ENNReal.one_ne_top (hπ1 ▸ measure_mono (subset_univ B))
    have finν : ∀ B, ν n B ≠ ∞ := fun B => ne_top_of_le_ne_top ENNReal.one_ne_top ((basic n).1 ▸ measure_mono (subset_univ B))
    have r : ∀ B, MeasurableSet B → (ν n B).toReal ≤ (π B).toReal + (1 - ε).toReal ^ n := by
      intro B hB
      rw [← ENNReal.toReal_pow, ← ENNReal.toReal_add (finπ B) hp]
      exact ENNReal.toReal_mono (ENNReal.add_ne_top.2 ⟨finπ B, hp⟩) (bound n B hB)
    have c1 : (π B).toReal + (π Bᶜ).toReal = 1 := by
      rw [← ENNReal.toReal_add (finπ _) (finπ _), measure_add_measure_compl hB, hπ1, ENNReal.toReal_one]
    have c2 : (ν n B).toReal + (ν n Bᶜ).toReal = 1 := by
      rw [← ENNReal.toReal_add (finν _) (finν _), measure_add_measure_compl hB, (basic n).1, ENNReal.toReal_one]
    rw [abs_le]
    constructor
    · have := r Bᶜ hB.compl
      linarith
    · have := r B hB
      linarith

/-- A chain exists from every law of the first state. -/
theorem chain_exists {μ : Measure X} [SFinite μ] {K : X → Measure X} {q : X → X → ℝ≥0∞} (h : Symmetric μ K q) {pdf L J : X → ℝ} (m1 : Measurable pdf) (m2 : Measurable L) (m3 : Measurable J)
    (ν0 : Measure X) (h1 : ν0 univ = 1) : ∃ ν, ν 0 = ν0 ∧ Chain K pdf L J ν := by
  set f : X → Measure X := fun x => (K x).withDensity (moveProb pdf L J x) + (1 - ∫⁻ y, moveProb pdf L J x y ∂(K x)) • Measure.dirac x with hf
  have fB : ∀ x B, MeasurableSet B → f x B = stepLaw K pdf L J x B := by
    intro x B hB
    rw [hf, stepLaw]
    simp only [Measure.add_apply, Measure.smul_apply, smul_eq_mul]
    rw [withDensity_apply _ hB, Measure.dirac_apply' _ hB]
    congr 1
    by_cases hx : x ∈ B
    · simp [hx]
    · simp [hx]
  have mf : Measurable f := by
    refine Measure.measurable_of_measurable_coe _ fun B hB => ?_
    simp only [fun x => fB x B hB]
    exact measurable_step h m1 m2 m3 hB
  refine ⟨fun n => Nat.rec ν0 (fun _ m => m.bind f) n, rfl, h1, fun n B hB => ?_⟩
  change Measure.bind _ f B = _
  rw [Measure.bind_apply hB mf.aemeasurable]
  exact lintegral_congr fun x => fB x B hB

/-! ### Normal and Student kernels -/

variable {dim : ℕ}

/-- A positive continuous function of two points is bounded below on a bounded set. -/
theorem low_of_bounded {f : (Fin dim → ℝ) → (Fin dim → ℝ) → ℝ} (hf : Continuous (Function.uncurry f)) (hpos : ∀ x y, 0 < f x y) {S : Set (Fin dim → ℝ)} (hS : Bornology.IsBounded S) :
    ∃ δ : ℝ, 0 < δ ∧ ∀ x ∈ S, ∀ y ∈ S, δ ≤ f x y := by
  have hc : IsCompact (closure S ×ˢ closure S) := hS.isCompact_closure.prod hS.isCompact_closure
  rcases S.eq_empty_or_nonempty with h | ⟨x0, h0⟩
  · exact ⟨1, one_pos, fun x hx => by simp [h] at hx⟩
  · obtain ⟨p, _, hp⟩ := hc.exists_isMinOn ⟨(x0, x0), subset_closure h0, subset_closure h0⟩ hf.continuousOn
    exact ⟨f p.1 p.2, hpos _ _, fun x hx y hy => hp (a := (x, y)) ⟨subset_closure hx, subset_closure hy⟩⟩

/-- The sampler with kernel `K` forgets where it started: for every prior with bounded support and every likelihood and Jacobian for which `prior * likelihood / Jacobian` is bounded and not zero almost everywhere. -/
def Forgets (K : (Fin dim → ℝ) → Measure (Fin dim → ℝ)) : Prop :=
  ∀ pdf L J : (Fin dim → ℝ) → ℝ, (∀ x, 0 ≤ pdf x) → Measurable pdf → Measurable L → Measurable J → Bornology.IsBounded {x | pdf x ≠ 0} →
    (∃ M, ∀ x, pdf x * Real.exp (L x) / Real.exp (J x) ≤ M) → ∫⁻ x, target pdf L J x ≠ 0 →
    ∃ ρ : ℝ, 0 ≤ ρ ∧ ρ < 1 ∧ ∀ x0, pdf x0 ≠ 0 → (∃ ν, ν 0 = Measure.dirac x0 ∧ Chain K pdf L J ν) ∧
      ∀ ν, ν 0 = Measure.dirac x0 → Chain K pdf L J ν → ∀ n B, MeasurableSet B → |(ν n B).toReal - (posterior volume pdf L J B).toReal| ≤ ρ ^ n

theorem forgets_of_density {K : (Fin dim → ℝ) → Measure (Fin dim → ℝ)} {f : (Fin dim → ℝ) → (Fin dim → ℝ) → ℝ} (h : Symmetric volume K (fun x y => ENNReal.ofReal (f x y)))
    (hf : Continuous (Function.uncurry f)) (hpos : ∀ x y, 0 < f x y) : Forgets K := by
  intro pdf L J h0 m1 m2 m3 hb hM hZ
  obtain ⟨M, hM⟩ := hM
  obtain ⟨δ, hδ, hlow⟩ := low_of_bounded hf hpos hb
  obtain ⟨_, ρ, r0, r1, hr⟩ := C172_chain h h0 m1 m2 m3 (δ := ENNReal.ofReal δ) (T := ENNReal.ofReal M) (by simpa using hδ) (fun x y hx hy => ENNReal.ofReal_le_ofReal (hlow x hx y hy)) ENNReal.ofReal_ne_top
    (fun x => ENNReal.ofReal_le_ofReal (hM x)) hZ
  refine ⟨ρ, r0, r1, fun x0 hx0 => ⟨chain_exists h m1 m2 m3 _ (by simp), fun ν e hν => hr ν hν ?_⟩⟩
  have hS : MeasurableSet {x | pdf x = 0} := measurableSet_eq_fun m1 measurable_const
  rw [e, Measure.dirac_apply' _ hS]
  simp [hx0]

theorem continuous_normalPdf {c : Matrix (Fin dim) (Fin dim) ℝ} (cond : ℝ) (e : Kernel.Eigh c) : Continuous (Function.uncurry (Kernel.normalPdf cond e)) := by
  unfold Function.uncurry Kernel.normalPdf
  simp only [Matrix.vecMul, dotProduct, Pi.sub_apply]
  fun_prop

/-- **C172, normal kernel.** For every symmetric positive definite covariance matrix. -/
theorem C172_normal {c : Matrix (Fin dim) (Fin dim) ℝ} (hc : c.PosDef) (hs : c.IsSymm) (e : Kernel.Eigh c) (d : Densities.Svd c) : Forgets (Kernel.normalLaw d) :=
  forgets_of_density (normal_symmetric hc hs e d) (continuous_normalPdf 0 e) fun _ _ => Real.exp_pos _

theorem student_base {c : Matrix (Fin dim) (Fin dim) ℝ} (hc : c.PosDef) {v : ℝ} (hv : 0 < v) (z : Fin dim → ℝ) : 0 < 1 + 1 / v * (z ᵥ* c⁻¹ ⬝ᵥ z) := by
  have h := hc.inv.posSemidef.dotProduct_mulVec_nonneg z
  rw [star_trivial, Matrix.dotProduct_mulVec] at h
  positivity

theorem student_pos {c : Matrix (Fin dim) (Fin dim) ℝ} (hc : c.PosDef) {v : ℝ} (hv : 0 < v) (x y : Fin dim → ℝ) : 0 < Kernel.studentPdf c v x y := by
  have hd := hc.det_pos
  unfold Kernel.studentPdf
  refine mul_pos (div_pos (Real.Gamma_pos_of_pos (by positivity)) ?_) (Real.rpow_pos_of_pos (student_base hc hv _) _)
  have h1 : 0 < Real.Gamma (v / 2) := Real.Gamma_pos_of_pos (by positivity)
  have h2 : 0 < √|c.det| := Real.sqrt_pos.2 (abs_pos.2 hd.ne')
  positivity

theorem continuous_studentPdf {c : Matrix (Fin dim) (Fin dim) ℝ} (hc : c.PosDef) {v : ℝ} (hv : 0 < v) : Continuous (Function.uncurry (Kernel.studentPdf c v)) := by
  unfold Function.uncurry Kernel.studentPdf
  refine continuous_const.mul (Continuous.rpow_const ?_ fun p => Or.inl (student_base hc hv _).ne')
  simp only [Matrix.vecMul, dotProduct, Pi.sub_apply]
  fun_prop

/-- **C172, Student kernel.** For every symmetric positive definite matrix and every finite positive number of degrees of freedom. -/
theorem C172_student {c : Matrix (Fin dim) (Fin dim) ℝ} (hc : c.PosDef) (hs : c.IsSymm) (e : Kernel.Eigh c) (d : Densities.Svd c) (df : ℝ) (hdf : 0 < df) : Forgets (Kernel.studentLaw d df) :=
  forgets_of_density (symmetric_of_density (fun x => Kernel.C136_student hc hs df hdf d x) (measurable_studentPdf c df) fun x y => (Kernel.C136_symmetric 0 e df x y).2) (continuous_studentPdf hc hdf)
    (student_pos hc hdf)

/-- **C172, samples.** If the probabilities of the states differ from those of `π` by at most `ρ ^ n`, the expected fraction of the `N` states after `b` states of burn-in that lie in a set differs from the probability of the set by at
most `ρ ^ b / ((1 - ρ) N)`. -/
theorem C172_fraction {ν : ℕ → Measure X} {π : Measure X} {ρ : ℝ} (h0 : 0 ≤ ρ) (h1 : ρ < 1) {B : Set X} (h : ∀ n, |(ν n B).toReal - (π B).toReal| ≤ ρ ^ n) (b : ℕ) {N : ℕ} (hN : 0 < N) :
    |(∑ i ∈ Finset.range N, (ν (b + i) B).toReal) / N - (π B).toReal| ≤ ρ ^ b / ((1 - ρ) * N) := by
  have hN' : (0 : ℝ) < N := by exact_mod_cast hN
  have hr : 0 < 1 - ρ := by linarith
  have e : (∑ i ∈ Finset.range N, (ν (b + i) B).toReal) / N - (π B).toReal = (∑ i ∈ Finset.range N, ((ν (b + i) B).toReal - (π B).toReal)) / N := by
    rw [Finset.sum_sub_distrib, Finset.sum_const, Finset.card_range, nsmul_eq_mul]
    field_simp
  rw [e, abs_div, abs_of_pos hN', ← div_div]
  refine div_le_div_of_nonneg_right ?_ hN'.le
  refine (Finset.abs_sum_le_sum_abs _ _).trans ((Finset.sum_le_sum fun i _ => h (b + i)).trans ?_)
  simp only [pow_add, ← Finset.mul_sum]
  rw [div_eq_mul_inv]
  refine mul_le_mul_of_nonneg_left ?_ (pow_nonneg h0 b)
  have hg := geom_sum_eq h1.ne N
  rw [hg, ← neg_div_neg_eq, neg_sub, neg_sub, ← one_div]
  refine div_le_div_of_nonneg_right ?_ hr.le
  have := pow_nonneg h0 N
  linarith

/-- The hypotheses are met: one parameter, uniform prior on `[0, 1]`, likelihood `exp x`, no transformation. -/
example {c : Matrix (Fin 1) (Fin 1) ℝ} (hc : c.PosDef) (hs : c.IsSymm) (e : Kernel.Eigh c) (d : Densities.Svd c) :
    ∃ ρ : ℝ, 0 ≤ ρ ∧ ρ < 1 ∧ ∀ ν, ν 0 = Measure.dirac (fun _ => 1 / 2) →
      Chain (Kernel.normalLaw d) ((Set.pi univ fun _ => Icc (0 : ℝ) 1).indicator fun _ => 1) (fun x => x 0) (fun _ => 0) ν →
      ∀ n B, MeasurableSet B → |(ν n B).toReal - (posterior volume ((Set.pi univ fun _ => Icc (0 : ℝ) 1).indicator fun _ => 1) (fun x => x 0) (fun _ => 0) B).toReal| ≤ ρ ^ n := by
  set S : Set (Fin 1 → ℝ) := Set.pi univ fun _ => Icc (0 : ℝ) 1 with hS
  have mS : MeasurableSet S := MeasurableSet.univ_pi fun _ => measurableSet_Icc
  have hsupp : {x | S.indicator (fun _ => (1 : ℝ)) x ≠ 0} = S := by
    ext x
    by_cases hx : x ∈ S <;> simp [hx]
  obtain ⟨ρ, r0, r1, h⟩ := C172_normal hc hs e d (S.indicator fun _ => 1) (fun x => x 0) (fun _ => 0) (fun x => indicator_nonneg (fun _ _ => zero_le_one) x) (measurable_const.indicator mS)
    (measurable_pi_apply 0) measurable_const (by rw [hsupp]; exact Bornology.IsBounded.pi fun _ => Metric.isBounded_Icc 0 1) ⟨Real.exp 1, fun x => by
      by_cases hx : x ∈ S
      · have : x 0 ≤ 1 := (hx 0 (mem_univ _)).2
        simpa [hx] using this
      · simpa [hx] using (Real.exp_pos 1).le⟩ (by
      intro hz
      rw [lintegral_eq_zero_iff (measurable_target (measurable_const.indicator mS) (measurable_pi_apply 0) measurable_const)] at hz
      have hv : volume S = 0 := by
        refine measure_mono_null (fun x hx => ?_) (ae_iff.1 hz)
        simp only [mem_setOf_eq, Pi.zero_apply]
        refine (target_pos fun x => indicator_nonneg (fun _ _ => zero_le_one) x).2 ?_
        simp [hx]
      rw [hS, volume_pi_pi] at hv
      simp at hv)
  have hhalf : (fun _ => 1 / 2 : Fin 1 → ℝ) ∈ S := fun i _ => ⟨by norm_num, by norm_num⟩
  exact ⟨ρ, r0, r1, fun ν e hν => (h _ (by rw [indicator_of_mem hhalf]; exact one_ne_zero)).2 ν e hν⟩

/-! ### Estimated likelihoods -/

section Noisy

variable {Z : Type} [MeasurableSpace Z]

/-- The density of the posterior in which the likelihood is the mean of the estimates: `z` is the randomness of an estimate (simulated data included), with law `noise`. -/
noncomputable def meanTarget (noise : Measure Z) (pdf J : X → ℝ) (L : X × Z → ℝ) (x : X) : ℝ≥0∞ := ENNReal.ofReal (pdf x / Real.exp (J x)) * ∫⁻ z, ENNReal.ofReal (Real.exp (L (x, z))) ∂noise

theorem noise_symmetric (noise : Measure Z) [IsProbabilityMeasure noise] : Symmetric noise (fun _ : Z => noise) (fun _ _ => 1) where
  meas := measurable_const
  symm _ _ := rfl
  dens _ := (withDensity_one).symm
  one _ := measure_univ

theorem meanTarget_eq (noise : Measure Z) [IsProbabilityMeasure noise] (μ : Measure X) [SFinite μ] {pdf J : X → ℝ} {L : X × Z → ℝ} (h0 : ∀ x, 0 ≤ pdf x) (m1 : Measurable pdf) (m2 : Measurable L)
    (m3 : Measurable J) {B : Set X} (_ : MeasurableSet B) :
    ∫⁻ p in B ×ˢ univ, target (fun p => pdf p.1) L (fun p => J p.1) p ∂(μ.prod noise) = ∫⁻ x in B, meanTarget noise pdf J L x ∂μ := by
  have mt : Measurable (target (fun p : X × Z => pdf p.1) L (fun p => J p.1)) := measurable_target (m1.comp measurable_fst) m2 (m3.comp measurable_fst)
  rw [setLIntegral_prod _ mt.aemeasurable.restrict]
  refine lintegral_congr fun x => ?_
  rw [meanTarget, Measure.restrict_univ, ← lintegral_const_mul _ (by fun_prop)]
  refine lintegral_congr fun z => ?_
  rw [target, ← ENNReal.ofReal_mul (by have := h0 x; positivity)]
  congr 1
  ring

/-- **C172, estimated likelihoods.** The likelihood of a proposal is estimated from simulated data; the sampler keeps the estimate of the current state (lines 4374-4400). States are pairs of parameters and randomness of the estimate.
With the kernels of C172 and bounded estimates the parameters of the state after `n` steps approach, geometrically and from every start, the posterior in which the likelihood is the mean of the estimates. -/
theorem C172_noisy {K : (Fin dim → ℝ) → Measure (Fin dim → ℝ)} {f : (Fin dim → ℝ) → (Fin dim → ℝ) → ℝ} (h : Symmetric volume K (fun x y => ENNReal.ofReal (f x y)))
    (hf : Continuous (Function.uncurry f)) (hpos : ∀ x y, 0 < f x y) (noise : Measure Z) [IsProbabilityMeasure noise] (pdf J : (Fin dim → ℝ) → ℝ) (L : (Fin dim → ℝ) × Z → ℝ) (h0 : ∀ x, 0 ≤ pdf x)
    (m1 : Measurable pdf) (m2 : Measurable L) (m3 : Measurable J) (hb : Bornology.IsBounded {x | pdf x ≠ 0}) (hM : ∃ M, ∀ x z, pdf x * Real.exp (L (x, z)) / Real.exp (J x) ≤ M)
    (hZ : ∫⁻ x, meanTarget noise pdf J L x ≠ 0) :
    ∃ ρ : ℝ, 0 ≤ ρ ∧ ρ < 1 ∧ ∀ x0 z0, pdf x0 ≠ 0 →
      (∃ ν, ν 0 = Measure.dirac (x0, z0) ∧ Chain (jointLaw K fun _ => noise) (fun p => pdf p.1) L (fun p => J p.1) ν) ∧
      ∀ ν, ν 0 = Measure.dirac (x0, z0) → Chain (jointLaw K fun _ => noise) (fun p => pdf p.1) L (fun p => J p.1) ν →
        ∀ n B, MeasurableSet B → |(ν n (B ×ˢ univ)).toReal - ((∫⁻ x in B, meanTarget noise pdf J L x) / ∫⁻ x, meanTarget noise pdf J L x).toReal| ≤ ρ ^ n := by
  obtain ⟨M, hM⟩ := hM
  obtain ⟨δ, hδ, hlow⟩ := low_of_bounded hf hpos hb
  have hS := h.prod (noise_symmetric noise)
  have k1 : Measurable fun p : (Fin dim → ℝ) × Z => pdf p.1 := m1.comp measurable_fst
  have k3 : Measurable fun p : (Fin dim → ℝ) × Z => J p.1 := m3.comp measurable_fst
  have tot : ∫⁻ p, target (fun p => pdf p.1) L (fun p => J p.1) p ∂((volume : Measure (Fin dim → ℝ)).prod noise) = ∫⁻ x, meanTarget noise pdf J L x := by
    have := meanTarget_eq noise (volume : Measure (Fin dim → ℝ)) h0 m1 m2 m3 MeasurableSet.univ
    rwa [univ_prod_univ, Measure.restrict_univ, Measure.restrict_univ] at this
  obtain ⟨_, ρ, r0, r1, hr⟩ := C172_chain hS (fun p => h0 p.1) k1 m2 k3 (δ := ENNReal.ofReal δ) (T := ENNReal.ofReal M) (by simpa using hδ)
    (fun x y hx hy => by rw [mul_one]; exact ENNReal.ofReal_le_ofReal (hlow _ hx _ hy)) ENNReal.ofReal_ne_top (fun p => ENNReal.ofReal_le_ofReal (hM p.1 p.2)) (by rw [tot]; exact hZ)
  refine ⟨ρ, r0, r1, fun x0 z0 hx0 => ⟨chain_exists hS k1 m2 k3 _ (by simp), fun ν e hν n B hB => ?_⟩⟩
  have := hr ν hν (by
    have hm : MeasurableSet {p : (Fin dim → ℝ) × Z | pdf p.1 = 0} := measurableSet_eq_fun k1 measurable_const
    rw [e, Measure.dirac_apply' _ hm]
    simp [hx0]) n (B ×ˢ univ) (hB.prod MeasurableSet.univ)
  rwa [posterior, Measure.smul_apply, withDensity_apply _ (hB.prod MeasurableSet.univ), meanTarget_eq noise _ h0 m1 m2 m3 hB, tot, smul_eq_mul, mul_comm, ← div_eq_mul_inv] at this

/-- For the normal and the Student kernel. -/
theorem C172_noisy_kernels {c : Matrix (Fin dim) (Fin dim) ℝ} (hc : c.PosDef) (hs : c.IsSymm) (e : Kernel.Eigh c) (d : Densities.Svd c) (df : ℝ) (hdf : 0 < df)
    (K : (Fin dim → ℝ) → Measure (Fin dim → ℝ)) (hK : K = Kernel.normalLaw d ∨ K = Kernel.studentLaw d df) (noise : Measure Z) [IsProbabilityMeasure noise] (pdf J : (Fin dim → ℝ) → ℝ)
    (L : (Fin dim → ℝ) × Z → ℝ) (h0 : ∀ x, 0 ≤ pdf x) (m1 : Measurable pdf) (m2 : Measurable L) (m3 : Measurable J) (hb : Bornology.IsBounded {x | pdf x ≠ 0})
    (hM : ∃ M, ∀ x z, pdf x * Real.exp (L (x, z)) / Real.exp (J x) ≤ M) (hZ : ∫⁻ x, meanTarget noise pdf J L x ≠ 0) :
    ∃ ρ : ℝ, 0 ≤ ρ ∧ ρ < 1 ∧ ∀ x0 z0, pdf x0 ≠ 0 →
      (∃ ν, ν 0 = Measure.dirac (x0, z0) ∧ Chain (jointLaw K fun _ => noise) (fun p => pdf p.1) L (fun p => J p.1) ν) ∧
      ∀ ν, ν 0 = Measure.dirac (x0, z0) → Chain (jointLaw K fun _ => noise) (fun p => pdf p.1) L (fun p => J p.1) ν →
        ∀ n B, MeasurableSet B → |(ν n (B ×ˢ univ)).toReal - ((∫⁻ x in B, meanTarget noise pdf J L x) / ∫⁻ x, meanTarget noise pdf J L x).toReal| ≤ ρ ^ n := by
  rcases hK with rfl | rfl
  · exact C172_noisy (normal_symmetric hc hs e d) (continuous_normalPdf 0 e) (fun _ _ => Real.exp_pos _) noise pdf J L h0 m1 m2 m3 hb hM hZ
  · exact C172_noisy (symmetric_of_density (fun x => Kernel.C136_student hc hs df hdf d x) (measurable_studentPdf c df) fun x y => (Kernel.C136_symmetric 0 e df x y).2) (continuous_studentPdf hc hdf)
      (student_pos hc hdf) noise pdf J L h0 m1 m2 m3 hb hM hZ

end Noisy

end Verif.Mcmc
