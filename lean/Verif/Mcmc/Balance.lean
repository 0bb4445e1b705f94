import Verif.Mcmc.Resume
import Verif.Transform.Jacobian
import Mathlib.MeasureTheory.Measure.Lebesgue.Basic
import Mathlib.MeasureTheory.Measure.Prod
import Mathlib.MeasureTheory.Function.SpecialFunctions.Basic
/-
C53: detailed balance of the Metropolis-Hastings step and invariance of the target.
-/
namespace Verif.Mcmc

open MeasureTheory Set
open scoped ENNReal

variable {X : Type}

/-- The target density on the transformed space at the point `x`: prior density times likelihood, divided by the Jacobian of the transformation at `x`. `L` is the log-likelihood, `J` the log
Jacobian. -/
noncomputable def target (pdf L J : X → ℝ) (x : X) : ℝ≥0∞ := ENNReal.ofReal (pdf x * Real.exp (L x) / Real.exp (J x))

/-- The probability that the sampler at `x` moves when `y` is proposed, `u` being uniform on `[0, 1)`: lines 4369-4394. -/
noncomputable def moveProb (pdf L J : X → ℝ) (x y : X) : ℝ≥0∞ :=
  volume {u : ℝ | u ∈ Ico (0 : ℝ) 1 ∧ pdf y ≠ 0 ∧ accepts u (J x) (J y) (L y) (L x) (pdf y) (pdf x) = true}

theorem volume_below (a : ℝ) : volume {u : ℝ | u ∈ Ico (0 : ℝ) 1 ∧ u < a} = ENNReal.ofReal (min 1 a) := by
  have : {u : ℝ | u ∈ Ico (0 : ℝ) 1 ∧ u < a} = Ico 0 (min 1 a) := by
    ext u; simp only [mem_setOf_eq, mem_Ico, lt_min_iff]; tauto
  rw [this, Real.volume_Ico, sub_zero]

/-- The closed form of the probability. -/
theorem moveProb_eq (pdf L J : X → ℝ) (x y : X) : moveProb pdf L J x y =
    if pdf y = 0 then 0 else if pdf x = 0 then 1 else ENNReal.ofReal (min 1 (alpha (J x) (J y) (L y) (L x) (pdf y) (pdf x))) := by
  unfold moveProb accepts
  by_cases hy : pdf y = 0
  · simp [hy]
  · by_cases hx : pdf x = 0
    · simp only [hx, hy, ne_eq, not_false_eq_true, true_and, if_true, if_false, and_true]
      change volume (Ico (0 : ℝ) 1) = 1
      rw [Real.volume_Ico]; simp
    · simp only [hx, hy, ne_eq, not_false_eq_true, true_and, if_false, decide_eq_true_eq]
      exact volume_below _

/-- **C53, detailed balance.** For every two points, prior density that is not negative, log-likelihood and log Jacobian: target at `x` times the probability of the move from `x` to
`y` is target at `y` times the probability of the move from `y` to `x`. -/
theorem C53_balance (pdf L J : X → ℝ) (h0 : ∀ x, 0 ≤ pdf x) (x y : X) :
    target pdf L J x * moveProb pdf L J x y = target pdf L J y * moveProb pdf L J y x := by
  rw [moveProb_eq, moveProb_eq]
  by_cases hx : pdf x = 0
  · simp [hx, target]
  · by_cases hy : pdf y = 0
    · simp [hy, target]
    · simp only [hx, hy, if_false]
      have px : 0 < pdf x := lt_of_le_of_ne (h0 x) (Ne.symm hx)
      have py : 0 < pdf y := lt_of_le_of_ne (h0 y) (Ne.symm hy)
      have tx : 0 ≤ pdf x * Real.exp (L x) / Real.exp (J x) := by positivity
      have ty : 0 ≤ pdf y * Real.exp (L y) / Real.exp (J y) := by positivity
      rw [target, target, ← ENNReal.ofReal_mul tx, ← ENNReal.ofReal_mul ty]
      congr 1
      have e1 : pdf x * Real.exp (L x) / Real.exp (J x) * alpha (J x) (J y) (L y) (L x) (pdf y) (pdf x) = pdf y * Real.exp (L y) / Real.exp (J y) := by
        unfold alpha
        rw [show J x - J y + L y - L x = J x + L y - (J y + L x) by ring, Real.exp_sub, Real.exp_add, Real.exp_add]
        field_simp
      have e2 : pdf y * Real.exp (L y) / Real.exp (J y) * alpha (J y) (J x) (L x) (L y) (pdf x) (pdf y) = pdf x * Real.exp (L x) / Real.exp (J x) := by
        unfold alpha
        rw [show J y - J x + L x - L y = J y + L x - (J x + L y) by ring, Real.exp_sub, Real.exp_add, Real.exp_add]
        field_simp
      rw [mul_min_of_nonneg _ _ tx, mul_min_of_nonneg _ _ ty, e1, e2, mul_one, mul_one, min_comm]

/-- A pair of points where the moves have probabilities one and one half. -/
example : moveProb (fun x : Bool => if x then 1 else 1 / 2) (fun _ => 0) (fun _ => 0) true false = ENNReal.ofReal (1 / 2) ∧
    moveProb (fun x : Bool => if x then 1 else 1 / 2) (fun _ => 0) (fun _ => 0) false true = 1 := by
  constructor <;> rw [moveProb_eq] <;> norm_num [alpha]

/-! ### Invariance -/

variable [MeasurableSpace X]

theorem measurable_moveProb {pdf L J : X → ℝ} (m1 : Measurable pdf) (m2 : Measurable L) (m3 : Measurable J) :
    Measurable (Function.uncurry (moveProb pdf L J)) := by
  have e : Function.uncurry (moveProb pdf L J) = fun p : X × X => if pdf p.2 = 0 then 0 else if pdf p.1 = 0 then 1 else
      ENNReal.ofReal (min 1 (alpha (J p.1) (J p.2) (L p.2) (L p.1) (pdf p.2) (pdf p.1))) := by
    funext p; exact moveProb_eq pdf L J p.1 p.2
  rw [e]
  have s2 : MeasurableSet {p : X × X | pdf p.2 = 0} := measurableSet_eq_fun (m1.comp measurable_snd) measurable_const
  have s1 : MeasurableSet {p : X × X | pdf p.1 = 0} := measurableSet_eq_fun (m1.comp measurable_fst) measurable_const
  refine Measurable.ite s2 measurable_const (Measurable.ite s1 measurable_const ?_)
  refine ENNReal.measurable_ofReal.comp (measurable_const.min ?_)
  unfold alpha
  fun_prop

theorem measurable_target {pdf L J : X → ℝ} (m1 : Measurable pdf) (m2 : Measurable L) (m3 : Measurable J) : Measurable (target pdf L J) := by
  unfold target
  fun_prop

/-- The transition probability of one step of the sampler from `x` into `B`: propose `y` with density `q x y`, move with probability `moveProb`, stay otherwise. -/
noncomputable def transition (μ : Measure X) (q : X → X → ℝ≥0∞) (pdf L J : X → ℝ) (x : X) (B : Set X) : ℝ≥0∞ :=
  (∫⁻ y in B, q x y * moveProb pdf L J x y ∂μ) + B.indicator (fun x => 1 - ∫⁻ y, q x y * moveProb pdf L J x y ∂μ) x

/-- **C53, invariance.** If the proposal on the transformed space is symmetric and a probability density, one step of the sampler leaves the target invariant: the measure of every set
after a step is its measure before. -/
theorem C53_invariant (μ : Measure X) [SFinite μ] (q : X → X → ℝ≥0∞) (hq : Measurable (Function.uncurry q)) (hsym : ∀ x y, q x y = q y x)
    (h1 : ∀ x, ∫⁻ y, q x y ∂μ = 1) (pdf L J : X → ℝ) (h0 : ∀ x, 0 ≤ pdf x) (m1 : Measurable pdf) (m2 : Measurable L) (m3 : Measurable J)
    (B : Set X) (hB : MeasurableSet B) :
    ∫⁻ x, target pdf L J x * transition μ q pdf L J x B ∂μ = ∫⁻ x in B, target pdf L J x ∂μ := by
  have mt := measurable_target m1 m2 m3
  have mm := measurable_moveProb m1 m2 m3
  have mk : Measurable (Function.uncurry fun x y => q x y * moveProb pdf L J x y) := hq.mul mm
  have mr : Measurable fun x => ∫⁻ y, q x y * moveProb pdf L J x y ∂μ := mk.lintegral_prod_right
  have mrB : Measurable fun x => ∫⁻ y in B, q x y * moveProb pdf L J x y ∂μ := mk.lintegral_prod_right
  have hle : ∀ x y, moveProb pdf L J x y ≤ 1 := by
    intro x y
    rw [moveProb_eq]
    split_ifs
    · exact zero_le
    · exact le_refl _
    · exact ENNReal.ofReal_le_one.2 (min_le_left _ _)
  have hr : ∀ x, ∫⁻ y, q x y * moveProb pdf L J x y ∂μ ≤ 1 := by
    intro x
    rw [← h1 x]
    exact lintegral_mono fun y => (mul_le_mul_right (hle x y) _).trans (by rw [mul_one])
  have hflow : ∫⁻ x, target pdf L J x * ∫⁻ y in B, q x y * moveProb pdf L J x y ∂μ ∂μ = ∫⁻ y in B, target pdf L J y * ∫⁻ x, q y x * moveProb pdf L J y x ∂μ ∂μ := by
    have a1 : ∀ x, target pdf L J x * ∫⁻ y in B, q x y * moveProb pdf L J x y ∂μ = ∫⁻ y in B, q x y * (target pdf L J x * moveProb pdf L J x y) ∂μ := by
      intro x
      rw [← lintegral_const_mul _ (show Measurable fun y => q x y * moveProb pdf L J x y from mk.comp measurable_prodMk_left)]
      exact lintegral_congr fun y => by ring
    have a2 : ∀ y, target pdf L J y * ∫⁻ x, q y x * moveProb pdf L J y x ∂μ = ∫⁻ x, q x y * (target pdf L J x * moveProb pdf L J x y) ∂μ := by
      intro y
      rw [← lintegral_const_mul _ (show Measurable fun x => q y x * moveProb pdf L J y x from mk.comp measurable_prodMk_left)]
      exact lintegral_congr fun x => by rw [C53_balance pdf L J h0 x y, hsym x y]; ring
    simp only [a1, a2]
    refine lintegral_lintegral_swap ?_
    exact (hq.mul ((mt.comp measurable_fst).mul mm)).aemeasurable
  have hstay : ∀ x, target pdf L J x * B.indicator (fun x => 1 - ∫⁻ y, q x y * moveProb pdf L J x y ∂μ) x =
      B.indicator (fun x => target pdf L J x * (1 - ∫⁻ y, q x y * moveProb pdf L J x y ∂μ)) x := by
    intro x
    by_cases hx : x ∈ B
    · simp [hx]
    · simp [hx]
  unfold transition
  simp only [mul_add, hstay]
  rw [lintegral_add_left (show Measurable fun x => target pdf L J x * ∫⁻ y in B, q x y * moveProb pdf L J x y ∂μ from mt.mul mrB), hflow,
    lintegral_indicator hB, ← lintegral_add_left (show Measurable fun x => target pdf L J x * ∫⁻ y, q x y * moveProb pdf L J x y ∂μ from mt.mul mr)]
  refine lintegral_congr fun x => ?_
  rw [← mul_add, add_tsub_cancel_of_le (hr x), mul_one]

/-- **C53 with estimated likelihoods.** The sampler uses for the current state the estimate made when it was proposed. If `z` is the randomness of an estimate, with distribution `ν`, the chain of
pairs (state, randomness) leaves invariant the density prior times estimated likelihood over Jacobian; its marginal is the posterior if the estimate is unbiased. -/
theorem C53_pseudo_marginal {Z : Type} [MeasurableSpace Z] (μ : Measure X) [SFinite μ] (ν : Measure Z) [IsProbabilityMeasure ν] (q : X → X → ℝ≥0∞)
    (hq : Measurable (Function.uncurry q)) (hsym : ∀ x y, q x y = q y x) (h1 : ∀ x, ∫⁻ y, q x y ∂μ = 1) (pdf J : X → ℝ) (L : X × Z → ℝ) (h0 : ∀ x, 0 ≤ pdf x)
    (m1 : Measurable pdf) (m2 : Measurable L) (m3 : Measurable J) (B : Set (X × Z)) (hB : MeasurableSet B) :
    ∫⁻ p, target (fun p => pdf p.1) L (fun p => J p.1) p * transition (μ.prod ν) (fun p p' => q p.1 p'.1) (fun p => pdf p.1) L (fun p => J p.1) p B ∂(μ.prod ν) =
      ∫⁻ p in B, target (fun p => pdf p.1) L (fun p => J p.1) p ∂(μ.prod ν) := by
  refine C53_invariant (μ.prod ν) (fun p p' => q p.1 p'.1) ?_ (fun x y => hsym _ _) ?_ _ L _ (fun x => h0 _) (m1.comp measurable_fst) m2 (m3.comp measurable_fst) B hB
  · exact hq.comp ((measurable_fst.comp measurable_fst).prodMk (measurable_fst.comp measurable_snd))
  · intro p
    have mq : Measurable fun y : X × Z => q p.1 y.1 := hq.comp (measurable_const.prodMk measurable_fst)
    rw [lintegral_prod _ mq.aemeasurable]
    simpa using h1 p.1

/-- The hypotheses on the proposal are met: on two points with counting measure, the proposal that picks either with probability one half. -/
example : (∀ x : Bool, ∫⁻ _y : Bool, (1 / 2 : ℝ≥0∞) ∂Measure.count = 1) ∧ (∀ x y : Bool, (fun _ _ : Bool => (1 / 2 : ℝ≥0∞)) x y = (fun _ _ => 1 / 2) y x) := by
  refine ⟨fun x => ?_, fun _ _ => rfl⟩
  rw [lintegral_const, Measure.count_univ]
  simp [ENat.card_eq_coe_fintype_card]
  exact ENNReal.inv_mul_cancel (by norm_num) (by norm_num)

/-! ### With bounds -/

open Transform in
/-- **C53, the Jacobian is the right one.** With the transformer of C55 the target above is, at every point inside the bounds, the density of the transformed variable: the product of prior
density and likelihood, divided by the determinant of the derivative of `transform`. -/
theorem C53_bounded (f32 : ℝ → ℝ) (bs : List Bound) (hb : ∀ b ∈ bs, Proper f32 b) (h2 : 2 ≤ bs.length) (pdf L J : (Fin bs.length → ℝ) → ℝ)
    (v : Fin bs.length → ℝ) (hv : ∀ i, Inside bs[i] (v i)) (hJ : jac f32 bs (List.ofFn fun i => .real (v i)) = .ok (J v)) :
    ∃ D : (Fin bs.length → ℝ) →L[ℝ] (Fin bs.length → ℝ), HasFDerivAt (out f32 bs) D v ∧
      target pdf L J v = ENNReal.ofReal (pdf v * Real.exp (L v) / |LinearMap.det (D : (Fin bs.length → ℝ) →ₗ[ℝ] (Fin bs.length → ℝ))|) := by
  obtain ⟨D, d1, d2, d3⟩ := C56_partial f32 bs hb h2 v hv
  refine ⟨D, d1, ?_⟩
  rw [d3] at hJ
  have : J v = Real.log (LinearMap.det (D : (Fin bs.length → ℝ) →ₗ[ℝ] (Fin bs.length → ℝ))) := by
    injection hJ with h; exact h.symm
  rw [target, this, Real.exp_log d2, abs_of_pos d2]

end Verif.Mcmc
