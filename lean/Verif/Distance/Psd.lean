import Mathlib.Analysis.InnerProductSpace.PiL2
import Mathlib.Analysis.SpecialFunctions.Exponential
import Mathlib.Analysis.SpecialFunctions.ImproperIntegrals
import Mathlib.MeasureTheory.Integral.IntegralEqImproper
import Mathlib.Analysis.SpecialFunctions.Integrals.Basic

/-!
Positive definiteness of the Gaussian kernel and negative type of powers of the Euclidean distance,
for points of a Euclidean space. Pure mathematics, no model of code here.
-/

namespace Verif.Distance

open MeasureTheory Set

variable {d : Nat} {ι : Type} [Fintype ι]

/-- The quadratic form of a function of two points. -/
def form {E : Type} (k : E → E → ℝ) (x : ι → E) (c : ι → ℝ) : ℝ := ∑ i, ∑ j, c i * c j * k (x i) (x j)

theorem inner_pow_form (n : Nat) (x : ι → EuclideanSpace ℝ (Fin d)) (c : ι → ℝ) :
    0 ≤ form (fun a b => (inner ℝ a b : ℝ) ^ n) x c := by
  have h : form (fun a b => (inner ℝ a b : ℝ) ^ n) x c
      = ∑ p : Fin n → Fin d, (∑ i, c i * ∏ l, x i (p l)) ^ 2 := by
    rw [form]
    have e : ∀ i j, c i * c j * (inner ℝ (x i) (x j) : ℝ) ^ n
        = ∑ p : Fin n → Fin d, (c i * ∏ l, x i (p l)) * (c j * ∏ l, x j (p l)) := by
      intro i j
      have : (inner ℝ (x i) (x j) : ℝ) = ∑ l, x i l * x j l := by
        simp [PiLp.inner_apply, mul_comm]
      rw [this, Fintype.sum_pow, Finset.mul_sum]
      refine Finset.sum_congr rfl fun p _ => ?_
      rw [Finset.prod_mul_distrib]; ring
    simp only [e]
    have e2 : ∀ i, (∑ j, ∑ p : Fin n → Fin d, (c i * ∏ l, x i (p l)) * (c j * ∏ l, x j (p l)))
        = ∑ p : Fin n → Fin d, ∑ j, (c i * ∏ l, x i (p l)) * (c j * ∏ l, x j (p l)) :=
      fun i => Finset.sum_comm
    simp only [e2]
    rw [Finset.sum_comm]
    refine Finset.sum_congr rfl fun p _ => ?_
    rw [pow_two, Finset.sum_mul_sum]
  rw [h]
  exact Finset.sum_nonneg fun _ _ => sq_nonneg _

theorem exp_inner_form (t : ℝ) (ht : 0 ≤ t) (x : ι → EuclideanSpace ℝ (Fin d)) (c : ι → ℝ) :
    0 ≤ form (fun a b => Real.exp (t * inner ℝ a b)) x c := by
  have hs : HasSum (fun n : Nat => t ^ n / n.factorial * form (fun a b => (inner ℝ a b : ℝ) ^ n) x c)
      (form (fun a b => Real.exp (t * inner ℝ a b)) x c) := by
    have h1 : ∀ i j, HasSum (fun n : Nat => c i * c j * ((t * inner ℝ (x i) (x j)) ^ n / n.factorial))
        (c i * c j * Real.exp (t * inner ℝ (x i) (x j))) := by
      intro i j
      apply HasSum.mul_left
      have := NormedSpace.expSeries_div_hasSum_exp (𝔸 := ℝ) (t * inner ℝ (x i) (x j))
      rwa [← Real.exp_eq_exp_ℝ] at this
    have h2 := hasSum_sum (s := Finset.univ) fun i _ => hasSum_sum (s := Finset.univ) fun j _ => h1 i j
    rw [form]
    refine h2.congr_fun ?_
    intro n
    rw [form, Finset.mul_sum]
    refine Finset.sum_congr rfl fun i _ => ?_
    rw [Finset.mul_sum]
    refine Finset.sum_congr rfl fun j _ => ?_
    rw [mul_pow]; ring
  exact hs.nonneg fun n => mul_nonneg (by positivity) (inner_pow_form n x c)

theorem gaussian_form (t : ℝ) (ht : 0 ≤ t) (x : ι → EuclideanSpace ℝ (Fin d)) (c : ι → ℝ) :
    0 ≤ form (fun a b => Real.exp (-(t * dist a b ^ 2))) x c := by
  have h := exp_inner_form (2 * t) (by positivity) x (fun i => c i * Real.exp (-(t * ‖x i‖ ^ 2)))
  have e : form (fun a b => Real.exp (-(t * dist a b ^ 2))) x c =
      form (fun a b => Real.exp (2 * t * inner ℝ a b)) x (fun i => c i * Real.exp (-(t * ‖x i‖ ^ 2))) := by
    rw [form, form]
    refine Finset.sum_congr rfl fun i _ => Finset.sum_congr rfl fun j _ => ?_
    have : Real.exp (-(t * dist (x i) (x j) ^ 2)) = Real.exp (-(t * ‖x i‖ ^ 2)) * Real.exp (-(t * ‖x j‖ ^ 2))
        * Real.exp (2 * t * inner ℝ (x i) (x j)) := by
      rw [← Real.exp_add, ← Real.exp_add, dist_eq_norm, norm_sub_sq_real]
      congr 1; ring
    rw [this]; ring
  rw [e]; exact h

/-! Powers of the distance. -/

/-- The integrand of `a ^ s = const * ∫ (1 - exp (-(t a))) t ^ (-1 - s) dt`. -/
noncomputable def integrand (s a t : ℝ) : ℝ := (1 - Real.exp (-(t * a))) * t ^ (-1 - s)

theorem integrand_integrable (s a : ℝ) (h0 : 0 < s) (h1 : s < 1) (ha : 0 ≤ a) :
    IntegrableOn (integrand s a) (Ioi 0) := by
  have meas : ∀ A : Set ℝ, MeasurableSet A → A ⊆ Ioi 0 → AEStronglyMeasurable (integrand s a) (volume.restrict A) := by
    intro A hA hsub
    apply ContinuousOn.aestronglyMeasurable _ hA
    apply ContinuousOn.mul
    · fun_prop
    · intro t ht
      exact (Real.continuousAt_rpow_const t _ (.inl (ne_of_gt (hsub ht)))).continuousWithinAt
  have hsplit : Ioi (0 : ℝ) = Ioc 0 1 ∪ Ioi 1 := (Ioc_union_Ioi_eq_Ioi zero_le_one).symm
  rw [hsplit]
  apply IntegrableOn.union
  · have hi : IntegrableOn (fun t : ℝ => a * t ^ (-s)) (Ioc 0 1) := by
      apply Integrable.const_mul
      exact (intervalIntegrable_iff_integrableOn_Ioc_of_le zero_le_one).1
        (intervalIntegral.intervalIntegrable_rpow' (by linarith))
    refine Integrable.mono' hi (meas _ measurableSet_Ioc Ioc_subset_Ioi_self) ?_
    refine (ae_restrict_mem measurableSet_Ioc).mono fun t ht => ?_
    have ht0 : 0 < t := ht.1
    have h2 : 1 - Real.exp (-(t * a)) ≤ t * a := by linarith [Real.add_one_le_exp (-(t * a))]
    have h3 : 0 ≤ 1 - Real.exp (-(t * a)) := by
      have : Real.exp (-(t * a)) ≤ 1 := Real.exp_le_one_iff.2 (by nlinarith [mul_nonneg ht0.le ha])
      linarith
    have h4 : t ^ (-s) = t * t ^ (-1 - s) := by
      rw [← Real.rpow_one_add' ht0.le (by linarith)]; congr 1; ring
    rw [integrand, Real.norm_eq_abs, abs_of_nonneg (mul_nonneg h3 (Real.rpow_nonneg ht0.le _)), h4]
    nlinarith [mul_le_mul_of_nonneg_right h2 (Real.rpow_nonneg ht0.le (-1 - s))]
  · have hi : IntegrableOn (fun t : ℝ => t ^ (-1 - s)) (Ioi 1) := integrableOn_Ioi_rpow_of_lt (by linarith) one_pos
    refine Integrable.mono' hi (meas _ measurableSet_Ioi (Ioi_subset_Ioi zero_le_one)) ?_
    refine (ae_restrict_mem measurableSet_Ioi).mono fun t ht => ?_
    have ht0 : 0 < t := lt_trans one_pos ht
    have h3 : 0 ≤ 1 - Real.exp (-(t * a)) := by
      have : Real.exp (-(t * a)) ≤ 1 := Real.exp_le_one_iff.2 (by nlinarith [mul_nonneg ht0.le ha])
      linarith
    have h5 : 1 - Real.exp (-(t * a)) ≤ 1 := by linarith [Real.exp_pos (-(t * a))]
    rw [integrand, Real.norm_eq_abs, abs_of_nonneg (mul_nonneg h3 (Real.rpow_nonneg ht0.le _))]
    nlinarith [mul_le_mul_of_nonneg_right h5 (Real.rpow_nonneg ht0.le (-1 - s))]

theorem integrand_integral (s a : ℝ) (h0 : 0 < s) (ha : 0 ≤ a) :
    ∫ t in Ioi 0, integrand s a t = a ^ s * ∫ t in Ioi 0, integrand s 1 t := by
  rcases ha.eq_or_lt with rfl | ha
  · simp [integrand, Real.zero_rpow h0.ne']
  have h := integral_comp_mul_left_Ioi (integrand s 1) 0 ha
  have e : ∀ t ∈ Ioi (0 : ℝ), integrand s 1 (a * t) = a ^ (-1 - s) * integrand s a t := by
    intro t ht
    rw [integrand, integrand, Real.mul_rpow ha.le (le_of_lt ht)]
    rw [mul_one, mul_comm a t]; ring
  rw [setIntegral_congr_fun measurableSet_Ioi e, integral_const_mul, mul_zero, smul_eq_mul] at h
  have h2 : a ^ (1 + s) * a ^ (-1 - s) = 1 := by
    rw [← Real.rpow_add ha]; simp
  have h3 : a ^ s = a ^ (1 + s) * a⁻¹ := by
    rw [← Real.rpow_neg_one, ← Real.rpow_add ha]; congr 1; ring
  calc ∫ t in Ioi 0, integrand s a t
      = a ^ (1 + s) * (a ^ (-1 - s) * ∫ t in Ioi 0, integrand s a t) := by rw [← mul_assoc, h2, one_mul]
    _ = a ^ s * ∫ t in Ioi 0, integrand s 1 t := by rw [h, h3]; ring

theorem integrand_pos (s : ℝ) (h0 : 0 < s) (h1 : s < 1) : 0 < ∫ t in Ioi 0, integrand s 1 t := by
  have hpos : ∀ t ∈ Ioi (0 : ℝ), 0 < integrand s 1 t := by
    intro t ht
    have : Real.exp (-(t * 1)) < 1 := Real.exp_lt_one_iff.2 (by simpa using ht)
    exact mul_pos (by linarith) (Real.rpow_pos_of_pos ht _)
  rw [setIntegral_pos_iff_support_of_nonneg_ae
    ((ae_restrict_mem measurableSet_Ioi).mono fun t ht => (hpos t ht).le) (integrand_integrable s 1 h0 h1 zero_le_one)]
  have : Function.support (integrand s 1) ∩ Ioi 0 = Ioi 0 := by
    apply inter_eq_right.2
    intro t ht
    exact (hpos t ht).ne'
  rw [this]
  simp

/-- Powers of the distance are of negative type. -/
theorem dist_form (β : ℝ) (h0 : 0 < β) (h2 : β ≤ 2) (x : ι → EuclideanSpace ℝ (Fin d)) (c : ι → ℝ)
    (hc : ∑ i, c i = 0) : form (fun a b => dist a b ^ β) x c ≤ 0 := by
  have hcc : ∑ i, ∑ j, c i * c j = 0 := by rw [← Finset.sum_mul_sum, hc, zero_mul]
  rcases h2.eq_or_lt with rfl | h2
  · have e : form (fun a b => dist a b ^ (2 : ℝ)) x c = -2 * form (fun a b => (inner ℝ a b : ℝ) ^ 1) x c := by
      have e1 : ∀ i j, c i * c j * dist (x i) (x j) ^ (2 : ℝ)
          = c j * (c i * ‖x i‖ ^ 2) + (c i * (c j * ‖x j‖ ^ 2)) - 2 * (c i * c j * (inner ℝ (x i) (x j) : ℝ) ^ 1) := by
        intro i j
        rw [Real.rpow_two, dist_eq_norm, norm_sub_sq_real]; ring
      simp only [form, e1, Finset.sum_sub_distrib, Finset.sum_add_distrib, ← Finset.mul_sum, ← Finset.sum_mul, hc]
      simp
    rw [e]
    have := inner_pow_form 1 x c
    linarith
  · set s := β / 2 with hs
    have hs0 : 0 < s := by rw [hs]; linarith
    have hs1 : s < 1 := by rw [hs]; linarith
    have hC := integrand_pos s hs0 hs1
    have key : form (fun a b => dist a b ^ β) x c * ∫ t in Ioi 0, integrand s 1 t
        = ∫ t in Ioi 0, (-(form (fun a b => Real.exp (-(t * dist a b ^ 2))) x c) * t ^ (-1 - s)) := by
      have e1 : ∀ i j, dist (x i) (x j) ^ β * ∫ t in Ioi 0, integrand s 1 t
          = ∫ t in Ioi 0, integrand s (dist (x i) (x j) ^ 2) t := by
        intro i j
        rw [integrand_integral s _ hs0 (sq_nonneg _), ← Real.rpow_natCast, ← Real.rpow_mul dist_nonneg]
        congr 2; rw [hs]; push_cast; ring
      have e2 : ∀ t, -(form (fun a b => Real.exp (-(t * dist a b ^ 2))) x c) * t ^ (-1 - s)
          = ∑ i, ∑ j, c i * c j * integrand s (dist (x i) (x j) ^ 2) t := by
        intro t
        have : ∀ i j, c i * c j * integrand s (dist (x i) (x j) ^ 2) t
            = c i * c j * t ^ (-1 - s) - c i * c j * Real.exp (-(t * dist (x i) (x j) ^ 2)) * t ^ (-1 - s) := by
          intro i j; rw [integrand]; ring
        simp only [this, Finset.sum_sub_distrib, ← Finset.sum_mul, hcc, form]
        ring
      simp only [e2]
      rw [integral_finset_sum _ fun i _ => integrable_finset_sum _ fun j _ =>
        (integrand_integrable s _ hs0 hs1 (sq_nonneg _)).const_mul _]
      rw [form, Finset.sum_mul]
      refine Finset.sum_congr rfl fun i _ => ?_
      rw [integral_finset_sum _ fun j _ => (integrand_integrable s _ hs0 hs1 (sq_nonneg _)).const_mul _, Finset.sum_mul]
      refine Finset.sum_congr rfl fun j _ => ?_
      rw [integral_const_mul, mul_assoc, e1]
    have hle : form (fun a b => dist a b ^ β) x c * ∫ t in Ioi 0, integrand s 1 t ≤ 0 := by
      rw [key]
      refine setIntegral_nonpos measurableSet_Ioi fun t ht => ?_
      have h1 := gaussian_form t (le_of_lt ht) x c
      have h2 := Real.rpow_nonneg (le_of_lt ht) (-1 - s)
      nlinarith [mul_nonneg h1 h2]
    by_contra hcon
    push_neg at hcon
    linarith [mul_pos hcon hC]

end Verif.Distance
