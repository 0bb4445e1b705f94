import Verif.Mcmc.Ergodic
import Mathlib.Probability.Kernel.Composition.IntegralCompProd
import Mathlib.Probability.Kernel.Composition.MeasureComp
import Mathlib.MeasureTheory.Integral.Lebesgue.Markov
/-
C174: averages over the samples of `MCMCMetropoliHastings` (inferences.py 4340-4440). After the burn-in each step appends the state to the samples (lines 4363, 4400-4403), whose weights are equal (line 4437); so the mean of a function over the
journal is the mean over the states of the chain. `Verif.Mcmc.Ergodic` has the law of each state; here the law of the sum over all of them.
-/
namespace Verif.Mcmc

open MeasureTheory Set Filter ProbabilityTheory
open scoped ENNReal

variable {X : Type} [MeasurableSpace X]

/-! ### Model -/

/-- The law of the state after one step from `x` (inferences.py 4355-4400). -/
noncomputable def stepMeasure (K : X → Measure X) (pdf L J : X → ℝ) (x : X) : Measure X :=
  (K x).withDensity (moveProb pdf L J x) + (1 - ∫⁻ y, moveProb pdf L J x y ∂(K x)) • Measure.dirac x

/-- The joint law of the state and of the sum of `f` over the samples stored so far: `m` is the law of the state at the end of the burn-in; each step draws the next state and adds its value. -/
noncomputable def record (P : X → Measure X) (f : X → ℝ) (m : Measure X) : ℕ → Measure (X × ℝ)
  | 0 => m.map fun x => (x, 0)
  | n + 1 => (record P f m n).bind fun p => (P p.1).map fun y => (y, p.2 + f y)

/-! ### Sums along a Markov chain -/

section Sums

variable (P : Kernel X X) [IsMarkovKernel P] {f : X → ℝ} (hf : Measurable f)

theorem measurable_zero : Measurable fun x : X => (x, (0 : ℝ)) := measurable_id.prodMk measurable_const

include hf in
theorem measurable_add (s : ℝ) : Measurable fun y => (y, s + f y) := measurable_id.prodMk (measurable_const.add hf)

include hf in
theorem measurable_next : Measurable fun p : X × ℝ => (P p.1).map fun y => (y, p.2 + f y) := by
  refine Measure.measurable_of_measurable_coe _ fun A hA => ?_
  have hg : ∀ p : X × ℝ, Measurable fun y => (y, p.2 + f y) := fun p => measurable_id.prodMk (measurable_const.add hf)
  set Q : Kernel (X × ℝ) X := P.comap Prod.fst measurable_fst with hQ
  have : ∀ p : X × ℝ, ((P p.1).map fun y => (y, p.2 + f y)) A = Q p (Prod.mk p ⁻¹' {q : (X × ℝ) × X | (q.2, q.1.2 + f q.2) ∈ A}) := by
    intro p
    rw [Measure.map_apply (hg p) hA]
    rfl
  simp only [this]
  refine Kernel.measurable_kernel_prodMk_left ?_
  exact (measurable_snd.prodMk ((measurable_snd.comp measurable_fst).add (hf.comp measurable_snd))) hA

/-- The steps of `record` as a kernel. -/
noncomputable def nextKernel : Kernel (X × ℝ) (X × ℝ) := ⟨fun p => (P p.1).map fun y => (y, p.2 + f y), measurable_next P hf⟩

instance : IsMarkovKernel (nextKernel P hf) := ⟨fun p => by
  change IsProbabilityMeasure ((P p.1).map fun y => (y, p.2 + f y))
  exact Measure.isProbabilityMeasure_map (measurable_add hf _).aemeasurable⟩

variable (m : Measure X) [IsProbabilityMeasure m]

include hf in
theorem record_prob (n : ℕ) : IsProbabilityMeasure (record P f m n) := by
  induction n with
  | zero => exact Measure.isProbabilityMeasure_map measurable_zero.aemeasurable
  | succ n ih =>
    change IsProbabilityMeasure ((record P f m n).bind (nextKernel P hf))
    infer_instance

variable {S : Set X} (hS : MeasurableSet S) (hm : m Sᶜ = 0) (hP : ∀ x ∈ S, P x Sᶜ = 0) {c : ℝ} (hc : ∀ x ∈ S, |f x| ≤ c)

include hf hS hm hP hc in
theorem record_ae (n : ℕ) : ∀ᵐ p ∂record P f m n, p.1 ∈ S ∧ |p.2| ≤ n * c := by
  induction n with
  | zero =>
    have hs : MeasurableSet {p : X × ℝ | p.1 ∈ S ∧ |p.2| ≤ ((0 : ℕ) : ℝ) * c} := (measurable_fst hS).inter (measurableSet_le measurable_snd.abs measurable_const)
    rw [record, ae_map_iff measurable_zero.aemeasurable hs]
    have : ∀ᵐ x ∂m, x ∈ S := by
      rw [ae_iff]
      exact hm
    filter_upwards [this] with x hx
    simpa using hx
  | succ n ih =>
    have hs : MeasurableSet {p : X × ℝ | p.1 ∈ S ∧ |p.2| ≤ ((n + 1 : ℕ) : ℝ) * c} := (measurable_fst hS).inter (measurableSet_le measurable_snd.abs measurable_const)
    rw [ae_iff]
    change record P f m (n + 1) {p : X × ℝ | p.1 ∈ S ∧ |p.2| ≤ ((n + 1 : ℕ) : ℝ) * c}ᶜ = 0
    have hme : Measurable fun p : X × ℝ => ((P p.1).map fun y => (y, p.2 + f y)) {p : X × ℝ | p.1 ∈ S ∧ |p.2| ≤ ((n + 1 : ℕ) : ℝ) * c}ᶜ :=
      (Measure.measurable_coe hs.compl).comp (measurable_next P hf)
    rw [record, Measure.bind_apply hs.compl (measurable_next P hf).aemeasurable, lintegral_eq_zero_iff hme]
    filter_upwards [ih] with p hp
    rw [Pi.zero_apply, Measure.map_apply (measurable_add hf _) hs.compl]
    refine measure_mono_null (fun y hy => ?_) (hP p.1 hp.1)
    intro hyS
    apply hy
    refine ⟨hyS, ?_⟩
    have := (abs_add_le p.2 (f y)).trans (add_le_add hp.2 (hc y hyS))
    push_cast
    linarith

include hf in
theorem integral_record {n : ℕ} {F : X × ℝ → ℝ} (hF : Measurable F) (hi : Integrable F (record P f m (n + 1))) :
    ∫ p, F p ∂record P f m (n + 1) = ∫ p, ∫ y, F (y, p.2 + f y) ∂P p.1 ∂record P f m n := by
  have hpr := record_prob P hf m n
  change Integrable F ((record P f m n).bind (nextKernel P hf)) at hi
  change ∫ p, F p ∂(record P f m n).bind (nextKernel P hf) = _
  rw [Measure.comp_eq_comp_const_apply] at hi ⊢
  rw [Kernel.integral_comp hi, Kernel.const_apply]
  refine integral_congr_ae (Eventually.of_forall fun p => ?_)
  change ∫ y, F y ∂((P p.1).map fun y => (y, p.2 + f y)) = _
  rw [integral_map (measurable_add hf _).aemeasurable hF.aestronglyMeasurable]

include hf hS hm hP hc in
theorem integrable_record {n : ℕ} {F : X × ℝ → ℝ} (hF : Measurable F) (C : ℝ) (hb : ∀ x ∈ S, ∀ s, |s| ≤ n * c → |F (x, s)| ≤ C) : Integrable F (record P f m n) := by
  have hpr := record_prob P hf m n
  refine Integrable.of_bound hF.aestronglyMeasurable C ?_
  filter_upwards [record_ae P hf m hS hm hP hc n] with p hp
  exact hb p.1 hp.1 p.2 hp.2

/-- The values of `f` expected `k` steps ahead, minus `a`. -/
noncomputable def ahead (P : X → Measure X) (f : X → ℝ) (a : ℝ) : ℕ → X → ℝ
  | 0 => fun x => f x - a
  | k + 1 => fun x => ∫ y, ahead P f a k y ∂P x

include hf in
theorem measurable_ahead (a : ℝ) (k : ℕ) : Measurable (ahead P f a k) := by
  induction k with
  | zero => exact hf.sub measurable_const
  | succ k ih => exact (ih.stronglyMeasurable.integral_kernel (κ := P)).measurable

variable {a b ρ : ℝ} (hb : 0 ≤ b) (hρ : 0 ≤ ρ) (hρ1 : ρ < 1) (hd : ∀ k, ∀ x ∈ S, |ahead P f a k x| ≤ b * ρ ^ k)

include hP in
theorem abs_integral_le {x : X} (hx : x ∈ S) {g : X → ℝ} {C : ℝ} (hg : ∀ y ∈ S, |g y| ≤ C) : |∫ y, g y ∂P x| ≤ C := by
  have h := norm_integral_le_of_norm_le_const (μ := P x) (f := g) (C := C) (by
    have : ∀ᵐ y ∂P x, y ∈ S := by
      rw [ae_iff]
      exact hP x hx
    filter_upwards [this] with y hy
    exact hg y hy)
  rwa [Real.norm_eq_abs, probReal_univ, mul_one] at h

include hf hS hm hP hc hb hρ hρ1 hd in
theorem cross (n k : ℕ) : |∫ p, (p.2 - n * a) * ahead P f a k p.1 ∂record P f m n| ≤ b ^ 2 * ρ ^ k / (1 - ρ) := by
  have h1 : 0 < 1 - ρ := by linarith
  have hbd : ∀ k, ∀ x ∈ S, |ahead P f a k x| ≤ b := fun k x hx =>
    (hd k x hx).trans (by nlinarith [pow_le_one₀ (n := k) hρ hρ1.le])
  have meas : ∀ n k : ℕ, Measurable fun p : X × ℝ => (p.2 - n * a) * ahead P f a k p.1 := fun n k =>
    (measurable_snd.sub measurable_const).mul ((measurable_ahead P hf a k).comp measurable_fst)
  have int : ∀ n k : ℕ, Integrable (fun p : X × ℝ => (p.2 - n * a) * ahead P f a k p.1) (record P f m n) := fun n k =>
    integrable_record P hf m hS hm hP hc (meas n k) ((n * c + |(n : ℝ) * a|) * b) fun x hx s hs => by
      rw [abs_mul]
      refine mul_le_mul ((abs_sub _ _).trans (add_le_add hs le_rfl)) (hbd k x hx) (abs_nonneg _) ?_
      exact add_nonneg ((abs_nonneg _).trans hs) (abs_nonneg _)
  induction n generalizing k with
  | zero =>
    have : ∫ p : X × ℝ, (p.2 - ((0 : ℕ) : ℝ) * a) * ahead P f a k p.1 ∂record P f m 0 = 0 := by
      rw [record, integral_map measurable_zero.aemeasurable (meas 0 k).aestronglyMeasurable]
      simp
    rw [this, abs_zero]
    positivity
  | succ n ih =>
    have hpr := record_prob P hf m n
    rw [integral_record P hf m (meas (n + 1) k) (int (n + 1) k)]
    have inner : ∀ᵐ p ∂record P f m n, ∫ y, (p.2 + f y - ((n + 1 : ℕ) : ℝ) * a) * ahead P f a k y ∂P p.1 =
        (p.2 - n * a) * ahead P f a (k + 1) p.1 + ∫ y, ahead P f a 0 y * ahead P f a k y ∂P p.1 := by
      filter_upwards [record_ae P hf m hS hm hP hc n] with p hp
      have hae : ∀ᵐ y ∂P p.1, y ∈ S := by
        rw [ae_iff]
        exact hP p.1 hp.1
      have i1 : Integrable (fun y => (p.2 - n * a) * ahead P f a k y) (P p.1) := by
        refine (Integrable.of_bound (measurable_ahead P hf a k).aestronglyMeasurable b ?_).const_mul _
        filter_upwards [hae] with y hy using hbd k y hy
      have i2 : Integrable (fun y => ahead P f a 0 y * ahead P f a k y) (P p.1) := by
        refine Integrable.of_bound ((measurable_ahead P hf a 0).mul (measurable_ahead P hf a k)).aestronglyMeasurable (b * b) ?_
        filter_upwards [hae] with y hy
        rw [Real.norm_eq_abs, abs_mul]
        exact mul_le_mul (hbd 0 y hy) (hbd k y hy) (abs_nonneg _) hb
      rw [show ahead P f a (k + 1) p.1 = ∫ y, ahead P f a k y ∂P p.1 from rfl, ← integral_const_mul, ← integral_add i1 i2]
      refine integral_congr_ae (Eventually.of_forall fun y => ?_)
      simp only [ahead]
      push_cast
      ring
    have bd2 : ∀ x ∈ S, |∫ y, ahead P f a 0 y * ahead P f a k y ∂P x| ≤ b * (b * ρ ^ k) := fun x hx => abs_integral_le P hP hx fun y hy => by
      rw [abs_mul]
      exact mul_le_mul (hbd 0 y hy) (hd k y hy) (abs_nonneg _) hb
    have me2 : Measurable fun p : X × ℝ => ∫ y, ahead P f a 0 y * ahead P f a k y ∂P p.1 :=
      ((((measurable_ahead P hf a 0).mul (measurable_ahead P hf a k)).stronglyMeasurable.integral_kernel (κ := P)).measurable).comp measurable_fst
    have int2 : Integrable (fun p : X × ℝ => ∫ y, ahead P f a 0 y * ahead P f a k y ∂P p.1) (record P f m n) :=
      integrable_record P hf m hS hm hP hc me2 _ fun x hx s _ => bd2 x hx
    have le2 : |∫ p, ∫ y, ahead P f a 0 y * ahead P f a k y ∂P p.1 ∂record P f m n| ≤ b * (b * ρ ^ k) := by
      have h := norm_integral_le_of_norm_le_const (μ := record P f m n) (f := fun p : X × ℝ => ∫ y, ahead P f a 0 y * ahead P f a k y ∂P p.1) (C := b * (b * ρ ^ k)) (by
        filter_upwards [record_ae P hf m hS hm hP hc n] with p hp
        exact bd2 p.1 hp.1)
      rwa [Real.norm_eq_abs, probReal_univ, mul_one] at h
    rw [integral_congr_ae inner, integral_add (int n (k + 1)) int2]
    refine (abs_add_le _ _).trans ((add_le_add (ih (k + 1)) le2).trans (le_of_eq ?_))
    field_simp
    ring

include hf hS hm hP hc hb hρ hρ1 hd in
/-- The second moment of the sum grows linearly. -/
theorem second_moment (n : ℕ) : ∫ p, (p.2 - n * a) ^ 2 ∂record P f m n ≤ n * (b ^ 2 * (1 + ρ) / (1 - ρ)) := by
  have h1 : 0 < 1 - ρ := by linarith
  have hbd : ∀ k, ∀ x ∈ S, |ahead P f a k x| ≤ b := fun k x hx =>
    (hd k x hx).trans (by nlinarith [pow_le_one₀ (n := k) hρ hρ1.le])
  have meas : ∀ n : ℕ, Measurable fun p : X × ℝ => (p.2 - n * a) ^ 2 := fun n => (measurable_snd.sub measurable_const).pow_const 2
  have int : ∀ n : ℕ, Integrable (fun p : X × ℝ => (p.2 - n * a) ^ 2) (record P f m n) := fun n =>
    integrable_record P hf m hS hm hP hc (meas n) ((n * c + |(n : ℝ) * a|) ^ 2) fun x hx s hs => by
      rw [abs_pow]
      exact pow_le_pow_left₀ (abs_nonneg _) ((abs_sub _ _).trans (add_le_add hs le_rfl)) 2
  induction n with
  | zero =>
    rw [record, integral_map measurable_zero.aemeasurable (meas 0).aestronglyMeasurable]
    simp
  | succ n ih =>
    have hpr := record_prob P hf m n
    rw [integral_record P hf m (meas (n + 1)) (int (n + 1))]
    have meas1 : Measurable fun p : X × ℝ => (p.2 - n * a) * ahead P f a 1 p.1 := (measurable_snd.sub measurable_const).mul ((measurable_ahead P hf a 1).comp measurable_fst)
    have int1 : Integrable (fun p : X × ℝ => (p.2 - n * a) * ahead P f a 1 p.1) (record P f m n) :=
      integrable_record P hf m hS hm hP hc meas1 ((n * c + |(n : ℝ) * a|) * b) fun x hx s hs => by
        rw [abs_mul]
        refine mul_le_mul ((abs_sub _ _).trans (add_le_add hs le_rfl)) (hbd 1 x hx) (abs_nonneg _) ?_
        exact add_nonneg ((abs_nonneg _).trans hs) (abs_nonneg _)
    have bd2 : ∀ x ∈ S, |∫ y, ahead P f a 0 y ^ 2 ∂P x| ≤ b ^ 2 := fun x hx => abs_integral_le P hP hx fun y hy => by
      rw [abs_pow]
      exact pow_le_pow_left₀ (abs_nonneg _) (hbd 0 y hy) 2
    have me2 : Measurable fun p : X × ℝ => ∫ y, ahead P f a 0 y ^ 2 ∂P p.1 :=
      ((((measurable_ahead P hf a 0).pow_const 2).stronglyMeasurable.integral_kernel (κ := P)).measurable).comp measurable_fst
    have int2 : Integrable (fun p : X × ℝ => ∫ y, ahead P f a 0 y ^ 2 ∂P p.1) (record P f m n) := integrable_record P hf m hS hm hP hc me2 _ fun x hx s _ => bd2 x hx
    have le2 : ∫ p, ∫ y, ahead P f a 0 y ^ 2 ∂P p.1 ∂record P f m n ≤ b ^ 2 := by
      have h := norm_integral_le_of_norm_le_const (μ := record P f m n) (f := fun p : X × ℝ => ∫ y, ahead P f a 0 y ^ 2 ∂P p.1) (C := b ^ 2) (by
        filter_upwards [record_ae P hf m hS hm hP hc n] with p hp
        exact bd2 p.1 hp.1)
      rw [Real.norm_eq_abs, probReal_univ, mul_one] at h
      exact (le_abs_self _).trans h
    have inner : ∀ᵐ p ∂record P f m n, ∫ y, (p.2 + f y - ((n + 1 : ℕ) : ℝ) * a) ^ 2 ∂P p.1 =
        ((p.2 - n * a) ^ 2 + 2 * ((p.2 - n * a) * ahead P f a 1 p.1)) + ∫ y, ahead P f a 0 y ^ 2 ∂P p.1 := by
      filter_upwards [record_ae P hf m hS hm hP hc n] with p hp
      have hae : ∀ᵐ y ∂P p.1, y ∈ S := by
        rw [ae_iff]
        exact hP p.1 hp.1
      have i1 : Integrable (fun y => 2 * (p.2 - n * a) * ahead P f a 0 y) (P p.1) := by
        refine (Integrable.of_bound (measurable_ahead P hf a 0).aestronglyMeasurable b ?_).const_mul _
        filter_upwards [hae] with y hy using hbd 0 y hy
      have i2 : Integrable (fun y => ahead P f a 0 y ^ 2) (P p.1) := by
        refine Integrable.of_bound ((measurable_ahead P hf a 0).pow_const 2).aestronglyMeasurable (b ^ 2) ?_
        filter_upwards [hae] with y hy
        rw [Real.norm_eq_abs, abs_pow]
        exact pow_le_pow_left₀ (abs_nonneg _) (hbd 0 y hy) 2
      have i0 : Integrable (fun _ : X => (p.2 - n * a) ^ 2) (P p.1) := integrable_const _
      have e : ∫ y, (p.2 + f y - ((n + 1 : ℕ) : ℝ) * a) ^ 2 ∂P p.1 = ∫ y, ((p.2 - n * a) ^ 2 + 2 * (p.2 - n * a) * ahead P f a 0 y + ahead P f a 0 y ^ 2) ∂P p.1 := by
        refine integral_congr_ae (Eventually.of_forall fun y => ?_)
        simp only [ahead]
        push_cast
        ring
      have i01 : Integrable (fun y => (p.2 - n * a) ^ 2 + 2 * (p.2 - n * a) * ahead P f a 0 y) (P p.1) := i0.add i1
      rw [e, integral_add i01 i2, integral_add i0 i1, integral_const, probReal_univ, one_smul, integral_const_mul, mul_assoc]
      rfl
    have int01 : Integrable (fun p : X × ℝ => (p.2 - n * a) ^ 2 + 2 * ((p.2 - n * a) * ahead P f a 1 p.1)) (record P f m n) := (int n).add (int1.const_mul 2)
    rw [integral_congr_ae inner, integral_add int01 int2, integral_add (int n) (int1.const_mul 2), integral_const_mul]
    have hx := (le_abs_self _).trans (cross P hf m hS hm hP hc hb hρ hρ1 hd n 1)
    rw [pow_one] at hx
    have e2 : b ^ 2 * (1 + ρ) / (1 - ρ) = b ^ 2 + 2 * (b ^ 2 * ρ / (1 - ρ)) := by
      field_simp
      ring
    push_cast
    rw [add_mul, one_mul]
    linarith

end Sums

/-! ### The chain of the sampler -/

theorem stepMeasure_apply (K : X → Measure X) (pdf L J : X → ℝ) (x : X) {B : Set X} (hB : MeasurableSet B) : stepMeasure K pdf L J x B = stepLaw K pdf L J x B := by
  rw [stepMeasure, stepLaw, Measure.add_apply, Measure.smul_apply, smul_eq_mul, withDensity_apply _ hB, Measure.dirac_apply' _ hB]
  congr 1
  by_cases hx : x ∈ B <;> simp [hx]

theorem measurable_stepMeasure {μ : Measure X} [SFinite μ] {K : X → Measure X} {q : X → X → ℝ≥0∞} (h : Symmetric μ K q) {pdf L J : X → ℝ} (m1 : Measurable pdf) (m2 : Measurable L) (m3 : Measurable J) :
    Measurable (stepMeasure K pdf L J) := by
  refine Measure.measurable_of_measurable_coe _ fun B hB => ?_
  simp only [fun x => stepMeasure_apply K pdf L J x hB]
  exact measurable_step h m1 m2 m3 hB

theorem step_support {K : X → Measure X} {pdf L J : X → ℝ} (m1 : Measurable pdf) {x : X} (hx : pdf x ≠ 0) : stepMeasure K pdf L J x {x | pdf x ≠ 0}ᶜ = 0 := by
  have hS : MeasurableSet {x | pdf x ≠ 0} := (measurableSet_eq_fun m1 measurable_const).compl
  rw [stepMeasure_apply _ _ _ _ _ hS.compl, stepLaw, indicator_of_notMem (by simpa using hx), add_zero, setLIntegral_congr_fun (g := fun _ => 0) hS.compl fun y hy => ?_]
  · simp
  · have : pdf y = 0 := by simpa using hy
    rw [moveProb_eq, if_pos this]

/-- Integrals under two laws that are close on all sets. -/
theorem integral_le_of_close {ν π : Measure X} [IsProbabilityMeasure ν] [IsProbabilityMeasure π] {S : Set X} (hS : MeasurableSet S) (hν : ν Sᶜ = 0) (hπ : π Sᶜ = 0) {d : ℝ} (hd0 : 0 ≤ d)
    (hd : ∀ B, MeasurableSet B → |(ν B).toReal - (π B).toReal| ≤ d) {f : X → ℝ} (hf : Measurable f) {c : ℝ} (hc0 : 0 ≤ c) (hc : ∀ x ∈ S, |f x| ≤ c) : ∫ x, f x ∂ν ≤ ∫ x, f x ∂π + 2 * c * d := by
  have hle : ∀ B, MeasurableSet B → ν B ≤ π B + ENNReal.ofReal d := by
    intro B hB
    have := (abs_le.1 (hd B hB)).2
    rw [← ENNReal.ofReal_toReal (measure_ne_top ν B), ← ENNReal.ofReal_toReal (measure_ne_top π B), ← ENNReal.ofReal_add ENNReal.toReal_nonneg hd0]
    exact ENNReal.ofReal_le_ofReal (by linarith)
  set g : X → ℝ≥0∞ := S.indicator fun x => ENNReal.ofReal (f x + c) with hg
  have mg : Measurable g := (ENNReal.measurable_ofReal.comp (hf.add measurable_const)).indicator hS
  have gle : ∀ x, g x ≤ ENNReal.ofReal (2 * c) := by
    intro x
    by_cases hx : x ∈ S
    · rw [hg, indicator_of_mem hx]
      exact ENNReal.ofReal_le_ofReal (by linarith [(abs_le.1 (hc x hx)).2])
    · rw [hg, indicator_of_notMem hx]
      exact zero_le
  have key := lintegral_close hle mg ENNReal.ofReal_ne_top gle
  have e : ∀ m : Measure X, IsProbabilityMeasure m → m Sᶜ = 0 → ∫⁻ x, g x ∂m = ENNReal.ofReal (∫ x, f x ∂m + c) ∧ 0 ≤ ∫ x, f x ∂m + c := by
    intro m im hm
    have hae : ∀ᵐ x ∂m, x ∈ S := by
      rw [ae_iff]
      exact hm
    have i1 : Integrable f m := by
      refine Integrable.of_bound hf.aestronglyMeasurable c ?_
      filter_upwards [hae] with x hx using hc x hx
    have i2 : Integrable (fun x => f x + c) m := i1.add (integrable_const c)
    have nn : 0 ≤ᵐ[m] fun x => f x + c := by
      filter_upwards [hae] with x hx
      have := (abs_le.1 (hc x hx)).1
      simp only [Pi.zero_apply]
      linarith
    have e1 : ∫ x, (f x + c) ∂m = ∫ x, f x ∂m + c := by
      rw [integral_add i1 (integrable_const c), integral_const, probReal_univ, one_smul]
    refine ⟨?_, by rw [← e1]; exact integral_nonneg_of_ae nn⟩
    rw [← e1, ofReal_integral_eq_lintegral_ofReal i2 nn]
    refine lintegral_congr_ae ?_
    filter_upwards [hae] with x hx
    rw [hg, indicator_of_mem hx]
  rw [(e ν inferInstance hν).1, (e π inferInstance hπ).1, ← ENNReal.ofReal_mul (by linarith), ← ENNReal.ofReal_add (e π inferInstance hπ).2 (by positivity)] at key
  have := (ENNReal.ofReal_le_ofReal_iff (by have := (e π inferInstance hπ).2; positivity)).1 key
  linarith

theorem integral_close {ν π : Measure X} [IsProbabilityMeasure ν] [IsProbabilityMeasure π] {S : Set X} (hS : MeasurableSet S) (hν : ν Sᶜ = 0) (hπ : π Sᶜ = 0) {d : ℝ} (hd0 : 0 ≤ d)
    (hd : ∀ B, MeasurableSet B → |(ν B).toReal - (π B).toReal| ≤ d) {f : X → ℝ} (hf : Measurable f) {c : ℝ} (hc0 : 0 ≤ c) (hc : ∀ x ∈ S, |f x| ≤ c) : |∫ x, f x ∂ν - ∫ x, f x ∂π| ≤ 2 * c * d := by
  have h1 := integral_le_of_close hS hν hπ hd0 hd hf hc0 hc
  have h2 := integral_le_of_close hS hπ hν hd0 (fun B hB => by rw [abs_sub_comm]; exact hd B hB) hf hc0 hc
  rw [abs_le]
  constructor <;> linarith

/-- Looking `k` steps ahead from `x` is averaging over the law of the state after `k` steps. -/
theorem ahead_eq (P : Kernel X X) [IsMarkovKernel P] {S : Set X} (hP : ∀ x ∈ S, P x Sᶜ = 0) (hS : MeasurableSet S) {f : X → ℝ} (hf : Measurable f) {c : ℝ} (hc : ∀ x ∈ S, |f x| ≤ c) (a : ℝ) (ν : ℕ → Measure X)
    (x : X) (hx : x ∈ S) (h0 : ν 0 = Measure.dirac x) (hn : ∀ n, ν (n + 1) = (ν n).bind P) (k : ℕ) :
    IsProbabilityMeasure (ν k) ∧ ν k Sᶜ = 0 ∧ ahead P f a k x = ∫ y, f y ∂ν k - a := by
  have basic : ∀ k, IsProbabilityMeasure (ν k) ∧ ν k Sᶜ = 0 := by
    intro k
    induction k with
    | zero =>
      rw [h0]
      refine ⟨inferInstance, ?_⟩
      rw [Measure.dirac_apply' _ hS.compl]
      simp [hx]
    | succ k ih =>
      have := ih.1
      rw [hn k]
      refine ⟨inferInstance, ?_⟩
      rw [Measure.bind_apply hS.compl P.measurable.aemeasurable, lintegral_eq_zero_iff (P.measurable_coe hS.compl)]
      have hae : ∀ᵐ x ∂ν k, x ∈ S := by
        rw [ae_iff]
        exact ih.2
      filter_upwards [hae] with y hy using hP y hy
  have bd : ∀ j, ∀ y ∈ S, |ahead P f a j y| ≤ c + |a| := by
    intro j
    induction j with
    | zero => exact fun y hy => (abs_sub _ _).trans (add_le_add (hc y hy) le_rfl)
    | succ j ih => exact fun y hy => abs_integral_le P hP hy ih
  have int : ∀ j k, Integrable (ahead P f a j) (ν k) := by
    intro j k
    have := (basic k).1
    refine Integrable.of_bound (measurable_ahead P hf a j).aestronglyMeasurable (c + |a|) ?_
    have hae : ∀ᵐ x ∂ν k, x ∈ S := by
      rw [ae_iff]
      exact (basic k).2
    filter_upwards [hae] with y hy using bd j y hy
  have shift : ∀ k j, ∫ y, ahead P f a j y ∂ν k = ahead P f a (j + k) x := by
    intro k
    induction k with
    | zero =>
      intro j
      rw [h0, integral_dirac' _ _ (measurable_ahead P hf a j).stronglyMeasurable, add_zero]
    | succ k ih =>
      intro j
      have hi := int j (k + 1)
      have := (basic k).1
      rw [hn k] at hi ⊢
      rw [Measure.comp_eq_comp_const_apply] at hi ⊢
      rw [Kernel.integral_comp hi, Kernel.const_apply]
      have := ih (j + 1)
      rw [show j + (k + 1) = j + 1 + k by ring, ← this]
      rfl
  refine ⟨(basic k).1, (basic k).2, ?_⟩
  have := (basic k).1
  have hi := int 0 k
  have h1 := shift k 0
  rw [zero_add] at h1
  rw [← h1]
  simp only [ahead]
  have fi : Integrable f (ν k) := by
    have := hi.add (integrable_const a)
    refine this.congr (Eventually.of_forall fun y => ?_)
    simp [ahead]
  rw [integral_sub fi (integrable_const a), integral_const, probReal_univ, one_smul]

/-! ### Properties -/

/-- **C174.** Under the hypotheses of `C172_chain`, for every function of the state that is bounded on the points of positive prior density, and whatever the state at the end of the burn-in: the mean over the `N` samples of the journal estimates the mean
under the posterior with a mean squared error of at most `C c² / N`, and it is off by `t` or more with probability at most `C c² / (N t²)`. `C` depends neither on the function nor on the start. -/
theorem C174_chain {μ : Measure X} [SFinite μ] {K : X → Measure X} {q : X → X → ℝ≥0∞} (h : Symmetric μ K q) {pdf L J : X → ℝ} (h0 : ∀ x, 0 ≤ pdf x) (m1 : Measurable pdf) (m2 : Measurable L)
    (m3 : Measurable J) {δ T : ℝ≥0∞} (hδ0 : δ ≠ 0) (hδ : ∀ x y, pdf x ≠ 0 → pdf y ≠ 0 → δ ≤ q x y) (hT' : T ≠ ∞) (hT : ∀ x, target pdf L J x ≤ T) (hZ : ∫⁻ x, target pdf L J x ∂μ ≠ 0) :
    ∃ C : ℝ, ∀ f : X → ℝ, Measurable f → ∀ c, (∀ x, pdf x ≠ 0 → |f x| ≤ c) → Integrable f (posterior μ pdf L J) ∧ ∀ m : Measure X, m univ = 1 → m {x | pdf x = 0} = 0 → ∀ N : ℕ, 0 < N →
      Integrable (fun p => (p.2 / N - ∫ x, f x ∂posterior μ pdf L J) ^ 2) (record (stepMeasure K pdf L J) f m N) ∧
      ∫ p, (p.2 / N - ∫ x, f x ∂posterior μ pdf L J) ^ 2 ∂record (stepMeasure K pdf L J) f m N ≤ C * c ^ 2 / N ∧
      ∀ t, 0 < t → record (stepMeasure K pdf L J) f m N {p | t ≤ |p.2 / N - ∫ x, f x ∂posterior μ pdf L J|} ≤ ENNReal.ofReal (C * c ^ 2 / (N * t ^ 2)) := by
  obtain ⟨hZf, ρ, r0, r1, hr⟩ := C172_chain h h0 m1 m2 m3 hδ0 hδ hT' hT hZ
  have mt : Measurable (target pdf L J) := measurable_target m1 m2 m3
  set S : Set X := {x | pdf x ≠ 0} with hSdef
  have hS : MeasurableSet S := (measurableSet_eq_fun m1 measurable_const).compl
  have hSc : Sᶜ = {x | pdf x = 0} := by ext x; simp [hSdef]
  set π := posterior μ pdf L J with hπdef
  have hπ1 : IsProbabilityMeasure π := by
    constructor
    rw [hπdef, posterior, Measure.smul_apply, withDensity_apply _ MeasurableSet.univ, Measure.restrict_univ, smul_eq_mul]
    exact ENNReal.inv_mul_cancel hZ hZf
  have hπS : π Sᶜ = 0 := by
    rw [hπdef, posterior, Measure.smul_apply, withDensity_apply _ hS.compl, smul_eq_mul]
    have : ∫⁻ y in Sᶜ, target pdf L J y ∂μ = 0 := by
      rw [setLIntegral_congr_fun (g := fun _ => 0) hS.compl fun y hy => ?_]
      · simp
      · have : pdf y = 0 := by simpa [hSdef] using hy
        simp [target, this]
    rw [this, mul_zero]
  have hprob : ∀ x, IsProbabilityMeasure (stepMeasure K pdf L J x) := fun x => ⟨by
    have := step_total h.one pdf L J x MeasurableSet.univ
    rw [stepMeasure_apply _ _ _ _ _ MeasurableSet.univ]
    simpa [stepLaw] using this⟩
  set P : Kernel X X := ⟨stepMeasure K pdf L J, measurable_stepMeasure h m1 m2 m3⟩ with hPdef
  have hPm : IsMarkovKernel P := ⟨hprob⟩
  have hP : ∀ x ∈ S, P x Sᶜ = 0 := fun x hx => step_support m1 hx
  refine ⟨4 * ((1 + ρ) / (1 - ρ)), fun f hf c hc => ?_⟩
  have hπae : ∀ᵐ x ∂π, x ∈ S := by
    rw [ae_iff]
    exact hπS
  refine ⟨Integrable.of_bound hf.aestronglyMeasurable c (by filter_upwards [hπae] with x hx using hc x hx), fun m hm hmS N hN => ?_⟩
  have im : IsProbabilityMeasure m := ⟨hm⟩
  have hmS' : m Sᶜ = 0 := hSc ▸ hmS
  obtain ⟨x0, hx0⟩ : S.Nonempty := by
    by_contra he
    rw [not_nonempty_iff_eq_empty] at he
    rw [he, compl_empty, hm] at hmS'
    exact one_ne_zero hmS'
  have hc0 : 0 ≤ c := (abs_nonneg _).trans (hc x0 hx0)
  set a := ∫ x, f x ∂π with ha
  have hd : ∀ k, ∀ x ∈ S, |ahead P f a k x| ≤ 2 * c * ρ ^ k := by
    intro k x hx
    set ν : ℕ → Measure X := fun n => Nat.rec (Measure.dirac x) (fun _ m => m.bind P) n with hν
    have hch : Chain K pdf L J ν := by
      refine ⟨by simp [hν], fun n B hB => ?_⟩
      change (ν n).bind P B = _
      rw [Measure.bind_apply hB P.measurable.aemeasurable]
      exact lintegral_congr fun y => stepMeasure_apply K pdf L J y hB
    obtain ⟨i, j, e⟩ := ahead_eq P hP hS hf hc a ν x hx rfl (fun _ => rfl) k
    rw [e]
    refine integral_close hS j hπS (pow_nonneg r0 k) (fun B hB => hr ν hch ?_ k B hB) hf hc0 hc
    rw [← hSc]
    change Measure.dirac x Sᶜ = 0
    rw [Measure.dirac_apply' _ hS.compl]
    simp [hx]
  have hN' : (0 : ℝ) < N := by exact_mod_cast hN
  have h1 : 0 < 1 - ρ := by linarith
  have hsec := second_moment P hf m hS hmS' hP hc (by positivity) r0 r1 hd N
  have hpr := record_prob P hf m N
  change IsProbabilityMeasure (record (stepMeasure K pdf L J) f m N) at hpr
  have me : Measurable fun p : X × ℝ => (p.2 / N - a) ^ 2 := ((measurable_snd.div_const _).sub measurable_const).pow_const 2
  have hint : Integrable (fun p : X × ℝ => (p.2 / N - a) ^ 2) (record (stepMeasure K pdf L J) f m N) :=
    integrable_record P hf m hS hmS' hP hc me ((c + |a|) ^ 2) fun x hx s hs => by
      rw [abs_pow]
      refine pow_le_pow_left₀ (abs_nonneg _) ((abs_sub _ _).trans (add_le_add ?_ le_rfl)) 2
      rw [abs_div, abs_of_pos hN', div_le_iff₀ hN', mul_comm]
      exact hs
  have hmse : ∫ p, (p.2 / N - a) ^ 2 ∂record (stepMeasure K pdf L J) f m N ≤ 4 * ((1 + ρ) / (1 - ρ)) * c ^ 2 / N := by
    have e : ∀ p : X × ℝ, (p.2 / N - a) ^ 2 = (p.2 - N * a) ^ 2 * (1 / (N : ℝ) ^ 2) := fun p => by field_simp
    simp only [e]
    rw [integral_mul_const]
    refine (mul_le_mul_of_nonneg_right hsec (by positivity)).trans (le_of_eq ?_)
    field_simp
    ring
  refine ⟨hint, hmse, fun t ht => ?_⟩
  have hmk := meas_ge_le_lintegral_div (μ := record (stepMeasure K pdf L J) f m N) (f := fun p : X × ℝ => ENNReal.ofReal ((p.2 / N - a) ^ 2)) (ENNReal.measurable_ofReal.comp me).aemeasurable
    (ε := ENNReal.ofReal (t ^ 2)) (by simp; positivity) ENNReal.ofReal_ne_top
  rw [← ofReal_integral_eq_lintegral_ofReal hint (Eventually.of_forall fun p => sq_nonneg _), ← ENNReal.ofReal_div_of_pos (by positivity)] at hmk
  refine (measure_mono fun p hp => ?_).trans (hmk.trans (ENNReal.ofReal_le_ofReal ?_))
  · simp only [mem_setOf_eq] at hp ⊢
    refine ENNReal.ofReal_le_ofReal ?_
    rw [← sq_abs (p.2 / N - a)]
    exact pow_le_pow_left₀ ht.le hp 2
  · rw [← div_div]
    exact div_le_div_of_nonneg_right hmse (by positivity)

/-! ### Normal and Student kernels, estimated likelihoods -/

section Noisy

variable {dim : ℕ} {Z : Type} [MeasurableSpace Z]

/-- The posterior in which the likelihood is the mean of the estimates. -/
noncomputable def meanPosterior (noise : Measure Z) (pdf J : (Fin dim → ℝ) → ℝ) (L : (Fin dim → ℝ) × Z → ℝ) : Measure (Fin dim → ℝ) :=
  (∫⁻ x, meanTarget noise pdf J L x)⁻¹ • volume.withDensity (meanTarget noise pdf J L)

/-- **C174, kernels of the library.** Normal or Student kernel with a fixed symmetric positive definite matrix, prior with bounded support, likelihoods estimated from simulated data with bounded estimates (`noise` may be trivial): the mean of a bounded
function of the parameters over the `N` samples of the journal estimates its mean under the posterior. -/
theorem C174_kernels {c : Matrix (Fin dim) (Fin dim) ℝ} (hc : c.PosDef) (hs : c.IsSymm) (e : Kernel.Eigh c) (d : Densities.Svd c) (df : ℝ) (hdf : 0 < df)
    (K : (Fin dim → ℝ) → Measure (Fin dim → ℝ)) (hK : K = Kernel.normalLaw d ∨ K = Kernel.studentLaw d df) (noise : Measure Z) [IsProbabilityMeasure noise] (pdf J : (Fin dim → ℝ) → ℝ)
    (L : (Fin dim → ℝ) × Z → ℝ) (h0 : ∀ x, 0 ≤ pdf x) (m1 : Measurable pdf) (m2 : Measurable L) (m3 : Measurable J) (hb : Bornology.IsBounded {x | pdf x ≠ 0})
    (hM : ∃ M, ∀ x z, pdf x * Real.exp (L (x, z)) / Real.exp (J x) ≤ M) (hZ : ∫⁻ x, meanTarget noise pdf J L x ≠ 0) :
    ∃ C : ℝ, ∀ f : (Fin dim → ℝ) → ℝ, Measurable f → ∀ b, (∀ x, pdf x ≠ 0 → |f x| ≤ b) → Integrable f (meanPosterior noise pdf J L) ∧
      ∀ x0 z0, pdf x0 ≠ 0 → ∀ N : ℕ, 0 < N → ∀ t, 0 < t →
        record (stepMeasure (jointLaw K fun _ => noise) (fun p => pdf p.1) L (fun p => J p.1)) (fun p => f p.1) (Measure.dirac (x0, z0)) N {p | t ≤ |p.2 / N - ∫ x, f x ∂meanPosterior noise pdf J L|} ≤
          ENNReal.ofReal (C * b ^ 2 / (N * t ^ 2)) := by
  obtain ⟨q, hq, hqc, hqp⟩ : ∃ q : (Fin dim → ℝ) → (Fin dim → ℝ) → ℝ, Symmetric volume K (fun x y => ENNReal.ofReal (q x y)) ∧ Continuous (Function.uncurry q) ∧ ∀ x y, 0 < q x y := by
    rcases hK with rfl | rfl
    · exact ⟨_, normal_symmetric hc hs e d, continuous_normalPdf 0 e, fun _ _ => Real.exp_pos _⟩
    · exact ⟨_, symmetric_of_density (fun x => Kernel.C136_student hc hs df hdf d x) (measurable_studentPdf c df) fun x y => (Kernel.C136_symmetric 0 e df x y).2, continuous_studentPdf hc hdf, student_pos hc hdf⟩
  obtain ⟨M, hM⟩ := hM
  obtain ⟨δ, hδ, hlow⟩ := low_of_bounded hqc hqp hb
  have hS := hq.prod (noise_symmetric noise)
  have k1 : Measurable fun p : (Fin dim → ℝ) × Z => pdf p.1 := m1.comp measurable_fst
  have k3 : Measurable fun p : (Fin dim → ℝ) × Z => J p.1 := m3.comp measurable_fst
  have tot : ∫⁻ p, target (fun p => pdf p.1) L (fun p => J p.1) p ∂((volume : Measure (Fin dim → ℝ)).prod noise) = ∫⁻ x, meanTarget noise pdf J L x := by
    have := meanTarget_eq noise (volume : Measure (Fin dim → ℝ)) h0 m1 m2 m3 MeasurableSet.univ
    rwa [univ_prod_univ, Measure.restrict_univ, Measure.restrict_univ] at this
  have hmap : (posterior ((volume : Measure (Fin dim → ℝ)).prod noise) (fun p => pdf p.1) L (fun p => J p.1)).map Prod.fst = meanPosterior noise pdf J L := by
    ext B hB
    rw [Measure.map_apply measurable_fst hB, posterior, meanPosterior, Measure.smul_apply, Measure.smul_apply, withDensity_apply _ hB, withDensity_apply _ (measurable_fst hB), tot, ← prod_univ,
      meanTarget_eq noise _ h0 m1 m2 m3 hB]
  obtain ⟨C, hC⟩ := C174_chain hS (fun p => h0 p.1) k1 m2 k3 (δ := ENNReal.ofReal δ) (T := ENNReal.ofReal M) (by simpa using hδ)
    (fun x y hx hy => by rw [mul_one]; exact ENNReal.ofReal_le_ofReal (hlow _ hx _ hy)) ENNReal.ofReal_ne_top (fun p => ENNReal.ofReal_le_ofReal (hM p.1 p.2)) (by rw [tot]; exact hZ)
  refine ⟨C, fun f hf b hfb => ?_⟩
  obtain ⟨i, hrest⟩ := hC (fun p => f p.1) (hf.comp measurable_fst) b fun p hp => hfb p.1 hp
  have hI : ∫ x, f x ∂meanPosterior noise pdf J L = ∫ p, f p.1 ∂posterior ((volume : Measure (Fin dim → ℝ)).prod noise) (fun p => pdf p.1) L (fun p => J p.1) := by
    rw [← hmap, integral_map measurable_fst.aemeasurable hf.aestronglyMeasurable]
  refine ⟨?_, fun x0 z0 hx0 N hN t ht => ?_⟩
  · rw [← hmap]
    exact (integrable_map_measure hf.aestronglyMeasurable measurable_fst.aemeasurable).2 i
  · rw [hI]
    refine (hrest (Measure.dirac (x0, z0)) (by simp) ?_ N hN).2.2 t ht
    have hm : MeasurableSet {p : (Fin dim → ℝ) × Z | pdf p.1 = 0} := measurableSet_eq_fun k1 measurable_const
    rw [Measure.dirac_apply' _ hm]
    simp [hx0]

/-- **C174, posterior means.** In particular the mean of each parameter over the samples, which is what `Journal.posterior_mean` returns for equal weights, tends in probability to the posterior mean of the parameter. -/
theorem C174_mean {c : Matrix (Fin dim) (Fin dim) ℝ} (hc : c.PosDef) (hs : c.IsSymm) (e : Kernel.Eigh c) (d : Densities.Svd c) (noise : Measure Z) [IsProbabilityMeasure noise] (pdf J : (Fin dim → ℝ) → ℝ)
    (L : (Fin dim → ℝ) × Z → ℝ) (h0 : ∀ x, 0 ≤ pdf x) (m1 : Measurable pdf) (m2 : Measurable L) (m3 : Measurable J) (hb : Bornology.IsBounded {x | pdf x ≠ 0})
    (hM : ∃ M, ∀ x z, pdf x * Real.exp (L (x, z)) / Real.exp (J x) ≤ M) (hZ : ∫⁻ x, meanTarget noise pdf J L x ≠ 0) (i : Fin dim) (x0 : Fin dim → ℝ) (z0 : Z) (hx0 : pdf x0 ≠ 0) (t : ℝ) (ht : 0 < t) :
    Tendsto (fun N : ℕ => record (stepMeasure (jointLaw (Kernel.normalLaw d) fun _ => noise) (fun p => pdf p.1) L (fun p => J p.1)) (fun p => p.1 i) (Measure.dirac (x0, z0)) N
      {p | t ≤ |p.2 / N - ∫ x, x i ∂meanPosterior noise pdf J L|}) atTop (nhds 0) := by
  obtain ⟨b, hbb⟩ := hb.exists_norm_le
  obtain ⟨C, hC⟩ := C174_kernels hc hs e d 1 one_pos _ (Or.inl rfl) noise pdf J L h0 m1 m2 m3 hb hM hZ
  have h := (hC (fun x => x i) (measurable_pi_apply i) b fun x hx => (norm_le_pi_norm x i).trans (hbb x hx)).2 x0 z0 hx0
  have lim : Tendsto (fun N : ℕ => ENNReal.ofReal (C * b ^ 2 / (N * t ^ 2))) atTop (nhds 0) := by
    rw [← ENNReal.ofReal_zero]
    refine (ENNReal.continuous_ofReal.tendsto 0).comp ?_
    have : Tendsto (fun N : ℕ => C * b ^ 2 / t ^ 2 / (N : ℝ)) atTop (nhds 0) := tendsto_const_div_atTop_nhds_zero_nat _
    refine this.congr fun N => ?_
    rw [div_div, mul_comm (t ^ 2)]
  refine tendsto_of_tendsto_of_tendsto_of_le_of_le' tendsto_const_nhds lim (Eventually.of_forall fun _ => zero_le) ?_
  filter_upwards [eventually_gt_atTop 0] with N hN using h N hN t ht

/-- The hypotheses are met: one parameter, uniform prior on `[0, 1]`, likelihood `exp (x + z)` with `z` zero or one with equal probabilities, no transformation. -/
example {c : Matrix (Fin 1) (Fin 1) ℝ} (hc : c.PosDef) (hs : c.IsSymm) (e : Kernel.Eigh c) (d : Densities.Svd c) (noise : Measure Bool) [IsProbabilityMeasure noise] (t : ℝ) (ht : 0 < t) :
    Tendsto (fun N : ℕ => record (stepMeasure (jointLaw (Kernel.normalLaw d) fun _ => noise) (fun p => (Set.pi univ fun _ => Icc (0 : ℝ) 1).indicator (fun _ => 1) p.1) (fun p => p.1 0 + if p.2 then 1 else 0)
      (fun _ => 0)) (fun p => p.1 0) (Measure.dirac (fun _ => 1 / 2, true)) N
      {p | t ≤ |p.2 / N - ∫ x : Fin 1 → ℝ, x 0 ∂meanPosterior noise ((Set.pi univ fun _ => Icc (0 : ℝ) 1).indicator fun _ => 1) (fun _ => 0) (fun p => p.1 0 + if p.2 then 1 else 0)|}) atTop (nhds 0) := by
  set S : Set (Fin 1 → ℝ) := Set.pi univ fun _ => Icc (0 : ℝ) 1 with hS
  have mS : MeasurableSet S := MeasurableSet.univ_pi fun _ => measurableSet_Icc
  have mp : Measurable (S.indicator fun _ => (1 : ℝ)) := measurable_const.indicator mS
  have mL : Measurable fun p : (Fin 1 → ℝ) × Bool => p.1 0 + if p.2 then (1 : ℝ) else 0 :=
    ((measurable_pi_apply 0).comp measurable_fst).add ((measurable_of_countable fun b : Bool => if b then (1 : ℝ) else 0).comp measurable_snd)
  have hsupp : {x | S.indicator (fun _ => (1 : ℝ)) x ≠ 0} = S := by
    ext x
    by_cases hx : x ∈ S <;> simp [hx]
  have nn : ∀ x, 0 ≤ S.indicator (fun _ => (1 : ℝ)) x := fun x => indicator_nonneg (fun _ _ => zero_le_one) x
  have hhalf : (fun _ => 1 / 2 : Fin 1 → ℝ) ∈ S := fun i _ => ⟨by norm_num, by norm_num⟩
  refine C174_mean hc hs e d noise (S.indicator fun _ => 1) (fun _ => 0) (fun p => p.1 0 + if p.2 then 1 else 0) nn mp mL measurable_const
    (by rw [hsupp]; exact Bornology.IsBounded.pi fun _ => Metric.isBounded_Icc 0 1) ⟨Real.exp 2, fun x z => ?_⟩ ?_ 0 _ true (by rw [indicator_of_mem hhalf]; exact one_ne_zero) t ht
  · by_cases hx : x ∈ S
    · have h1 : x 0 ≤ 1 := (hx 0 (mem_univ _)).2
      have h2 : (if z then (1 : ℝ) else 0) ≤ 1 := by split <;> norm_num
      simp only [indicator_of_mem hx, one_mul, Real.exp_zero, div_one]
      exact Real.exp_le_exp.2 (by linarith)
    · simpa [hx] using (Real.exp_pos 2).le
  · have key : ENNReal.ofReal (Real.exp 0) * volume S ≤ ∫⁻ x, meanTarget noise (S.indicator fun _ => 1) (fun _ => 0) (fun p => p.1 0 + if p.2 then 1 else 0) x := by
      rw [← setLIntegral_const]
      refine (setLIntegral_mono' mS fun x hx => ?_).trans (setLIntegral_le_lintegral S _)
      rw [meanTarget, indicator_of_mem hx, Real.exp_zero, div_one, ENNReal.ofReal_one, one_mul, ← ENNReal.ofReal_one, ← Real.exp_zero]
      calc ENNReal.ofReal (Real.exp 0) = ∫⁻ _, ENNReal.ofReal (Real.exp 0) ∂noise := by rw [lintegral_const, measure_univ, mul_one]
        _ ≤ _ := by
          refine lintegral_mono fun z => ENNReal.ofReal_le_ofReal (Real.exp_le_exp.2 ?_)
          have h1 : 0 ≤ x 0 := (hx 0 (mem_univ _)).1
          dsimp only
          split <;> linarith [Real.exp_pos 0]
    intro hz
    rw [hz, hS, volume_pi_pi] at key
    simp at key

end Noisy

end Verif.Mcmc
