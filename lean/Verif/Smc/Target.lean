import Verif.Smc.Props
import Mathlib.Probability.Kernel.Composition.MeasureCompProd
import Mathlib.MeasureTheory.Measure.WithDensity
import Mathlib.Probability.Distributions.Gaussian.Real
import Mathlib.Probability.Kernel.Composition.Prod
/-!
# C179: averages estimated by the weighted particles of `SMCABC`

A particle of `SMCABC` (`abcpy/inferences.py` 3406-3574) in the version of Del Moral et al. with the standard kernel and without resampling, as a program with random draws. It is described by expectations: `after` gives
the expectation of a function of the particle after some steps. The thresholds and the populations from which the kernel takes its covariance matrices are fixed; how the code chooses the thresholds is C96.
-/

namespace Verif.Smc

open Verif.Pmc (Pop)
open MeasureTheory ProbabilityTheory
open scoped ENNReal

variable {W X Y : Type} [MeasurableSpace X] [MeasurableSpace Y] (env : Env W X Y) (p : Pop X) (K : Kernel X X) (sim : Kernel X Y)

/-! ### Model -/

/-- Lines 3478-3485 for one particle (see `dmWeights`), before the weights are divided by their sum. -/
noncomputable def reweight (e e' : ℝ) (y : Y) (w : ℝ) : ℝ :=
  if below e (env.dists y) = 0 then 0 else w * (below e' (env.dists y) / below e (env.dists y))

/-- `_accept_parameter`, lines 3765-3808 (see `accept0`): the expectation of `f` of the particle (parameters and simulation) after the move. `K` is the law of the proposals. -/
noncomputable def moveMean (e : ℝ) (f : X × Y → ℝ≥0∞) (z : X × Y) : ℝ≥0∞ :=
  ∫⁻ x', ∫⁻ y', ENNReal.ofReal (prob0 env e p z.1 z.2 x' y') * f (x', y') + ENNReal.ofReal (1 - prob0 env e p z.1 z.2 x' y') * f z ∂sim x' ∂K z.1

/-- A step: its threshold, the population to which the kernel is adapted, and the law of the proposals. -/
structure Stage (X : Type) [MeasurableSpace X] where
  eps : ℝ
  pop : Pop X
  law : Kernel X X

/-- Steps after one with threshold `e`: the expectation of a function of particle and weight. Particles without weight are not moved. -/
noncomputable def after : ℝ → List (Stage X) → (X × Y → ℝ → ℝ≥0∞) → X × Y → ℝ → ℝ≥0∞
  | _, [], f, z, w => f z w
  | e, s :: ss, f, z, w =>
    let w' := reweight env e s.eps z.2 w
    if 0 < w' then moveMean env s.pop s.law sim s.eps (fun z => after s.eps ss f z w') z else after s.eps ss f z w'

/-- The whole run with first threshold `e`: a particle is drawn from the prior with its simulation (3761-3764). All have the same weight at first, which is taken to be one. -/
noncomputable def runMean (prior : Measure X) (e : ℝ) (ss : List (Stage X)) (f : X × Y → ℝ → ℝ≥0∞) : ℝ≥0∞ :=
  ∫⁻ x, ∫⁻ y, after env sim e ss f (x, y) 1 ∂sim x ∂prior

/-! ### Specification -/

/-- The unnormalised target for threshold `e`: the prior, weighted by the number of parts of a simulation that are closer than `e`. The average of `f` under it. -/
noncomputable def targetMean (prior : Measure X) (e : ℝ) (f : X × Y → ℝ≥0∞) : ℝ≥0∞ := ∫⁻ x, ∫⁻ y, ENNReal.ofReal (below e (env.dists y)) * f (x, y) ∂sim x ∂prior

/-! ### Proofs -/

/-- Detailed balance, also where densities are zero. -/
theorem balance (hk : ∀ a b, 0 ≤ env.kernel p a b) (hpdf : ∀ a, 0 ≤ env.pdf a) (e : ℝ) (x x' : X) (y y' : Y) :
    env.pdf x * below e (env.dists y) * env.kernel p x x' * prob0 env e p x y x' y' = env.pdf x' * below e (env.dists y') * env.kernel p x' x * prob0 env e p x' y' x y := by
  by_cases h1 : env.pdf x = 0
  · have : prob0 env e p x' y' x y = 0 := by unfold prob0 ratio; simp [h1]
    rw [h1, this]; ring
  by_cases h2 : env.pdf x' = 0
  · have : prob0 env e p x y x' y' = 0 := by unfold prob0 ratio; simp [h2]
    rw [h2, this]; ring
  by_cases h3 : env.kernel p x x' = 0
  · have : prob0 env e p x' y' x y = 0 := by unfold prob0 ratio; simp [h3]
    rw [h3, this]; ring
  by_cases h4 : env.kernel p x' x = 0
  · have : prob0 env e p x y x' y' = 0 := by unfold prob0 ratio; simp [h4]
    rw [h4, this]; ring
  have := C78_detailed_balance env e p (fun _ _ => 1) x x' y y' ((hpdf x).lt_of_ne' h1) ((hpdf x').lt_of_ne' h2) ((hk _ _).lt_of_ne' h3) ((hk _ _).lt_of_ne' h4)
  linear_combination this

theorem prob0_mem (hk : ∀ a b, 0 ≤ env.kernel p a b) (hpdf : ∀ a, 0 ≤ env.pdf a) (e : ℝ) (x x' : X) (y y' : Y) : 0 ≤ prob0 env e p x y x' y' ∧ prob0 env e p x y x' y' ≤ 1 := by
  refine ⟨le_min zero_le_one (mul_nonneg ?_ ?_), min_le_left _ _⟩
  · split_ifs
    · exact zero_le_one
    · exact div_nonneg (below_nonneg _ _) (below_nonneg _ _)
  · exact mul_nonneg (div_nonneg (hpdf _) (hpdf _)) (div_nonneg (hk _ _) (hk _ _))

/-- What is taken to hold: the kernel density is the density of the proposals with respect to `μ`, the prior density that of the prior, and everything is measurable. -/
structure Setting (μ prior : Measure X) : Prop where
  pdf0 : ∀ a, 0 ≤ env.pdf a
  kernel0 : ∀ a b, 0 ≤ env.kernel p a b
  pdfMeas : Measurable env.pdf
  kernelMeas : Measurable fun q : X × X => env.kernel p q.1 q.2
  belowMeas : ∀ e, Measurable fun y => below e (env.dists y)
  proposals : ∀ x, K x = μ.withDensity fun x' => ENNReal.ofReal (env.kernel p x x')
  markov : IsMarkovKernel K
  prior : prior = μ.withDensity fun x => ENNReal.ofReal (env.pdf x)

variable {env p K sim} {μ prior : Measure X} [SFinite μ] [IsMarkovKernel sim] (S : Setting env p K μ prior)

include S

theorem Setting.prob0Meas (e : ℝ) : Measurable fun q : (X × Y) × (X × Y) => prob0 env e p q.1.1 q.1.2 q.2.1 q.2.2 := by
  have b1 : Measurable fun q : (X × Y) × (X × Y) => below e (env.dists q.1.2) := (S.belowMeas e).comp (measurable_snd.comp measurable_fst)
  have b2 : Measurable fun q : (X × Y) × (X × Y) => below e (env.dists q.2.2) := (S.belowMeas e).comp (measurable_snd.comp measurable_snd)
  have d1 : Measurable fun q : (X × Y) × (X × Y) => env.pdf q.1.1 := S.pdfMeas.comp (measurable_fst.comp measurable_fst)
  have d2 : Measurable fun q : (X × Y) × (X × Y) => env.pdf q.2.1 := S.pdfMeas.comp (measurable_fst.comp measurable_snd)
  have k1 : Measurable fun q : (X × Y) × (X × Y) => env.kernel p q.1.1 q.2.1 := S.kernelMeas.comp ((measurable_fst.comp measurable_fst).prodMk (measurable_fst.comp measurable_snd))
  have k2 : Measurable fun q : (X × Y) × (X × Y) => env.kernel p q.2.1 q.1.1 := S.kernelMeas.comp ((measurable_fst.comp measurable_snd).prodMk (measurable_fst.comp measurable_fst))
  unfold prob0 ratio
  refine measurable_const.min (Measurable.mul (Measurable.ite (measurableSet_eq_fun b1 measurable_const) measurable_const (b2.div b1)) ((d2.div d1).mul (k2.div k1)))

/-- Expectations over a proposal with its simulation, as integrals with respect to one measure. -/
theorem Setting.mean_eq (x : X) (g : X × Y → ℝ≥0∞) (hg : Measurable g) :
    ∫⁻ x', ∫⁻ y', g (x', y') ∂sim x' ∂K x = ∫⁻ z, ENNReal.ofReal (env.kernel p x z.1) * g z ∂(μ ⊗ₘ sim) := by
  have hkx : Measurable fun x' => ENNReal.ofReal (env.kernel p x x') := (S.kernelMeas.comp measurable_prodMk_left).ennreal_ofReal
  rw [S.proposals, lintegral_withDensity_eq_lintegral_mul _ hkx (Measurable.lintegral_kernel_prod_right' hg),
    Measure.lintegral_compProd (show Measurable fun z : X × Y => ENNReal.ofReal (env.kernel p x z.1) * g z from (hkx.comp measurable_fst).mul hg)]
  refine lintegral_congr fun x' => ?_
  rw [Pi.mul_apply, ← lintegral_const_mul _ (show Measurable fun y => g (x', y) from hg.comp measurable_prodMk_left)]

theorem Setting.target_eq (e : ℝ) (f : X × Y → ℝ≥0∞) (hf : Measurable f) :
    targetMean env sim prior e f = ∫⁻ z, ENNReal.ofReal (env.pdf z.1 * below e (env.dists z.2)) * f z ∂(μ ⊗ₘ sim) := by
  have hb : Measurable fun z : X × Y => ENNReal.ofReal (below e (env.dists z.2)) * f z := ((S.belowMeas e).comp measurable_snd).ennreal_ofReal.mul hf
  have hm : Measurable fun z : X × Y => ENNReal.ofReal (env.pdf z.1 * below e (env.dists z.2)) * f z :=
    ((S.pdfMeas.comp measurable_fst).mul ((S.belowMeas e).comp measurable_snd)).ennreal_ofReal.mul hf
  unfold targetMean
  rw [S.prior, lintegral_withDensity_eq_lintegral_mul _ S.pdfMeas.ennreal_ofReal (Measurable.lintegral_kernel_prod_right' hb), Measure.lintegral_compProd hm]
  refine lintegral_congr fun x => ?_
  rw [Pi.mul_apply, ← lintegral_const_mul _ (show Measurable fun y => ENNReal.ofReal (below e (env.dists (x, y).2)) * f (x, y) from hb.comp measurable_prodMk_left)]
  refine lintegral_congr fun y => ?_
  rw [ENNReal.ofReal_mul (S.pdf0 x)]
  ring

/-- What is integrated in a move. -/
noncomputable def inner (env : Env W X Y) (p : Pop X) (e : ℝ) (f : X × Y → ℝ≥0∞) (q : (X × Y) × (X × Y)) : ℝ≥0∞ :=
  ENNReal.ofReal (prob0 env e p q.1.1 q.1.2 q.2.1 q.2.2) * f q.2 + ENNReal.ofReal (1 - prob0 env e p q.1.1 q.1.2 q.2.1 q.2.2) * f q.1

theorem Setting.innerMeas (e : ℝ) (f : X × Y → ℝ≥0∞) (hf : Measurable f) : Measurable (inner env p e f) := by
  have h := S.prob0Meas (Y := Y) e
  exact (h.ennreal_ofReal.mul (hf.comp measurable_snd)).add ((measurable_const.sub h).ennreal_ofReal.mul (hf.comp measurable_fst))

theorem Setting.move_eq (e : ℝ) (f : X × Y → ℝ≥0∞) (hf : Measurable f) (z : X × Y) :
    moveMean env p K sim e f z = ∫⁻ z', ENNReal.ofReal (env.kernel p z.1 z'.1) * inner env p e f (z, z') ∂(μ ⊗ₘ sim) :=
  S.mean_eq z.1 (fun z' => inner env p e f (z, z')) ((S.innerMeas e f hf).comp measurable_prodMk_left)

theorem Setting.moveMeas (e : ℝ) (f : X × Y → ℝ≥0∞) (hf : Measurable f) : Measurable (moveMean env p K sim e f) := by
  have hk : Measurable fun q : (X × Y) × (X × Y) => env.kernel p q.1.1 q.2.1 := S.kernelMeas.comp ((measurable_fst.comp measurable_fst).prodMk (measurable_fst.comp measurable_snd))
  have : moveMean env p K sim e f = fun z => ∫⁻ z', ENNReal.ofReal (env.kernel p z.1 z'.1) * inner env p e f (z, z') ∂(μ ⊗ₘ sim) := funext fun z => S.move_eq e f hf z
  rw [this]
  exact Measurable.lintegral_prod_right' (f := fun q : (X × Y) × (X × Y) => ENNReal.ofReal (env.kernel p q.1.1 q.2.1) * inner env p e f q) (hk.ennreal_ofReal.mul (S.innerMeas e f hf))

/-- **C179, moves.** A move of the standard kernel leaves the target of its threshold invariant. -/
theorem C179_move (e : ℝ) (f : X × Y → ℝ≥0∞) (hf : Measurable f) : targetMean env sim prior e (moveMean env p K sim e f) = targetMean env sim prior e f := by
  set m := μ ⊗ₘ sim with hm
  have hk : Measurable fun q : (X × Y) × (X × Y) => env.kernel p q.1.1 q.2.1 := S.kernelMeas.comp ((measurable_fst.comp measurable_fst).prodMk (measurable_fst.comp measurable_snd))
  have hpr := S.prob0Meas (Y := Y) e
  set τ : X × Y → ℝ := fun z => env.pdf z.1 * below e (env.dists z.2) with hτ
  have hτm : Measurable τ := (S.pdfMeas.comp measurable_fst).mul ((S.belowMeas e).comp measurable_snd)
  have hτ0 : ∀ z, 0 ≤ τ z := fun z => mul_nonneg (S.pdf0 _) (below_nonneg _ _)
  set a : X × Y → X × Y → ℝ := fun z z' => prob0 env e p z.1 z.2 z'.1 z'.2 with ha
  have ha0 : ∀ z z', 0 ≤ a z z' := fun z z' => (prob0_mem env p S.kernel0 S.pdf0 e _ _ _ _).1
  have ha1 : ∀ z z', a z z' ≤ 1 := fun z z' => (prob0_mem env p S.kernel0 S.pdf0 e _ _ _ _).2
  set F : X × Y → X × Y → ℝ≥0∞ := fun z z' => ENNReal.ofReal (τ z * env.kernel p z.1 z'.1 * a z z') with hF
  have hFs : ∀ z z', F z z' = F z' z := fun z z' => by
    simp only [hF, hτ, ha]
    rw [balance env p S.kernel0 S.pdf0]
  have hFm : Measurable fun q : (X × Y) × (X × Y) => F q.1 q.2 := (((hτm.comp measurable_fst).mul hk).mul hpr).ennreal_ofReal
  set R : X × Y → X × Y → ℝ≥0∞ := fun z z' => ENNReal.ofReal (τ z * env.kernel p z.1 z'.1 * (1 - a z z')) with hR
  have hRm : Measurable fun q : (X × Y) × (X × Y) => R q.1 q.2 := (((hτm.comp measurable_fst).mul hk).mul (measurable_const.sub hpr)).ennreal_ofReal
  rw [S.target_eq e _ (S.moveMeas e f hf), S.target_eq e f hf]
  have e1 : ∀ z, ENNReal.ofReal (τ z) * moveMean env p K sim e f z = (∫⁻ z', F z z' * f z' ∂m) + ∫⁻ z', R z z' * f z ∂m := by
    intro z
    have i1 : Measurable fun z' => F z z' * f z' := (hFm.comp measurable_prodMk_left).mul hf
    have i2 : Measurable fun z' => ENNReal.ofReal (env.kernel p z.1 z'.1) * inner env p e f (z, z') := (hk.comp measurable_prodMk_left).ennreal_ofReal.mul ((S.innerMeas e f hf).comp measurable_prodMk_left)
    rw [S.move_eq e f hf, ← lintegral_add_left i1, ← lintegral_const_mul _ i2]
    refine lintegral_congr fun z' => ?_
    simp only [inner, hF, hR]
    rw [mul_assoc (τ z), ENNReal.ofReal_mul (hτ0 z), ENNReal.ofReal_mul (S.kernel0 _ _), mul_assoc (τ z), ENNReal.ofReal_mul (hτ0 z), ENNReal.ofReal_mul (S.kernel0 _ _)]
    ring
  have s1 : ∫⁻ z, ∫⁻ z', F z z' * f z' ∂m ∂m = ∫⁻ z, ∫⁻ z', F z z' * f z ∂m ∂m := by
    have hmeas : AEMeasurable (Function.uncurry fun z z' => F z z' * f z') (m.prod m) := (hFm.mul (hf.comp measurable_snd)).aemeasurable
    rw [lintegral_lintegral_swap hmeas]
    refine lintegral_congr fun z => lintegral_congr fun z' => ?_
    rw [hFs]
  have h1 : Measurable fun z => ∫⁻ z', F z z' * f z' ∂m := Measurable.lintegral_prod_right' (f := fun q : (X × Y) × (X × Y) => F q.1 q.2 * f q.2) (hFm.mul (hf.comp measurable_snd))
  have h2 : Measurable fun z => ∫⁻ z', F z z' * f z ∂m := Measurable.lintegral_prod_right' (f := fun q : (X × Y) × (X × Y) => F q.1 q.2 * f q.1) (hFm.mul (hf.comp measurable_fst))
  calc ∫⁻ z, ENNReal.ofReal (τ z) * moveMean env p K sim e f z ∂m
      = (∫⁻ z, ∫⁻ z', F z z' * f z' ∂m ∂m) + ∫⁻ z, ∫⁻ z', R z z' * f z ∂m ∂m := by
        rw [← lintegral_add_left h1]
        exact lintegral_congr e1
    _ = ∫⁻ z, ((∫⁻ z', F z z' * f z ∂m) + ∫⁻ z', R z z' * f z ∂m) ∂m := by rw [s1, ← lintegral_add_left h2]
    _ = ∫⁻ z, ENNReal.ofReal (τ z) * f z ∂m := by
        refine lintegral_congr fun z => ?_
        have i1 : Measurable fun z' => F z z' * f z := (hFm.comp measurable_prodMk_left).mul_const _
        rw [← lintegral_add_left i1]
        have e2 : ∀ z', F z z' * f z + R z z' * f z = ENNReal.ofReal (env.kernel p z.1 z'.1) * (ENNReal.ofReal (τ z) * f z) := by
          intro z'
          have hn : 0 ≤ τ z * env.kernel p z.1 z'.1 := mul_nonneg (hτ0 z) (S.kernel0 _ _)
          simp only [hF, hR]
          rw [← add_mul, ← ENNReal.ofReal_add (mul_nonneg hn (ha0 _ _)) (mul_nonneg hn (by linarith [ha1 z z'])), ← mul_add, add_sub_cancel, mul_one, ENNReal.ofReal_mul (hτ0 z)]
          ring
        simp_rw [e2]
        have := S.markov
        rw [← S.mean_eq z.1 (fun _ => ENNReal.ofReal (τ z) * f z) measurable_const]
        simp

omit S [SFinite μ] [IsMarkovKernel sim] in
theorem reweight_mul (e e' : ℝ) (y : Y) (w : ℝ) : reweight env e e' y w = w * reweight env e e' y 1 := by
  unfold reweight
  split_ifs <;> ring

omit S [SFinite μ] [IsMarkovKernel sim] in
theorem reweight_nonneg (e e' : ℝ) (y : Y) (w : ℝ) (hw : 0 ≤ w) : 0 ≤ reweight env e e' y w := by
  unfold reweight
  split_ifs
  · exact le_rfl
  · exact mul_nonneg hw (div_nonneg (below_nonneg _ _) (below_nonneg _ _))

theorem Setting.reweightMeas (e e' : ℝ) : Measurable fun y => reweight env e e' y 1 := by
  unfold reweight
  exact Measurable.ite (measurableSet_eq_fun (S.belowMeas e) measurable_const) measurable_const (measurable_const.mul ((S.belowMeas e').div (S.belowMeas e)))

/-- A constant comes out of a move. -/
theorem Setting.move_mul (e : ℝ) (f : X × Y → ℝ≥0∞) (hf : Measurable f) (c : ℝ≥0∞) (z : X × Y) :
    moveMean env p K sim e (fun z => c * f z) z = c * moveMean env p K sim e f z := by
  have hk : Measurable fun q : (X × Y) × (X × Y) => env.kernel p q.1.1 q.2.1 := S.kernelMeas.comp ((measurable_fst.comp measurable_fst).prodMk (measurable_fst.comp measurable_snd))
  have i : Measurable fun z' => ENNReal.ofReal (env.kernel p z.1 z'.1) * inner env p e f (z, z') := (hk.comp measurable_prodMk_left).ennreal_ofReal.mul ((S.innerMeas e f hf).comp measurable_prodMk_left)
  rw [S.move_eq e (fun z => c * f z) (measurable_const.mul hf), S.move_eq e f hf, ← lintegral_const_mul _ i]
  refine lintegral_congr fun z' => ?_
  simp only [inner]
  ring

omit S

/-- The runs without the weights: each step multiplies by the factor of its reweighting. -/
noncomputable def factored (env : Env W X Y) (sim : Kernel X Y) : ℝ → List (Stage X) → (X × Y → ℝ≥0∞) → X × Y → ℝ≥0∞
  | _, [], f, z => f z
  | e, s :: ss, f, z => ENNReal.ofReal (reweight env e s.eps z.2 1) * moveMean env s.pop s.law sim s.eps (factored env sim s.eps ss f) z

theorem factoredMeas (f : X × Y → ℝ≥0∞) (hf : Measurable f) : ∀ (ss : List (Stage X)) (e : ℝ), (∀ s ∈ ss, Setting env s.pop s.law μ prior) → Measurable (factored env sim e ss f)
  | [], _, _ => hf
  | s :: ss, e, h => (((h s (by simp)).reweightMeas e s.eps).comp measurable_snd).ennreal_ofReal.mul
      ((h s (by simp)).moveMeas s.eps _ (factoredMeas f hf ss s.eps fun t ht => h t (by simp [ht])))

theorem after_eq (f : X × Y → ℝ≥0∞) (hf : Measurable f) : ∀ (ss : List (Stage X)) (e : ℝ) (z : X × Y) (w : ℝ), (∀ s ∈ ss, Setting env s.pop s.law μ prior) → 0 ≤ w →
    after env sim e ss (fun z w => ENNReal.ofReal w * f z) z w = ENNReal.ofReal w * factored env sim e ss f z
  | [], _, _, _, _, _ => rfl
  | s :: ss, e, z, w, h, hw => by
    have h0 := reweight_nonneg (env := env) e s.eps z.2 w hw
    have hss : ∀ s ∈ ss, Setting env s.pop s.law μ prior := fun t ht => h t (by simp [ht])
    have ih := fun z => after_eq f hf ss s.eps z _ hss h0
    simp only [after, factored]
    rw [← mul_assoc, ← ENNReal.ofReal_mul hw, ← reweight_mul]
    split_ifs with hp
    · simp_rw [ih]
      exact (h s (by simp)).move_mul s.eps _ (factoredMeas f hf ss s.eps hss) _ z
    · rw [ih z, le_antisymm (not_lt.1 hp) h0]
      simp

theorem reweight_target {e e' : ℝ} (h : e' ≤ e) (y : Y) : below e (env.dists y) * reweight env e e' y 1 = below e' (env.dists y) := by
  unfold reweight
  split_ifs with h0
  · rw [mul_zero, below_mono h _ h0]
  · field_simp

/-- The last threshold. -/
def lastEps (e : ℝ) (ss : List (Stage X)) : ℝ := (e :: ss.map Stage.eps).getLast (by simp)

/-- Steps with decreasing thresholds take the target of one threshold to that of the last. -/
theorem steps (f : X × Y → ℝ≥0∞) (hf : Measurable f) : ∀ (ss : List (Stage X)) (e : ℝ), (∀ s ∈ ss, Setting env s.pop s.law μ prior) → (e :: ss.map Stage.eps).Pairwise (fun a b => b ≤ a) →
    targetMean env sim prior e (factored env sim e ss f) = targetMean env sim prior (lastEps e ss) f
  | [], _, _, _ => rfl
  | s :: ss, e, h, hd => by
    have hle : s.eps ≤ e := (List.pairwise_cons.1 hd).1 s.eps (by simp)
    have hss : ∀ s ∈ ss, Setting env s.pop s.law μ prior := fun t ht => h t (by simp [ht])
    have ih := steps f hf ss s.eps hss (List.pairwise_cons.1 hd).2
    have hl : lastEps e (s :: ss) = lastEps s.eps ss := List.getLast_cons (by simp)
    rw [hl, ← ih, ← C179_move (h s (by simp)) s.eps _ (factoredMeas f hf ss s.eps hss)]
    unfold targetMean
    refine lintegral_congr fun x => lintegral_congr fun y => ?_
    simp only [factored]
    rw [← mul_assoc, ← ENNReal.ofReal_mul (below_nonneg _ _), reweight_target hle]

/-- **C179, weights.** However many steps are made and however fast the thresholds decrease, the weights of the particles correct for the differences between the thresholds: the expected weighted value of any function of
parameters and simulation is a multiple, the same for all functions, of its average under the prior weighted by the number of parts closer than the last threshold, for all kernels whose densities are those of their proposals.
With the initial threshold all parts of a simulation are close or none is (always so for one part). -/
theorem C179_weighted_partial (f : X × Y → ℝ≥0∞) (hf : Measurable f) (e : ℝ) (ss : List (Stage X)) (hne : ss ≠ []) (hS : ∀ s ∈ ss, Setting env s.pop s.law μ prior)
    (hd : (e :: ss.map Stage.eps).Pairwise (fun a b => b ≤ a)) (n : ℕ) (hfirst : ∀ y, below e (env.dists y) = 0 ∨ below e (env.dists y) = n) :
    (n : ℝ≥0∞) * runMean env sim prior e ss (fun z w => ENNReal.ofReal w * f z) = targetMean env sim prior (lastEps e ss) f := by
  have hm := factoredMeas (sim := sim) f hf ss e hS
  rw [← steps f hf ss e hS hd]
  have e0 : runMean env sim prior e ss (fun z w => ENNReal.ofReal w * f z) = ∫⁻ x, ∫⁻ y, factored env sim e ss f (x, y) ∂sim x ∂prior :=
    lintegral_congr fun x => lintegral_congr fun y => by rw [after_eq f hf ss e (x, y) 1 hS zero_le_one, ENNReal.ofReal_one, one_mul]
  rw [e0]
  unfold targetMean
  have m1 : Measurable fun x => ∫⁻ y, factored env sim e ss f (x, y) ∂sim x := Measurable.lintegral_kernel_prod_right' hm
  rw [← lintegral_const_mul _ m1]
  refine lintegral_congr fun x => ?_
  have m2 : Measurable fun y => factored env sim e ss f (x, y) := hm.comp measurable_prodMk_left
  rw [← lintegral_const_mul _ m2]
  refine lintegral_congr fun y => ?_
  rcases hfirst y with h | h
  · obtain ⟨s, ss, rfl⟩ := List.exists_cons_of_ne_nil hne
    simp [factored, reweight, h]
  · rw [h, ENNReal.ofReal_natCast]

/-- **C179.** Under the same conditions (missing: several parts of which the initial threshold separates some, and proposals that are refused) the expected weighted value of a function, divided by the expected weight, is its average under the target: what a user estimates with the weights of a journal. -/
theorem C179_partial (f : X × Y → ℝ≥0∞) (hf : Measurable f) (e : ℝ) (ss : List (Stage X)) (hne : ss ≠ []) (hS : ∀ s ∈ ss, Setting env s.pop s.law μ prior)
    (hd : (e :: ss.map Stage.eps).Pairwise (fun a b => b ≤ a)) (n : ℕ) (hn : 0 < n) (hfirst : ∀ y, below e (env.dists y) = 0 ∨ below e (env.dists y) = n) :
    runMean env sim prior e ss (fun z w => ENNReal.ofReal w * f z) / runMean env sim prior e ss (fun _ w => ENNReal.ofReal w) =
      targetMean env sim prior (lastEps e ss) f / targetMean env sim prior (lastEps e ss) (fun _ => 1) := by
  have h1 := C179_weighted_partial (sim := sim) f hf e ss hne hS hd n hfirst
  have h2 := C179_weighted_partial (sim := sim) (fun _ => 1) measurable_const e ss hne hS hd n hfirst
  simp only [mul_one] at h2
  rw [← h1, ← h2, ENNReal.mul_div_mul_left _ _ (by exact_mod_cast hn.ne') (ENNReal.natCast_ne_top n)]

/-- The weights of the model are these weights. -/
theorem dmWeights_eq (old : List ℝ) (ys : List Y) (e e' : ℝ) : dmWeights old (ys.map env.dists) e e' = List.zipWith (fun w y => reweight env e e' y w) old ys := by
  unfold dmWeights reweight
  rw [List.zipWith_map_right]

/-! ### A concrete case and a counterexample -/

/-- A value with normal noise added. -/
noncomputable def noisy (v : NNReal) : Kernel ℝ ℝ := (Kernel.id ×ₖ Kernel.const ℝ (gaussianReal 0 v)).map fun q => q.1 + q.2

instance (v : NNReal) : IsMarkovKernel (noisy v) := Kernel.IsMarkovKernel.map _ (by fun_prop)

theorem noisy_apply (v : NNReal) (x : ℝ) : noisy v x = gaussianReal x v := by
  rw [noisy, Kernel.map_apply _ (by fun_prop), Kernel.prod_apply, Kernel.id_apply, Kernel.const_apply, Measure.dirac_prod, Measure.map_map (by fun_prop) (by fun_prop)]
  have : ((fun q : ℝ × ℝ => q.1 + q.2) ∘ Prod.mk x) = (x + ·) := rfl
  rw [this, gaussianReal_map_const_add, zero_add]

/-- A normal prior, a normal model, a random walk whose variance depends on the population, one part per simulation with observation 0. -/
noncomputable def normalEnv : Env Unit ℝ ℝ := ⟨fun y => |y|, fun y => [ |y| ], gaussianPDFReal 0 1, fun p a b => gaussianPDFReal a (p.params.length + 1) b,
  fun w => (w, 0), fun _ _ w => (w, none), fun _ _ w => (w, none), fun _ w => (w, 0), fun _ w => (w, false), fun _ w => (w, 0)⟩

theorem normalEnv_setting (p : Pop ℝ) : Setting normalEnv p (noisy (p.params.length + 1)) volume (gaussianReal 0 1) where
  pdf0 := fun a => gaussianPDFReal_nonneg _ _ _
  kernel0 := fun a b => gaussianPDFReal_nonneg _ _ _
  pdfMeas := measurable_gaussianPDFReal _ _
  kernelMeas := by
    simp only [normalEnv, gaussianPDFReal]
    fun_prop
  belowMeas := fun e => by
    have : (fun y => below e (normalEnv.dists y)) = fun y : ℝ => if |y| < e then 1 else 0 := by
      funext y
      by_cases h : |y| < e <;> simp [below, normalEnv, h]
    rw [this]
    exact Measurable.ite (measurableSet_lt (by fun_prop) measurable_const) measurable_const measurable_const
  proposals := fun x => by
    rw [noisy_apply, gaussianReal_of_var_ne_zero _ (by positivity)]
    rfl
  markov := inferInstance
  prior := by
    rw [gaussianReal_of_var_ne_zero _ one_ne_zero]
    rfl

/-- The hypotheses of `C179_partial` for the normal model with two steps and different kernels; the first threshold is that of an unbounded distance. -/
example (q : Pop ℝ) (f : ℝ × ℝ → ℝ≥0∞) (hf : Measurable f) :
    let ss : List (Stage ℝ) := [⟨2, ⟨[], []⟩, noisy 1⟩, ⟨1, q, noisy (q.params.length + 1)⟩]
    runMean normalEnv (noisy 1) (gaussianReal 0 1) 100000 ss (fun z w => ENNReal.ofReal w * f z) / runMean normalEnv (noisy 1) (gaussianReal 0 1) 100000 ss (fun _ w => ENNReal.ofReal w) =
      targetMean normalEnv (noisy 1) (gaussianReal 0 1) 1 f / targetMean normalEnv (noisy 1) (gaussianReal 0 1) 1 (fun _ => 1) := by
  refine C179_partial (μ := volume) f hf 100000 _ (by simp) ?_ (by norm_num) 1 one_pos ?_
  · intro s hs
    simp only [List.mem_cons, List.not_mem_nil, or_false] at hs
    rcases hs with rfl | rfl
    · simpa using normalEnv_setting ⟨[], []⟩
    · exact normalEnv_setting q
  · intro y
    by_cases h : |y| < 100000 <;> simp [below, normalEnv, h]

/-- One parameter value; simulations have two parts, one of which may be far away. -/
noncomputable def partsEnv : Env Unit Unit Bool := ⟨fun _ => 0, fun y => if y then [0, 2] else [0, 0], fun _ => 1, fun _ _ _ => 1,
  fun w => (w, ()), fun _ _ w => (w, some ()), fun _ _ w => (w, some ()), fun _ w => (w, true), fun _ w => (w, true), fun _ w => (w, 0)⟩

/-- A fair coin. -/
noncomputable def coin : Measure Bool := ENNReal.ofReal (1 / 2) • Measure.dirac true + ENNReal.ofReal (1 / 2) • Measure.dirac false

instance : IsProbabilityMeasure coin := ⟨by simp [coin, ENNReal.inv_two_add_inv_two]⟩

theorem lintegral_coin (g : Bool → ℝ≥0∞) : ∫⁻ y, g y ∂coin = ENNReal.ofReal (1 / 2) * g true + ENNReal.ofReal (1 / 2) * g false := by
  simp [coin]

theorem partsEnv_below (y : Bool) : below 1 (partsEnv.dists y) = if y then 1 else 2 := by
  cases y <;> norm_num [below, partsEnv]

theorem partsEnv_prob (y y' : Bool) : prob0 partsEnv 1 ⟨[], []⟩ () y () y' = if y = false ∧ y' = true then 1 / 2 else 1 := by
  unfold prob0 ratio
  rw [partsEnv_below, partsEnv_below]
  cases y <;> cases y' <;> norm_num [partsEnv]

theorem partsEnv_move (f : Unit × Bool → ℝ≥0∞) (y : Bool) : moveMean partsEnv ⟨[], []⟩ Kernel.id (Kernel.const _ coin) 1 f ((), y) =
    if y then ENNReal.ofReal (1 / 2) * f ((), true) + ENNReal.ofReal (1 / 2) * f ((), false) else ENNReal.ofReal (1 / 4) * f ((), true) + ENNReal.ofReal (3 / 4) * f ((), false) := by
  have h3 : ENNReal.ofReal (3 / 4) = ENNReal.ofReal (1 / 2) * ENNReal.ofReal (1 / 2) + ENNReal.ofReal (1 / 2) := by
    rw [← ENNReal.ofReal_mul (by norm_num), ← ENNReal.ofReal_add (by norm_num) (by norm_num)]; norm_num
  have h4 : ENNReal.ofReal (1 / 4) = ENNReal.ofReal (1 / 2) * ENNReal.ofReal (1 / 2) := by
    rw [← ENNReal.ofReal_mul (by norm_num)]; norm_num
  have h5 : (1 : ℝ) - 1 / 2 = 1 / 2 := by norm_num
  unfold moveMean
  simp only [Kernel.id_apply, lintegral_dirac, Kernel.const_apply, lintegral_coin, partsEnv_prob]
  cases y
  · simp only [Bool.false_eq_true, and_false, and_true, if_true, if_false, ENNReal.ofReal_one, sub_self, ENNReal.ofReal_zero, zero_mul, add_zero, one_mul, h3, h4, h5, mul_add, add_mul]
    ring
  · simp

theorem partsEnv_run (f : Unit × Bool → ℝ≥0∞) : runMean partsEnv (Kernel.const _ coin) (Measure.dirac ()) 1 [⟨1, ⟨[], []⟩, Kernel.id⟩] (fun z w => ENNReal.ofReal w * f z) =
    ENNReal.ofReal (3 / 8) * f ((), true) + ENNReal.ofReal (5 / 8) * f ((), false) := by
  have hr : ∀ y, reweight partsEnv 1 1 y 1 = 1 := fun y => by
    unfold reweight
    rw [partsEnv_below]
    cases y <;> norm_num
  unfold runMean
  simp only [lintegral_dirac, Kernel.const_apply, lintegral_coin, after, hr, zero_lt_one, if_true, partsEnv_move, ENNReal.ofReal_one, one_mul, Bool.false_eq_true, if_false, mul_add, ← mul_assoc]
  rw [← ENNReal.ofReal_mul (by norm_num), ← ENNReal.ofReal_mul (by norm_num), ← ENNReal.ofReal_mul (by norm_num), add_add_add_comm, ← add_mul, ← add_mul, ← ENNReal.ofReal_add (by norm_num) (by norm_num),
    ← ENNReal.ofReal_add (by norm_num) (by norm_num)]
  norm_num

theorem partsEnv_target (f : Unit × Bool → ℝ≥0∞) : targetMean partsEnv (Kernel.const _ coin) (Measure.dirac ()) 1 f = ENNReal.ofReal (1 / 2) * f ((), true) + f ((), false) := by
  unfold targetMean
  simp only [lintegral_dirac, Kernel.const_apply, lintegral_coin, partsEnv_below, if_true, Bool.false_eq_true, if_false, ENNReal.ofReal_one, one_mul, ← mul_assoc]
  rw [← ENNReal.ofReal_mul (by norm_num)]
  norm_num

/-- **C179 fails for several parts.** If with the initial threshold some parts of a simulation are close and some are not, averages are not those of the target, even though nothing is resampled and the kernel is as it should be. -/
theorem C179_parts_violated : ∃ (env : Env Unit Unit Bool) (sim : Kernel Unit Bool) (s : Stage Unit) (f : Unit × Bool → ℝ≥0∞), IsMarkovKernel sim ∧ Setting env s.pop s.law (Measure.dirac ()) (Measure.dirac ()) ∧
    runMean env sim (Measure.dirac ()) 1 [s] (fun z w => ENNReal.ofReal w * f z) / runMean env sim (Measure.dirac ()) 1 [s] (fun _ w => ENNReal.ofReal w) ≠
      targetMean env sim (Measure.dirac ()) (lastEps 1 [s]) f / targetMean env sim (Measure.dirac ()) (lastEps 1 [s]) (fun _ => 1) := by
  refine ⟨partsEnv, Kernel.const _ coin, ⟨1, ⟨[], []⟩, Kernel.id⟩, fun z => if z.2 then 0 else 1, inferInstance, ?_, ?_⟩
  · refine ⟨fun _ => zero_le_one, fun _ _ => zero_le_one, measurable_const, measurable_const, fun _ => measurable_of_countable _, fun x => ?_, inferInstance, ?_⟩
    · simp [partsEnv, Kernel.id_apply]
    · simp [partsEnv]
  · have h1 := partsEnv_run fun z => if z.2 then 0 else 1
    have h2 := partsEnv_run fun _ => 1
    have hl : lastEps 1 [(⟨1, ⟨[], []⟩, Kernel.id⟩ : Stage Unit)] = 1 := rfl
    simp only [mul_one] at h2
    rw [h1, h2, hl, partsEnv_target, partsEnv_target]
    simp only [if_true, Bool.false_eq_true, if_false, mul_zero, zero_add, mul_one]
    rw [← ENNReal.ofReal_one, ← ENNReal.ofReal_add (by norm_num) (by norm_num), ← ENNReal.ofReal_add (by norm_num) (by norm_num), ← ENNReal.ofReal_div_of_pos (by norm_num), ← ENNReal.ofReal_div_of_pos (by norm_num)]
    intro h
    rw [ENNReal.ofReal_eq_ofReal_iff (by norm_num) (by norm_num)] at h
    norm_num at h

end Verif.Smc
