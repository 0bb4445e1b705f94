import Verif.Redraw
import Verif.Smc.Target

/-!
# C95: the distribution that the moves of `SMCABC` do leave as it is when refused proposals are drawn again
-/

namespace Verif.Smc

open Verif.Pmc (Pop)
open MeasureTheory ProbabilityTheory Measure Set
open scoped ENNReal

variable {W X Y : Type} [MeasurableSpace X] [MeasurableSpace Y] {env : Env W X Y} {p : Pop X} {K : Kernel X X} {sim : Kernel X Y}

/-- The values that the loop of lines 3768-3771 of `abcpy/inferences.py` accepts. -/
def support (env : Env W X Y) : Set X := {x | env.pdf x ≠ 0}

/-- `_accept_parameter` with proposals that are drawn again (3765-3808): the expectation of `f` of the particle after a move from `z`, given that the loop ends within `tries` draws from `K`. -/
noncomputable def redrawMean (env : Env W X Y) (p : Pop X) (K : Kernel X X) (sim : Kernel X Y) (tries : ℕ) (e : ℝ) (f : X × Y → ℝ≥0∞) (z : X × Y) : ℝ≥0∞ :=
  Redraw.moveMean (Redraw.proposed (K z.1) (support env) tries) sim (fun z z' => prob0 env e p z.1 z.2 z'.1 z'.2) f z

/-- **C95, exactly.** Whatever the threshold, moves leave invariant the target (prior times approximate likelihood) times the probability that a proposal is not refused. -/
theorem C95_exact {μ prior : Measure X} [SFinite μ] [IsMarkovKernel sim] (S : Setting env p K μ prior) (stays : ∀ x ∈ support env, K x (support env) ≠ 0) (tries : ℕ) (ht : 0 < tries) (e : ℝ)
    (f : X × Y → ℝ≥0∞) (hf : Measurable f) :
    targetMean env sim prior e (fun z => K z.1 (support env) * redrawMean env p K sim tries e f z) = targetMean env sim prior e (fun z => K z.1 (support env) * f z) := by
  set k : X → X → ℝ≥0∞ := fun x x' => ENNReal.ofReal (env.kernel p x x') with hkd
  have hk : Measurable fun q : X × X => k q.1 q.2 := S.kernelMeas.ennreal_ofReal
  have hKk : ∀ x, μ.withDensity (k x) = K x := fun x => (S.proposals x).symm
  have hK : ∀ x, IsProbabilityMeasure (μ.withDensity (k x)) := fun x => by
    have := S.markov
    rw [hKk]
    infer_instance
  have hS : MeasurableSet (support env) := (measurableSet_eq_fun S.pdfMeas measurable_const).compl
  have ha := S.prob0Meas (Y := Y) e
  have ha0 : ∀ z z' : X × Y, 0 ≤ prob0 env e p z.1 z.2 z'.1 z'.2 := fun z z' => (prob0_mem env p S.kernel0 S.pdf0 e _ _ _ _).1
  have ha1 : ∀ z z' : X × Y, prob0 env e p z.1 z.2 z'.1 z'.2 ≤ 1 := fun z z' => (prob0_mem env p S.kernel0 S.pdf0 e _ _ _ _).2
  have hstay : Measurable fun z : X × Y => K z.1 (support env) := by
    have := Redraw.staysMeas μ k hk _ hS
    simp only [hKk] at this
    exact this.comp measurable_fst
  have hmove : Measurable (redrawMean env p K sim tries e f) := by
    have := Redraw.moveMeas μ k hk hK _ hS sim tries ht _ ha ha0 f hf
    simp only [hKk] at this
    exact this
  have hτm : Measurable fun z : X × Y => ENNReal.ofReal (env.pdf z.1 * below e (env.dists z.2)) := ((S.pdfMeas.comp measurable_fst).mul ((S.belowMeas e).comp measurable_snd)).ennreal_ofReal
  have hτ0 : ∀ z : X × Y, 0 ≤ env.pdf z.1 * below e (env.dists z.2) := fun z => mul_nonneg (S.pdf0 _) (below_nonneg _ _)
  have main := Redraw.invariant μ k hk hK _ hS sim tries ht _ ha ha0 ha1 f hf (fun x hx => by rw [hKk]; exact stays x hx) _ hτm
    (fun z hz => by rw [show env.pdf z.1 = 0 from not_not.1 hz, zero_mul, ENNReal.ofReal_zero]) (fun z z' _ _ => by
      simp only [hkd]
      rw [← ENNReal.ofReal_mul (hτ0 z), ← ENNReal.ofReal_mul (mul_nonneg (hτ0 z) (S.kernel0 _ _)), ← ENNReal.ofReal_mul (hτ0 z'), ← ENNReal.ofReal_mul (mul_nonneg (hτ0 z') (S.kernel0 _ _)),
        balance env p S.kernel0 S.pdf0])
  simp only [hKk] at main
  have h1 : Measurable fun z : X × Y => K z.1 (support env) * redrawMean env p K sim tries e f z := hstay.mul hmove
  have h2 : Measurable fun z : X × Y => K z.1 (support env) * f z := hstay.mul hf
  rw [S.target_eq e _ h1, S.target_eq e _ h2]
  simp only [← mul_assoc]
  exact main

/-- **C95, when nothing is refused too often.** If the probability of a refusal is the same from all values inside the support, in particular if nothing is refused, moves leave the target itself as it is. -/
theorem C95_even {μ prior : Measure X} [SFinite μ] [IsMarkovKernel sim] (S : Setting env p K μ prior) (c : ℝ≥0∞) (hc : c ≠ 0) (even : ∀ x ∈ support env, K x (support env) = c) (tries : ℕ) (ht : 0 < tries) (e : ℝ)
    (f : X × Y → ℝ≥0∞) (hf : Measurable f) : targetMean env sim prior e (redrawMean env p K sim tries e f) = targetMean env sim prior e f := by
  have := S.markov
  by_cases hne : (support env).Nonempty
  · obtain ⟨x0, hx0⟩ := hne
    have hct : c ≠ ∞ := by
      rw [← even x0 hx0]
      exact measure_ne_top _ _
    have h := C95_exact (sim := sim) S (fun x hx => by rw [even x hx]; exact hc) tries ht e f hf
    have pull : ∀ g : X × Y → ℝ≥0∞, targetMean env sim prior e (fun z => K z.1 (support env) * g z) = c * targetMean env sim prior e g := by
      intro g
      have hS : MeasurableSet (support env) := (measurableSet_eq_fun S.pdfMeas measurable_const).compl
      unfold targetMean
      rw [← lintegral_const_mul' c _ hct]
      refine lintegral_congr_ae ?_
      have hin : ∀ᵐ x ∂prior, x ∈ support env := by
        rw [S.prior, ae_withDensity_iff S.pdfMeas.ennreal_ofReal]
        exact Filter.Eventually.of_forall fun x hx hx0 => hx (by rw [hx0, ENNReal.ofReal_zero])
      filter_upwards [hin] with x hx
      rw [← lintegral_const_mul' c _ hct]
      refine lintegral_congr fun y => ?_
      rw [even x hx]
      ring
    rw [pull, pull] at h
    exact (ENNReal.mul_right_inj hc hct).1 h
  · have h0 : prior = 0 := by
      rw [S.prior]
      have : (fun x => ENNReal.ofReal (env.pdf x)) = 0 := by
        funext x
        have : env.pdf x = 0 := not_not.1 fun h => hne ⟨x, h⟩
        simp [this]
      rw [this, withDensity_zero]
    simp [targetMean, h0]

/-! ### A concrete case -/

/-- A uniform prior on the interval between 0 and 1, a normal model, a random walk, one part per simulation with observation 0. -/
noncomputable def edgeEnv : Env Unit ℝ ℝ := { normalEnv with pdf := (Ioo 0 1).indicator 1 }

theorem edgeEnv_setting (p : Pop ℝ) : Setting edgeEnv p (noisy (p.params.length + 1)) volume (volume.restrict (Ioo 0 1)) where
  pdf0 := fun a => indicator_nonneg (fun _ _ => zero_le_one) a
  kernel0 := (normalEnv_setting p).kernel0
  pdfMeas := measurable_one.indicator measurableSet_Ioo
  kernelMeas := (normalEnv_setting p).kernelMeas
  belowMeas := (normalEnv_setting p).belowMeas
  proposals := (normalEnv_setting p).proposals
  markov := (normalEnv_setting p).markov
  prior := by
    have : (fun x => ENNReal.ofReal (edgeEnv.pdf x)) = (Ioo 0 1).indicator 1 := by
      funext x
      by_cases h : x ∈ Ioo (0 : ℝ) 1 <;> simp [edgeEnv, h]
    rw [this, withDensity_indicator_one measurableSet_Ioo]

theorem edgeEnv_support : support edgeEnv = Ioo 0 1 := by
  ext x
  simp [support, edgeEnv]

/-- A case of C95_exact: proposals beyond the edges are drawn again, and the moves favour values in the middle of the interval. -/
example (p : Pop ℝ) (tries : ℕ) (ht : 0 < tries) (e : ℝ) (f : ℝ × ℝ → ℝ≥0∞) (hf : Measurable f) :
    targetMean edgeEnv (noisy 1) (volume.restrict (Ioo 0 1)) e (fun z => gaussianReal z.1 (p.params.length + 1) (Ioo 0 1) * redrawMean edgeEnv p (noisy (p.params.length + 1)) (noisy 1) tries e f z) =
      targetMean edgeEnv (noisy 1) (volume.restrict (Ioo 0 1)) e (fun z => gaussianReal z.1 (p.params.length + 1) (Ioo 0 1) * f z) := by
  have := C95_exact (sim := noisy 1) (edgeEnv_setting p) (fun x _ => ?_) tries ht e f hf
  · simpa only [edgeEnv_support, noisy_apply] using this
  · rw [edgeEnv_support, noisy_apply]
    intro h
    have hv : (p.params.length + 1 : NNReal) ≠ 0 := by positivity
    have := gaussianReal_absolutelyContinuous' x hv h
    simp at this

/-- A case of C95_even: nothing is refused. -/
example (p : Pop ℝ) (tries : ℕ) (ht : 0 < tries) (e : ℝ) (f : ℝ × ℝ → ℝ≥0∞) (hf : Measurable f) :
    targetMean normalEnv (noisy 1) (gaussianReal 0 1) e (redrawMean normalEnv p (noisy (p.params.length + 1)) (noisy 1) tries e f) = targetMean normalEnv (noisy 1) (gaussianReal 0 1) e f := by
  have hs : support normalEnv = univ := eq_univ_of_forall fun x => (gaussianPDFReal_pos 0 1 x one_ne_zero).ne'
  refine C95_even (normalEnv_setting p) 1 one_ne_zero (fun x _ => ?_) tries ht e f hf
  rw [hs, measure_univ]

end Verif.Smc
