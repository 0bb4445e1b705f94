import Verif.Redraw
import Verif.Sabc.Balance
import Verif.Smc.Target

/-!
# C103: the distribution that the moves of `SABC` leave as it is when refused proposals are drawn again

Kernels are symmetric here; for others C103 is violated already.
-/

namespace Verif.Sabc

open MeasureTheory ProbabilityTheory Measure Set
open scoped ENNReal

variable {X Y : Type} [MeasurableSpace X] [MeasurableSpace Y]

/-! ### Model -/

/-- The probability of acceptance (`abcpy/inferences.py` 1996-2004, see `acceptance_eq`) of a move from `z` to `z'`. The redefined distance of data `y` is `smoothAt m old (dist y)`, where `m` is the smallest of the old distances. -/
noncomputable def moveProb (pdf : X → ℝ) (dist : Y → ℝ) (m : ℝ) (old : List ℝ) (eps : ℝ) (z z' : X × Y) : ℝ :=
  min 1 (pdf z'.1 / pdf z.1 * Real.exp ((smoothAt m old (dist z.2) - smoothAt m old (dist z'.2)) / eps))

/-- A move (1976-2004): the expectation of `f` of value and data after it, given that the loop of lines 1981-1985 ends within `tries` draws from `K`. -/
noncomputable def moveMean (pdf : X → ℝ) (dist : Y → ℝ) (m : ℝ) (old : List ℝ) (eps : ℝ) (K : Kernel X X) (sim : Kernel X Y) (tries : ℕ) (f : X × Y → ℝ≥0∞) (z : X × Y) : ℝ≥0∞ :=
  Redraw.moveMean (Redraw.proposed (K z.1) {x | pdf x ≠ 0} tries) sim (moveProb pdf dist m old eps) f z

/-! ### Specification -/

/-- Prior times `exp (- redefined distance / threshold)`: the average of `f` under it, not normalised. -/
noncomputable def tempered (dist : Y → ℝ) (m : ℝ) (old : List ℝ) (eps : ℝ) (sim : Kernel X Y) (prior : Measure X) (f : X × Y → ℝ≥0∞) : ℝ≥0∞ :=
  ∫⁻ x, ∫⁻ y, ENNReal.ofReal (Real.exp (-smoothAt m old (dist y) / eps)) * f (x, y) ∂sim x ∂prior

/-! ### Proofs -/

theorem measurable_smoothAt (m : ℝ) (old : List ℝ) : Measurable (smoothAt m old) := by
  have hc : Measurable fun d : ℝ => ((old.countP fun x => x < d : ℕ) : ℝ) := by
    induction old with
    | nil => simp
    | cons a l ih =>
      have : (fun d : ℝ => (((a :: l).countP fun x => x < d : ℕ) : ℝ)) = fun d => ((l.countP fun x => x < d : ℕ) : ℝ) + if a < d then 1 else 0 := by
        funext d
        rw [List.countP_cons]
        split_ifs <;> simp_all
      rw [this]
      exact ih.add (Measurable.ite measurableSet_Ioi measurable_const measurable_const)
  unfold smoothAt
  exact Measurable.ite measurableSet_Iio ((measurable_id.div_const _).div_const _) (hc.div_const _)

/-- **C103, exactly, for symmetric kernels.** A move at threshold `eps` leaves invariant prior times `exp (- redefined distance / eps)` times the probability that a proposal is not refused. -/
theorem C103_exact (pdf : X → ℝ) (hpdf : ∀ x, 0 ≤ pdf x) (hpm : Measurable pdf) (dist : Y → ℝ) (hd : Measurable dist) (q : X → X → ℝ) (hq : ∀ a b, 0 ≤ q a b) (hqm : Measurable fun e : X × X => q e.1 e.2)
    (symm : ∀ a b, q a b = q b a) (μ : Measure X) [SFinite μ] (K : Kernel X X) [IsMarkovKernel K] (hK : ∀ x, K x = μ.withDensity fun x' => ENNReal.ofReal (q x x')) (prior : Measure X)
    (hprior : prior = μ.withDensity fun x => ENNReal.ofReal (pdf x)) (sim : Kernel X Y) [IsMarkovKernel sim] (stays : ∀ x, pdf x ≠ 0 → K x {x | pdf x ≠ 0} ≠ 0) (m : ℝ) (old : List ℝ) (eps : ℝ)
    (tries : ℕ) (ht : 0 < tries) (f : X × Y → ℝ≥0∞) (hf : Measurable f) :
    tempered dist m old eps sim prior (fun z => K z.1 {x | pdf x ≠ 0} * moveMean pdf dist m old eps K sim tries f z) = tempered dist m old eps sim prior (fun z => K z.1 {x | pdf x ≠ 0} * f z) := by
  set k : X → X → ℝ≥0∞ := fun x x' => ENNReal.ofReal (q x x') with hkd
  have hk : Measurable fun e : X × X => k e.1 e.2 := hqm.ennreal_ofReal
  have hKk : ∀ x, μ.withDensity (k x) = K x := fun x => (hK x).symm
  have hP : ∀ x, IsProbabilityMeasure (μ.withDensity (k x)) := fun x => by
    rw [hKk]
    infer_instance
  have hS : MeasurableSet {x | pdf x ≠ 0} := (measurableSet_eq_fun hpm measurable_const).compl
  have hs : Measurable fun y => smoothAt m old (dist y) := (measurable_smoothAt m old).comp hd
  have hE : Measurable fun y => Real.exp (-smoothAt m old (dist y) / eps) := (hs.neg.div_const _).exp
  have ha : Measurable fun e : (X × Y) × (X × Y) => moveProb pdf dist m old eps e.1 e.2 := by
    have d1 : Measurable fun e : (X × Y) × (X × Y) => pdf e.1.1 := hpm.comp (measurable_fst.comp measurable_fst)
    have d2 : Measurable fun e : (X × Y) × (X × Y) => pdf e.2.1 := hpm.comp (measurable_fst.comp measurable_snd)
    have s1 : Measurable fun e : (X × Y) × (X × Y) => smoothAt m old (dist e.1.2) := hs.comp (measurable_snd.comp measurable_fst)
    have s2 : Measurable fun e : (X × Y) × (X × Y) => smoothAt m old (dist e.2.2) := hs.comp (measurable_snd.comp measurable_snd)
    unfold moveProb
    exact measurable_const.min ((d2.div d1).mul ((s1.sub s2).div_const _).exp)
  have ha0 : ∀ z z' : X × Y, 0 ≤ moveProb pdf dist m old eps z z' := fun z z' => le_min zero_le_one (mul_nonneg (div_nonneg (hpdf _) (hpdf _)) (Real.exp_pos _).le)
  have ha1 : ∀ z z' : X × Y, moveProb pdf dist m old eps z z' ≤ 1 := fun z z' => min_le_left _ _
  have hstay : Measurable fun z : X × Y => K z.1 {x | pdf x ≠ 0} := by
    have := Redraw.staysMeas μ k hk _ hS
    simp only [hKk] at this
    exact this.comp measurable_fst
  have hmove : Measurable (moveMean pdf dist m old eps K sim tries f) := by
    have := Redraw.moveMeas μ k hk hP _ hS sim tries ht _ ha ha0 f hf
    simp only [hKk] at this
    exact this
  have hτm : Measurable fun z : X × Y => ENNReal.ofReal (pdf z.1 * Real.exp (-smoothAt m old (dist z.2) / eps)) := ((hpm.comp measurable_fst).mul (hE.comp measurable_snd)).ennreal_ofReal
  have hτ0 : ∀ z : X × Y, 0 ≤ pdf z.1 * Real.exp (-smoothAt m old (dist z.2) / eps) := fun z => mul_nonneg (hpdf _) (Real.exp_pos _).le
  have target : ∀ g : X × Y → ℝ≥0∞, Measurable g → tempered dist m old eps sim prior g = ∫⁻ z, ENNReal.ofReal (pdf z.1 * Real.exp (-smoothAt m old (dist z.2) / eps)) * g z ∂(μ ⊗ₘ sim) := by
    intro g hg
    rw [tempered, hprior, Redraw.weighted_eq μ _ hpm.ennreal_ofReal sim (fun y => ENNReal.ofReal (Real.exp (-smoothAt m old (dist y) / eps))) hE.ennreal_ofReal g hg]
    refine lintegral_congr fun z => ?_
    rw [ENNReal.ofReal_mul (hpdf z.1)]
  have main := Redraw.invariant μ k hk hP _ hS sim tries ht _ ha ha0 ha1 f hf (fun x hx => by rw [hKk]; exact stays x hx) _ hτm
    (fun z hz => by rw [show pdf z.1 = 0 from not_not.1 hz, zero_mul, ENNReal.ofReal_zero]) (fun z z' hz hz' => by
      have hp : 0 < pdf z.1 := (hpdf _).lt_of_ne' hz
      have hp' : 0 < pdf z'.1 := (hpdf _).lt_of_ne' hz'
      have h := flow_eq pdf (fun _ _ => 1) q eps z.1 (smoothAt m old (dist z.2)) z'.1 (smoothAt m old (dist z'.2)) hp
      have h' := flow_eq pdf (fun _ _ => 1) q eps z'.1 (smoothAt m old (dist z'.2)) z.1 (smoothAt m old (dist z.2)) hp'
      rw [min_comm (pdf z'.1 * _) _, symm z'.1 z.1, ← h] at h'
      simp only [flow, mul_one] at h'
      simp only [hkd]
      rw [← ENNReal.ofReal_mul (hτ0 z), ← ENNReal.ofReal_mul (mul_nonneg (hτ0 z) (hq _ _)), ← ENNReal.ofReal_mul (hτ0 z'), ← ENNReal.ofReal_mul (mul_nonneg (hτ0 z') (hq _ _))]
      congr 1
      exact h'.symm)
  simp only [hKk] at main
  have h1 : Measurable fun z : X × Y => K z.1 {x | pdf x ≠ 0} * moveMean pdf dist m old eps K sim tries f z := hstay.mul hmove
  have h2 : Measurable fun z : X × Y => K z.1 {x | pdf x ≠ 0} * f z := hstay.mul hf
  rw [target _ h1, target _ h2]
  simp only [← mul_assoc]
  exact main

/-- A case of C103_exact: a uniform prior on the interval between 0 and 1, a random walk and a normal model. -/
example (old : List ℝ) (m eps : ℝ) (tries : ℕ) (ht : 0 < tries) (f : ℝ × ℝ → ℝ≥0∞) (hf : Measurable f) :
    tempered (fun y => |y|) m old eps (Smc.noisy 1) (volume.restrict (Ioo 0 1)) (fun z => Smc.noisy 1 z.1 {x | (Ioo (0 : ℝ) 1).indicator (fun _ => (1 : ℝ)) x ≠ 0} *
        moveMean ((Ioo 0 1).indicator fun _ => 1) (fun y => |y|) m old eps (Smc.noisy 1) (Smc.noisy 1) tries f z) =
      tempered (fun y => |y|) m old eps (Smc.noisy 1) (volume.restrict (Ioo 0 1)) (fun z => Smc.noisy 1 z.1 {x | (Ioo (0 : ℝ) 1).indicator (fun _ => (1 : ℝ)) x ≠ 0} * f z) := by
  refine C103_exact _ (fun x => indicator_nonneg (fun _ _ => zero_le_one) x) (measurable_const.indicator measurableSet_Ioo) _ (by fun_prop) (fun a b => gaussianPDFReal a 1 b) (fun a b => gaussianPDFReal_nonneg a 1 b) ?_ ?_
    volume _ ?_ _ ?_ _ ?_ m old eps tries ht f hf
  · simp only [gaussianPDFReal]
    fun_prop
  · intro a b
    simp only [gaussianPDFReal]
    rw [show (a - b) ^ 2 = (b - a) ^ 2 by ring]
  · intro x
    rw [Smc.noisy_apply, gaussianReal_of_var_ne_zero _ one_ne_zero]
    rfl
  · have : (fun x => ENNReal.ofReal ((Ioo (0 : ℝ) 1).indicator (fun _ => 1) x)) = (Ioo 0 1).indicator 1 := by
      funext x
      by_cases h : x ∈ Ioo (0 : ℝ) 1 <;> simp [h]
    rw [this, withDensity_indicator_one measurableSet_Ioo]
  · intro x _
    have hs : {x | (Ioo (0 : ℝ) 1).indicator (fun _ => (1 : ℝ)) x ≠ 0} = Ioo 0 1 := by
      ext x
      simp
    rw [hs, Smc.noisy_apply]
    intro h
    have := gaussianReal_absolutelyContinuous' x one_ne_zero h
    simp at this

end Verif.Sabc
