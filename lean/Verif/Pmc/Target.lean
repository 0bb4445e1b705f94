import Mathlib.MeasureTheory.Measure.GiryMonad
import Mathlib.Probability.Kernel.Composition.MeasureCompProd
import Mathlib.MeasureTheory.Measure.Count
import Mathlib.Analysis.SpecificLimits.Basic
import Mathlib.Algebra.BigOperators.Fin
import Mathlib.Tactic.Linarith
import Mathlib.Tactic.NormNum

/-!
# C137: what the weighted particles of one PMCABC iteration estimate

`PMCABC._resample_parameter` (abcpy/inferences.py 967-1026) and `_calculate_weight` (1028-1058) with random draws: a draw is a measure and programs are composed by `bind`. Parameters and
data live in arbitrary measurable spaces. Loops carry fuel; runs that use it up contribute nothing, so the measures below have mass at most one. The given
population, its weights and covariance matrices are arbitrary.
-/

namespace Verif.Pmc.Target

open MeasureTheory ProbabilityTheory Measure Set
open scoped ENNReal

variable {X Y E : Type} [MeasurableSpace X] [MeasurableSpace Y] [MeasurableSpace E]

/-! ### Model -/

open Classical in
/-- A loop that draws from `P` until the result is in `S`, with fuel. -/
noncomputable def untilIn (P : Measure E) (S : Set E) : ℕ → Measure E
  | 0 => 0
  | n + 1 => P.bind fun x => if x ∈ S then dirac x else untilIn P S n

variable {ι : Type} [Fintype ι] [MeasurableSpace ι]

/-- `rng.choice(n_samples, size=1, p=weights)`, line 1005. -/
noncomputable def choice (w : ι → ℝ≥0∞) : Measure ι := ∑ i, w i • dirac i

/-- One round of the loop of lines 998-1018 when there is a population: choose a particle, perturb it until the result is a valid parameter of non-zero prior density (`S`), simulate. -/
noncomputable def trial (w : ι → ℝ≥0∞) (K : ι → Measure X) (S : Set X) (sim : Kernel X Y) (inner : ℕ) : Measure (X × Y) :=
  (choice w).bind fun i => untilIn (K i) S inner ⊗ₘ sim

/-- One round of that loop in the first iteration, lines 999-1003: draw from the prior, simulate. -/
noncomputable def firstTrial (prior : Measure X) (sim : Kernel X Y) : Measure (X × Y) := prior ⊗ₘ sim

/-- The loop of lines 998-1020 until the distance is at most `epsilon`, that is, the data are in `D`: accepted parameter and its data. -/
noncomputable def resample (w : ι → ℝ≥0∞) (K : ι → Measure X) (S : Set X) (sim : Kernel X Y) (D : Set Y) (inner outer : ℕ) : Measure (X × Y) :=
  untilIn (trial w K S sim inner) (Prod.snd ⁻¹' D) outer

/-- The same in the first iteration. -/
noncomputable def firstResample (prior : Measure X) (sim : Kernel X Y) (D : Set Y) (outer : ℕ) : Measure (X × Y) :=
  untilIn (firstTrial prior sim) (Prod.snd ⁻¹' D) outer

/-- `_calculate_weight`, lines 1044-1058: `k i` is the kernel density around particle `i`. -/
noncomputable def weight (π : X → ℝ≥0∞) (w : ι → ℝ≥0∞) (k : ι → X → ℝ≥0∞) (x : X) : ℝ≥0∞ := π x / ∑ i, w i * k i x

/-! ### Specification -/

/-- The joint law of parameters from the prior and their data, restricted to accepted data. Normalised, and with the data forgotten, it is the ABC posterior. -/
noncomputable def target (μ : Measure X) (π : X → ℝ≥0∞) (sim : Kernel X Y) (D : Set Y) : Measure (X × Y) :=
  ((μ.withDensity π) ⊗ₘ sim).restrict (Prod.snd ⁻¹' D)

/-- Weighted averages over draws from `P` with weights `W` are averages under `T`, up to a factor that does not depend on what is averaged. -/
def Estimates (P : Measure E) (W : E → ℝ≥0∞) (T : Measure E) : Prop :=
  ∃ c : ℝ≥0∞, c ≠ 0 ∧ c ≠ ∞ ∧ ∀ f : E → ℝ≥0∞, Measurable f → ∫⁻ e, f e * W e ∂P = c * ∫⁻ e, f e ∂T

/-! ### Loops -/

/-- `1 + r + … + r ^ (n - 1)`. -/
noncomputable def geo (r : ℝ≥0∞) : ℕ → ℝ≥0∞
  | 0 => 0
  | n + 1 => 1 + r * geo r n

theorem geo_eq (r : ℝ≥0∞) (n : ℕ) : geo r n = ∑ j ∈ Finset.range n, r ^ j := by
  induction n with
  | zero => rfl
  | succ n ih =>
    rw [geo, ih, Finset.sum_range_succ', Finset.mul_sum, pow_zero, add_comm]
    congr 1
    exact Finset.sum_congr rfl fun j _ => by rw [pow_succ']

theorem geo_ne_top {r : ℝ≥0∞} (h : r ≠ ∞) (n : ℕ) : geo r n ≠ ∞ := by
  induction n with
  | zero => simp [geo]
  | succ n ih => rw [geo]; exact ENNReal.add_ne_top.2 ⟨ENNReal.one_ne_top, ENNReal.mul_ne_top h ih⟩

theorem geo_ne_zero {r : ℝ≥0∞} {n : ℕ} (h : 0 < n) : geo r n ≠ 0 := by
  cases n with
  | zero => omega
  | succ n => rw [geo]; simp

open Classical in
theorem untilIn_eq (P : Measure E) {S : Set E} (hS : MeasurableSet S) (n : ℕ) : untilIn P S n = geo (P Sᶜ) n • P.restrict S := by
  induction n with
  | zero => simp [untilIn, geo]
  | succ n ih =>
    have hm : Measurable fun x => if x ∈ S then dirac x else untilIn P S n := Measurable.ite hS measurable_dirac measurable_const
    ext A hA
    rw [untilIn, bind_apply hA hm.aemeasurable, ← lintegral_add_compl _ hS]
    have h1 : ∫⁻ x in S, (if x ∈ S then dirac x else untilIn P S n) A ∂P = P (A ∩ S) := by
      rw [setLIntegral_congr_fun (g := A.indicator 1) hS fun x hx => by simp only [if_pos hx]; exact dirac_apply' x hA, lintegral_indicator_one hA,
        Measure.restrict_apply hA]
    have h2 : ∫⁻ x in Sᶜ, (if x ∈ S then dirac x else untilIn P S n) A ∂P = P Sᶜ * untilIn P S n A := by
      rw [setLIntegral_congr_fun (g := fun _ => untilIn P S n A) hS.compl fun x hx => by simp only [if_neg hx], setLIntegral_const, mul_comm]
    rw [h1, h2, ih, geo]
    simp only [Measure.smul_apply, smul_eq_mul, Measure.restrict_apply hA]
    ring

/-- **C137, loops.** Drawing until the result is in `S` gives in the end the law conditioned on `S`. -/
theorem C137_loop (P : Measure E) [IsProbabilityMeasure P] {S : Set E} (hS : MeasurableSet S) (h0 : P S ≠ 0) (A : Set E) (hA : MeasurableSet A) :
    ⨆ n, untilIn P S n A = P (A ∩ S) / P S ∧ ⨆ n, untilIn P S n univ = 1 := by
  have key : ∀ A, MeasurableSet A → ⨆ n, untilIn P S n A = P (A ∩ S) / P S := by
    intro A hA
    have h1 : ∀ n, untilIn P S n A = geo (P Sᶜ) n * P (A ∩ S) := fun n => by
      rw [untilIn_eq P hS]; simp [Measure.restrict_apply hA]
    simp only [h1]
    rw [← ENNReal.iSup_mul]
    have h2 : ⨆ n, geo (P Sᶜ) n = (P S)⁻¹ := by
      simp only [geo_eq]
      rw [← ENNReal.tsum_eq_iSup_nat, ENNReal.tsum_geometric, prob_compl_eq_one_sub hS, ENNReal.sub_sub_cancel ENNReal.one_ne_top prob_le_one]
    rw [h2, mul_comm, ENNReal.div_eq_inv_mul, mul_comm]
  refine ⟨key A hA, ?_⟩
  rw [key univ MeasurableSet.univ, univ_inter, ENNReal.div_self h0 (measure_ne_top P S)]

/-! ### The weighted particles -/

theorem lintegral_untilIn (P : Measure E) {S : Set E} (hS : MeasurableSet S) (n : ℕ) (f : E → ℝ≥0∞) :
    ∫⁻ e, f e ∂untilIn P S n = geo (P Sᶜ) n * ∫⁻ e in S, f e ∂P := by
  rw [untilIn_eq P hS, lintegral_smul_measure, smul_eq_mul]

/-- **C137, first iteration.** With the equal weights of the first iteration (line 1043), accepted draws from the prior estimate averages under the target. -/
theorem C137_first (μ : Measure X) (π : X → ℝ≥0∞) (hP : IsProbabilityMeasure (μ.withDensity π)) (sim : Kernel X Y) [IsMarkovKernel sim] {D : Set Y}
    (hD : MeasurableSet D) (outer : ℕ) (ho : 0 < outer) (samples : ℕ) (hn : 0 < samples) :
    Estimates (firstResample (μ.withDensity π) sim D outer) (fun _ => 1 / (samples : ℝ≥0∞)) (target μ π sim D) := by
  have hD' : MeasurableSet (Prod.snd ⁻¹' D : Set (X × Y)) := measurable_snd hD
  have : IsFiniteMeasure (firstTrial (μ.withDensity π) sim) := by unfold firstTrial; infer_instance
  have h1 : (1 / (samples : ℝ≥0∞)) ≠ 0 := by simp
  have h2 : (1 / (samples : ℝ≥0∞)) ≠ ∞ := by simp; omega
  refine ⟨geo (firstTrial (μ.withDensity π) sim (Prod.snd ⁻¹' D)ᶜ) outer * (1 / (samples : ℝ≥0∞)), mul_ne_zero (geo_ne_zero ho) h1,
    ENNReal.mul_ne_top (geo_ne_top (measure_ne_top _ _) _) h2, fun f hf => ?_⟩
  unfold firstResample target
  rw [lintegral_untilIn _ hD', lintegral_mul_const _ hf, mul_assoc]
  unfold firstTrial
  ring

theorem trial_eq (hι : ∀ s : Set ι, MeasurableSet s) (w : ι → ℝ≥0∞) (K : ι → Measure X) [∀ i, IsFiniteMeasure (K i)] {S : Set X} (hS : MeasurableSet S)
    (sim : Kernel X Y) [IsMarkovKernel sim] (inner : ℕ) (f : X × Y → ℝ≥0∞) (hf : Measurable f) :
    ∫⁻ e, f e ∂trial w K S sim inner = ∑ i, w i * (geo (K i Sᶜ) inner * ∫⁻ x in S, ∫⁻ y, f (x, y) ∂sim x ∂K i) := by
  have hm : ∀ {β : Type} [MeasurableSpace β] (g : ι → β), Measurable g := fun g s _ => hι _
  unfold trial choice
  rw [lintegral_bind (hm _).aemeasurable hf.aemeasurable, lintegral_finset_sum_measure]
  refine Finset.sum_congr rfl fun i _ => ?_
  rw [lintegral_smul_measure, lintegral_dirac' _ (hm _), smul_eq_mul]
  congr 1
  have : IsFiniteMeasure (untilIn (K i) S inner) := by
    rw [untilIn_eq _ hS]
    exact Measure.smul_finite _ (geo_ne_top (measure_ne_top _ _) _)
  rw [lintegral_compProd hf, lintegral_untilIn _ hS]

/-- Averages over weighted particles with the factor, and a bound for the probability that a particle is made within the fuel. -/
theorem resample_weighted (hι : ∀ s : Set ι, MeasurableSet s) (μ : Measure X) [SFinite μ] (π : X → ℝ≥0∞) (hπ : Measurable π)
    (w : ι → ℝ≥0∞) (hw : ∑ i, w i = 1) (k : ι → X → ℝ≥0∞) (hk : ∀ i, Measurable (k i)) (hk' : ∀ i x, k i x ≠ ∞) (hK : ∀ i, IsProbabilityMeasure (μ.withDensity (k i)))
    (S : Set X) (hS : MeasurableSet S) (hsupp : ∀ x, π x ≠ 0 → x ∈ S) (reach : ∀ x, π x ≠ 0 → ∃ i, w i ≠ 0 ∧ k i x ≠ 0)
    (sim : Kernel X Y) [IsMarkovKernel sim] (D : Set Y) (hD : MeasurableSet D) (inner outer : ℕ) (hi : 0 < inner) (ho : 0 < outer)
    (r : ℝ≥0∞) (same : ∀ i, μ.withDensity (k i) Sᶜ = r) :
    ∃ c : ℝ≥0∞, c ≠ 0 ∧ c ≠ ∞ ∧ resample w (fun i => μ.withDensity (k i)) S sim D inner outer univ ≤ c ∧ ∀ f : X × Y → ℝ≥0∞, Measurable f →
      ∫⁻ e, f e * weight π w k e.1 ∂resample w (fun i => μ.withDensity (k i)) S sim D inner outer = c * ∫⁻ e, f e ∂target μ π sim D := by
  have hD' : MeasurableSet (Prod.snd ⁻¹' D : Set (X × Y)) := measurable_snd hD
  have hne : Nonempty ι := by
    by_contra h
    rw [not_nonempty_iff] at h
    simp at hw
  have hr : r ≠ ∞ := by
    obtain ⟨i⟩ := hne
    rw [← same i]
    exact measure_ne_top _ _
  have hw' : ∀ i, w i ≠ ∞ := fun i h => by
    have := Finset.single_le_sum (f := w) (fun _ _ => zero_le) (Finset.mem_univ i)
    rw [hw, h] at this
    simp at this
  have hq : Measurable fun x => ∑ i, w i * k i x := Finset.measurable_sum _ fun i _ => (hk i).const_mul _
  have hW : Measurable (weight π w k) := hπ.div hq
  have ht : ∀ f : X × Y → ℝ≥0∞, Measurable f → ∫⁻ e, f e ∂trial w (fun i => μ.withDensity (k i)) S sim inner =
      geo r inner * ∫⁻ x in S, (∑ i, w i * k i x) * ∫⁻ y, f (x, y) ∂sim x ∂μ := by
    intro f hf
    have hg : Measurable fun x => ∫⁻ y, f (x, y) ∂sim x := hf.lintegral_kernel_prod_right'
    rw [trial_eq hι _ _ hS _ _ _ hf]
    simp only [same, Finset.sum_mul]
    rw [lintegral_finsetSum _ fun i _ => show Measurable (fun x => w i * k i x * ∫⁻ y, f (x, y) ∂sim x) from ((hk i).const_mul _).mul hg, Finset.mul_sum]
    refine Finset.sum_congr rfl fun i _ => ?_
    rw [setLIntegral_withDensity_eq_setLIntegral_mul _ (hk i) hg hS]
    simp only [mul_assoc, Pi.mul_apply]
    rw [lintegral_const_mul _ (show Measurable (fun x => k i x * ∫⁻ y, f (x, y) ∂sim x) from (hk i).mul hg)]
    ring
  have hfin : trial w (fun i => μ.withDensity (k i)) S sim inner (Prod.snd ⁻¹' D)ᶜ ≠ ∞ := by
    refine ne_top_of_le_ne_top ?_ (measure_mono (subset_univ _))
    rw [← lintegral_one, trial_eq hι _ _ hS _ _ _ measurable_const, ENNReal.sum_ne_top]
    intro i _
    refine ENNReal.mul_ne_top (hw' i) (ENNReal.mul_ne_top (by rw [same]; exact geo_ne_top hr _) ?_)
    simp
  refine ⟨geo (trial w (fun i => μ.withDensity (k i)) S sim inner (Prod.snd ⁻¹' D)ᶜ) outer * geo r inner, mul_ne_zero (geo_ne_zero ho) (geo_ne_zero hi),
    ENNReal.mul_ne_top (geo_ne_top hfin _) (geo_ne_top hr _), ?_, fun f hf => ?_⟩
  · rw [← lintegral_one, resample, lintegral_untilIn _ hD']
    have h1 := ht (fun _ => 1) measurable_const
    refine mul_le_mul_right ((setLIntegral_le_lintegral _ _).trans ?_) _
    rw [show (∫⁻ _, 1 ∂trial w (fun i => μ.withDensity (k i)) S sim inner) = _ from h1]
    refine mul_le_of_le_one_right' ((setLIntegral_le_lintegral _ _).trans ?_)
    simp only [lintegral_const, measure_univ, mul_one]
    rw [lintegral_finsetSum _ fun i _ => (hk i).const_mul _, ← hw]
    refine Finset.sum_le_sum fun i _ => ?_
    rw [lintegral_const_mul _ (hk i), ← setLIntegral_univ, ← withDensity_apply _ MeasurableSet.univ, measure_univ, mul_one]
  have hf' : Measurable ((Prod.snd ⁻¹' D : Set (X × Y)).indicator f) := hf.indicator hD'
  have hfW : Measurable fun e : X × Y => f e * weight π w k e.1 := hf.mul (hW.comp measurable_fst)
  unfold resample target
  rw [lintegral_untilIn _ hD', mul_assoc, ← lintegral_indicator hD', ht _ (hfW.indicator hD'), ← lintegral_indicator hD']
  congr 2
  rw [lintegral_compProd hf', lintegral_withDensity_eq_lintegral_mul _ hπ hf'.lintegral_kernel_prod_right', ← lintegral_indicator hS]
  refine lintegral_congr fun x => ?_
  rw [Pi.mul_apply]
  have e1 : ∀ x y, (Prod.snd ⁻¹' D : Set (X × Y)).indicator (fun e => f e * weight π w k e.1) (x, y) = (Prod.snd ⁻¹' D : Set (X × Y)).indicator f (x, y) * weight π w k x := by
    intro x y
    by_cases h : (x, y) ∈ (Prod.snd ⁻¹' D : Set (X × Y)) <;> simp [h]
  simp only [e1]
  simp only [fun x => lintegral_mul_const (μ := sim x) (weight π w k x) (show Measurable fun y => (Prod.snd ⁻¹' D : Set (X × Y)).indicator f (x, y) from hf'.comp measurable_prodMk_left)]
  by_cases h0 : π x = 0
  · simp [weight, h0]
  · rw [indicator_of_mem (hsupp x h0), weight]
    have q0 : ∑ i, w i * k i x ≠ 0 := by
      obtain ⟨i, a, b⟩ := reach x h0
      intro h
      rw [Finset.sum_eq_zero_iff] at h
      exact mul_ne_zero a b (h i (Finset.mem_univ i))
    have qt : ∑ i, w i * k i x ≠ ∞ := by
      rw [ENNReal.sum_ne_top]
      exact fun i _ => ENNReal.mul_ne_top (hw' i) (hk' i x)
    calc _ = ((∑ i, w i * k i x) * (π x / ∑ i, w i * k i x)) * ∫⁻ y, (Prod.snd ⁻¹' D : Set (X × Y)).indicator f (x, y) ∂sim x := by ring
      _ = _ := by rw [ENNReal.mul_div_cancel q0 qt]

/-- **C137, later iterations, partial.** If all particles have the same probability of leaving the support when perturbed, then weighted accepted particles estimate averages
under the target. Missing: other populations (see `C137_violated`). The kernel may have any density `k i` with respect to the measure that the prior density `π` refers
to; every parameter of positive prior density must be in reach of the population. -/
theorem C137_partial (hι : ∀ s : Set ι, MeasurableSet s) (μ : Measure X) [SFinite μ] (π : X → ℝ≥0∞) (hπ : Measurable π)
    (w : ι → ℝ≥0∞) (hw : ∑ i, w i = 1) (k : ι → X → ℝ≥0∞) (hk : ∀ i, Measurable (k i)) (hk' : ∀ i x, k i x ≠ ∞) (hK : ∀ i, IsProbabilityMeasure (μ.withDensity (k i)))
    (S : Set X) (hS : MeasurableSet S) (hsupp : ∀ x, π x ≠ 0 → x ∈ S) (reach : ∀ x, π x ≠ 0 → ∃ i, w i ≠ 0 ∧ k i x ≠ 0)
    (sim : Kernel X Y) [IsMarkovKernel sim] (D : Set Y) (hD : MeasurableSet D) (inner outer : ℕ) (hi : 0 < inner) (ho : 0 < outer)
    (r : ℝ≥0∞) (same : ∀ i, μ.withDensity (k i) Sᶜ = r) :
    Estimates (resample w (fun i => μ.withDensity (k i)) S sim D inner outer) (fun e => weight π w k e.1) (target μ π sim D) := by
  obtain ⟨c, c0, ct, -, h⟩ := resample_weighted hι μ π hπ w hw k hk hk' hK S hS hsupp reach sim D hD inner outer hi ho r same
  exact ⟨c, c0, ct, h⟩

/-! ### Bounded supports -/

/-- `RandomWalkKernel(jump=1).pdf` (abcpy/perturbationkernel.py 625-628) around `m`. -/
noncomputable def walk (m : ℤ) (x : ℤ) : ℝ≥0∞ := if |m - x| > 1 then 0 else 1 / 3

/-- The prior `DiscreteUniform([[0], [b]])` for natural `b`. -/
noncomputable def uniform (b : ℕ) (x : ℤ) : ℝ≥0∞ := if 0 ≤ x ∧ x ≤ b then 1 / (b + 1) else 0

/-- A model whose data are always the same. -/
noncomputable def constant : Kernel ℤ Unit := Kernel.const ℤ (dirac ())

instance : IsMarkovKernel constant := by unfold constant; infer_instance

theorem lintegral_walk (m : ℤ) (f : ℤ → ℝ≥0∞) : ∫⁻ x, f x ∂(count : Measure ℤ).withDensity (walk m) = (f (m - 1) + f m + f (m + 1)) / 3 := by
  rw [lintegral_withDensity_eq_lintegral_mul _ (measurable_from_top) measurable_from_top, lintegral_count,
    tsum_eq_sum (s := {m - 1, m, m + 1})]
  · rw [Finset.sum_insert (by simp; omega), Finset.sum_pair (by omega)]
    simp only [Pi.mul_apply, walk]
    simp [ENNReal.div_eq_inv_mul, mul_add, add_assoc]
  · intro b hb
    have : |m - b| > 1 := by
      simp only [Finset.mem_insert, Finset.mem_singleton] at hb
      push Not at hb
      rcases abs_cases (m - b) with ⟨h, _⟩ | ⟨h, _⟩ <;> omega
    simp [walk, this]

theorem walk_apply (m : ℤ) (A : Set ℤ) : (count : Measure ℤ).withDensity (walk m) A =
    (A.indicator 1 (m - 1) + A.indicator 1 m + A.indicator 1 (m + 1)) / 3 := by
  rw [← lintegral_indicator_one (by measurability), lintegral_walk]

theorem walk_prob (m : ℤ) : IsProbabilityMeasure ((count : Measure ℤ).withDensity (walk m)) := by
  constructor
  rw [walk_apply]
  simp
  norm_num
  exact ENNReal.div_self (by simp) (by simp)

/-- The population: particles 0 and 1 with equal weights. -/
noncomputable def half (_ : Fin 2) : ℝ≥0∞ := 1 / 2

/-- The kernel densities around these particles. -/
noncomputable def walks (i : Fin 2) : ℤ → ℝ≥0∞ := walk i.val

/-- **C137 is violated** when perturbed particles leave the support of the prior with different probabilities: here the prior is uniform on 0, 1, 2, the population consists of
the particles 0 and 1 with equal weights, and every parameter is accepted. However many rounds the loops are allowed, the weighted particles do not estimate averages under
the target, because the weights ignore the probabilities of staying inside. -/
theorem C137_violated (inner outer : ℕ) (hi : 2 ≤ inner) :
    ¬ Estimates (resample half (fun i => (count : Measure ℤ).withDensity (walks i)) {x | uniform 2 x ≠ 0} constant univ inner outer)
      (fun e => weight (uniform 2) half walks e.1) (target count (uniform 2) constant univ) := by
  rintro ⟨c, hc, hc', h⟩
  have ha : ∀ a : ℤ, Measurable fun e : ℤ × Unit => if e.1 = a then (1 : ℝ≥0∞) else 0 := fun a => measurable_of_countable _
  have h0 := h _ (ha 0)
  have h2 := h _ (ha 2)
  unfold resample target at h0 h2
  simp only [preimage_univ] at h0 h2
  have hT : ∀ a : ℤ, ∫⁻ e : ℤ × Unit, (if e.1 = a then (1 : ℝ≥0∞) else 0) ∂(((count : Measure ℤ).withDensity (uniform 2)) ⊗ₘ constant) = uniform 2 a := by
    intro a
    rw [lintegral_compProd (ha a), lintegral_withDensity_eq_lintegral_mul _ measurable_from_top measurable_from_top, lintegral_count,
      tsum_eq_single a (fun b hb => by simp [hb])]
    simp [constant]
  have e0 : uniform 2 0 = 1 / 3 := by norm_num [uniform]
  have e1 : uniform 2 1 = 1 / 3 := by norm_num [uniform]
  have e2 : uniform 2 2 = 1 / 3 := by norm_num [uniform]
  have em : uniform 2 (-1) = 0 := by norm_num [uniform]
  have k0 : {x : ℤ | uniform 2 x ≠ 0}ᶜ.indicator (1 : ℤ → ℝ≥0∞) 0 = 0 := by simp [e0]
  have k1 : {x : ℤ | uniform 2 x ≠ 0}ᶜ.indicator (1 : ℤ → ℝ≥0∞) 1 = 0 := by simp [e1]
  have k2 : {x : ℤ | uniform 2 x ≠ 0}ᶜ.indicator (1 : ℤ → ℝ≥0∞) 2 = 0 := by simp [e2]
  have km : {x : ℤ | uniform 2 x ≠ 0}ᶜ.indicator (1 : ℤ → ℝ≥0∞) (-1) = 1 := by simp [em]
  have r0 : (count : Measure ℤ).withDensity (walks 0) {x | uniform 2 x ≠ 0}ᶜ = 1 / 3 := by
    unfold walks
    rw [walk_apply]
    norm_num [k0, k1, km]
  have r1 : (count : Measure ℤ).withDensity (walks 1) {x | uniform 2 x ≠ 0}ᶜ = 0 := by
    unfold walks
    rw [walk_apply]
    norm_num [k0, k1, k2]
  have hS : MeasurableSet {x : ℤ | uniform 2 x ≠ 0} := by measurability
  have hpr : ∀ i, IsProbabilityMeasure ((count : Measure ℤ).withDensity (walks i)) := fun i => walk_prob _
  have hL : ∀ a : ℤ, uniform 2 a ≠ 0 →
      ∫⁻ e : ℤ × Unit, (if e.1 = a then (1 : ℝ≥0∞) else 0) * weight (uniform 2) half walks e.1
        ∂trial half (fun i => (count : Measure ℤ).withDensity (walks i)) {x | uniform 2 x ≠ 0} constant inner =
      1 / 2 * (geo (1 / 3) inner * (walks 0 a * weight (uniform 2) half walks a)) + 1 / 2 * (geo 0 inner * (walks 1 a * weight (uniform 2) half walks a)) := by
    intro a h
    rw [trial_eq (fun s => by measurability) _ _ hS _ _ _ (measurable_of_countable _), Fin.sum_univ_two, r0, r1]
    have : ∀ i : Fin 2, ∫⁻ x in {x | uniform 2 x ≠ 0}, ∫⁻ y : Unit, (if (x, y).1 = a then (1 : ℝ≥0∞) else 0) * weight (uniform 2) half walks (x, y).1 ∂constant x
        ∂(count : Measure ℤ).withDensity (walks i) = walks i a * weight (uniform 2) half walks a := by
      intro i
      rw [← lintegral_indicator hS, lintegral_withDensity_eq_lintegral_mul _ measurable_from_top measurable_from_top, lintegral_count,
        tsum_eq_single a (fun b hb => by simp [hb, indicator])]
      simp [constant, indicator, h]
    rw [this, this]
    rfl
  have q0 : walks 0 0 = 1 / 3 := by norm_num [walks, walk]
  have q1 : walks 1 0 = 1 / 3 := by norm_num [walks, walk]
  have q2 : walks 0 2 = 0 := by norm_num [walks, walk]
  have q3 : walks 1 2 = 1 / 3 := by norm_num [walks, walk]
  have w0 : weight (uniform 2) half walks 0 = 1 := by
    simp only [weight, Fin.sum_univ_two, half, q0, q1, e0]
    rw [← add_mul, ENNReal.add_halves, one_mul]
    exact ENNReal.div_self (by simp) (by simp)
  have w2 : weight (uniform 2) half walks 2 = 2 := by
    simp only [weight, Fin.sum_univ_two, half, q2, q3, e2, mul_zero, zero_add]
    rw [← ENNReal.toReal_eq_toReal_iff' (ENNReal.div_ne_top (by simp) (by simp)) (by simp)]
    norm_num [ENNReal.toReal_div, ENNReal.toReal_mul]
  have g1 : geo 0 inner = 1 := by
    cases inner with
    | zero => omega
    | succ n => simp [geo]
  obtain ⟨n, rfl⟩ : ∃ n, inner = n + 2 := ⟨inner - 2, by omega⟩
  have gt : geo (1 / 3) n ≠ ∞ := geo_ne_top (by simp) _
  rw [lintegral_untilIn _ MeasurableSet.univ] at h0 h2
  simp only [Measure.restrict_univ] at h0 h2
  rw [hT, e0, hL 0 (by simp [e0]), q0, q1, w0, g1] at h0
  rw [hT, e2, hL 2 (by simp [e2]), q2, q3, w2, g1] at h2
  have t0 := congrArg ENNReal.toReal h0
  have t2 := congrArg ENNReal.toReal h2
  have ge : (geo (1 / 3) (n + 2)).toReal = 1 + 1 / 3 * (1 + 1 / 3 * (geo (1 / 3) n).toReal) := by
    have f1 : 1 / 3 * geo (1 / 3) n ≠ ∞ := ENNReal.mul_ne_top (by simp) gt
    have f2 : 1 / 3 * (1 + 1 / 3 * geo (1 / 3) n) ≠ ∞ := ENNReal.mul_ne_top (by simp) (ENNReal.add_ne_top.2 ⟨by simp, f1⟩)
    rw [geo, geo, ENNReal.toReal_add (by simp) f2, ENNReal.toReal_mul, ENNReal.toReal_add (by simp) f1, ENNReal.toReal_mul]
    simp
  have gt2 : geo (1 / 3) (n + 2) ≠ ∞ := geo_ne_top (by simp) _
  rw [ENNReal.toReal_mul, ENNReal.toReal_mul, ENNReal.toReal_add (ENNReal.mul_ne_top (by simp) (ENNReal.mul_ne_top gt2 (by simp))) (by simp [ENNReal.mul_eq_top])] at t0 t2
  simp only [ENNReal.toReal_mul, ge] at t0 t2
  have hcr : 0 < c.toReal := ENNReal.toReal_pos hc hc'
  have hg : 0 ≤ (geo (1 / 3) n).toReal := ENNReal.toReal_nonneg
  generalize (geo (1 / 3) n).toReal = g at t0 t2 hg
  generalize (geo _ outer).toReal = G at t0 t2
  norm_num at t0 t2
  have hG : G = c.toReal := by linarith
  rw [hG] at t0
  nlinarith [mul_nonneg hcr.le hg]

/-- The theorem applies to the same population when the prior is uniform on 0, 1: both particles leave the support with probability 1/3. -/
example (sim : Kernel ℤ Y) [IsMarkovKernel sim] (D : Set Y) (hD : MeasurableSet D) :
    Estimates (resample half (fun i => (count : Measure ℤ).withDensity (walks i)) {x | uniform 1 x ≠ 0} sim D 5 7)
      (fun e => weight (uniform 1) half walks e.1) (target count (uniform 1) sim D) := by
  have e0 : uniform 1 0 = 1 / 2 := by norm_num [uniform]
  have e1 : uniform 1 1 = 1 / 2 := by norm_num [uniform]
  have e2 : uniform 1 2 = 0 := by norm_num [uniform]
  have em : uniform 1 (-1) = 0 := by norm_num [uniform]
  have k0 : {x : ℤ | uniform 1 x ≠ 0}ᶜ.indicator (1 : ℤ → ℝ≥0∞) 0 = 0 := by simp [e0]
  have k1 : {x : ℤ | uniform 1 x ≠ 0}ᶜ.indicator (1 : ℤ → ℝ≥0∞) 1 = 0 := by simp [e1]
  have k2 : {x : ℤ | uniform 1 x ≠ 0}ᶜ.indicator (1 : ℤ → ℝ≥0∞) 2 = 1 := by simp [e2]
  have km : {x : ℤ | uniform 1 x ≠ 0}ᶜ.indicator (1 : ℤ → ℝ≥0∞) (-1) = 1 := by simp [em]
  refine C137_partial (fun s => by measurability) count (uniform 1) measurable_from_top half ?_ walks (fun _ => measurable_from_top) ?_ (fun i => walk_prob _)
    {x | uniform 1 x ≠ 0} (by measurability) (fun _ h => h) ?_ sim D hD 5 7 (by omega) (by omega) (1 / 3) ?_
  · rw [Fin.sum_univ_two]
    exact ENNReal.add_halves 1
  · intro i x
    simp only [walks, walk]
    split <;> simp
  · intro x h
    refine ⟨0, by simp [half], ?_⟩
    have : x = 0 ∨ x = 1 := by
      by_contra hx
      apply h
      rw [uniform, if_neg]
      push_cast
      omega
    rcases this with rfl | rfl <;> norm_num [walks, walk]
  · intro i
    unfold walks
    rw [walk_apply]
    rcases Fin.exists_fin_two.1 ⟨i, rfl⟩ with h | h <;> subst h
    · norm_num [k0, k1, km]
    · norm_num [k0, k1, k2]

end Verif.Pmc.Target
