import Verif.Mcmc.Kernels
import Mathlib.MeasureTheory.Function.Jacobian
/-!
# C187: with bounds, MCMC samples the posterior of the parameters themselves

`MCMCMetropoliHastings.sample` with `bounds`, `abcpy/inferences.py` 4355-4400: proposals are made in the transformed space, and everything else is computed from the parameters transformed back.
-/
namespace Verif.Mcmc

open MeasureTheory Set Transform
open scoped ENNReal

/-! ### Model -/

/-- What the sampler sees of `inverse_transform` (line 4366) of a vector of floats: entry `i` (zero if the call fails). -/
noncomputable def back (f32 : ℝ → ℝ) (bs : List Bound) (y : Fin bs.length → ℝ) (i : Fin bs.length) : ℝ :=
  match inverse f32 bs (List.ofFn fun i => .real (y i)) with
  | .ok l => ((l[i]?).map Num.val).getD 0
  | .error _ => 0

/-- `jac_log_det` (lines 4331 and 4383) of a vector of floats (zero if the call fails). -/
noncomputable def logJac (f32 : ℝ → ℝ) (bs : List Bound) (θ : Fin bs.length → ℝ) : ℝ := ((jac f32 bs (List.ofFn fun i => .real (θ i))).toOption).getD 0

/-- One step, lines 4355-4400, from the parameters `θ` into the set `A`: `y` is drawn by the kernel `K` around the transformed parameters and transformed back; prior density, log-likelihood and Jacobian are those of the parameters. -/
noncomputable def boundedStep (f32 : ℝ → ℝ) (bs : List Bound) (K : (Fin bs.length → ℝ) → Measure (Fin bs.length → ℝ)) (prior loglik : (Fin bs.length → ℝ) → ℝ) (θ : Fin bs.length → ℝ) (A : Set (Fin bs.length → ℝ)) : ℝ≥0∞ :=
  (∫⁻ y in {y | back f32 bs y ∈ A}, moveProb prior loglik (logJac f32 bs) θ (back f32 bs y) ∂K (out f32 bs θ)) +
    A.indicator (fun θ => 1 - ∫⁻ y, moveProb prior loglik (logJac f32 bs) θ (back f32 bs y) ∂K (out f32 bs θ)) θ

/-! ### Specification -/

/-- The parameters inside the bounds. -/
def box (bs : List Bound) : Set (Fin bs.length → ℝ) := {θ | ∀ i, Inside bs[i] (θ i)}

/-- Whatever the prior and the likelihood, a step leaves the posterior inside the bounds invariant: if the parameters have the density prior times likelihood before a step, they have it afterwards. -/
def LeavesPosterior (f32 : ℝ → ℝ) (bs : List Bound) (K : (Fin bs.length → ℝ) → Measure (Fin bs.length → ℝ)) : Prop :=
  ∀ prior loglik : (Fin bs.length → ℝ) → ℝ, (∀ θ, 0 ≤ prior θ) → Measurable prior → Measurable loglik → ∀ A, MeasurableSet A →
    ∫⁻ θ in box bs, ENNReal.ofReal (prior θ * Real.exp (loglik θ)) * boundedStep f32 bs K prior loglik θ A = ∫⁻ θ in A ∩ box bs, ENNReal.ofReal (prior θ * Real.exp (loglik θ))

/-! ### Proofs -/

variable {f32 : ℝ → ℝ} {bs : List Bound}

theorem back_eq (h2 : 2 ≤ bs.length) (y : Fin bs.length → ℝ) (i : Fin bs.length) : back f32 bs y i = bwd f32 bs[i] (y i) := by
  have hn : (List.ofFn fun i => Num.real (y i)).all Num.isInt = false := notAllInt ⟨.real (y ⟨0, by omega⟩), by simp [List.mem_ofFn], rfl⟩
  rw [back, inverse, if_neg (by simp), unsqueeze, if_neg (by simp; omega)]
  simp only [hn, store_real]
  rw [Fin.getElem?_fin, List.getElem?_map, List.getElem?_eq_getElem (by simp)]
  simp [Num.val]

theorem back_mem (hb : ∀ b ∈ bs, Proper f32 b) (h2 : 2 ≤ bs.length) (y : Fin bs.length → ℝ) : back f32 bs y ∈ box bs := by
  intro i
  rw [back_eq h2]
  exact (bwd_inside (hb _ (List.getElem_mem i.2)) (y i)).1

theorem out_back (hb : ∀ b ∈ bs, Proper f32 b) (h2 : 2 ≤ bs.length) (y : Fin bs.length → ℝ) : out f32 bs (back f32 bs y) = y := by
  funext i
  rw [out_inside hb h2 (back_mem hb h2 y), back_eq h2, show fwd f32 bs[i] (bwd f32 bs[i] (y i)) = some (y i) from (bwd_inside (hb _ (List.getElem_mem i.2)) (y i)).2]
  rfl

theorem back_out (hb : ∀ b ∈ bs, Proper f32 b) (h2 : 2 ≤ bs.length) {θ : Fin bs.length → ℝ} (hθ : θ ∈ box bs) : back f32 bs (out f32 bs θ) = θ := by
  funext i
  obtain ⟨y, h3, h4⟩ := fwd_inside (hb _ (List.getElem_mem i.2)) (hθ i)
  rw [back_eq h2, out_inside hb h2 hθ, show fwd f32 bs[i] (θ i) = some y from h3]
  exact h4

theorem measurable_bwd (b : Bound) : Measurable (bwd f32 b) := by
  obtain ⟨_ | l, _ | u⟩ := b <;> unfold bwd <;> fun_prop

theorem measurable_back (h2 : 2 ≤ bs.length) : Measurable (back f32 bs) := by
  rw [measurable_pi_iff]
  intro i
  simp only [back_eq h2]
  exact (measurable_bwd _).comp (measurable_pi_apply i)

theorem logJac_inside (hb : ∀ b ∈ bs, Proper f32 b) (h2 : 2 ≤ bs.length) {θ : Fin bs.length → ℝ} (hθ : θ ∈ box bs) :
    logJac f32 bs θ = ∑ i, (jacAt f32 bs[i] (θ i)).getD 0 := by
  choose d d1 d2 d3 using fun i : Fin bs.length => coordinate_deriv (hb bs[i] (List.getElem_mem i.2)) (hθ i)
  have hin : AllInside bs ((List.ofFn fun i => Num.real (θ i)).map Num.val) := by rw [ofFn_real]; exact (allInside_ofFn bs θ).2 hθ
  have hc : collect ((bs.zip (List.ofFn θ)).map fun e => jacAt f32 e.1 e.2) = some (List.ofFn fun i => Real.log (d i)) := by
    rw [collect_eq_some]
    apply List.ext_getElem (by simp)
    intro n a b
    simp only [List.length_map, List.length_zip, List.length_ofFn, Nat.min_self] at a
    simp only [List.getElem_map, List.getElem_zip, List.getElem_ofFn]
    exact d3 ⟨n, a⟩
  rw [logJac, jac, if_neg (by simp), any_refused_num, if_neg (by rw [any_refused hb (by simp)]; simpa using hin), map_fwd_num (jacAt f32) bs, ofFn_real, hc]
  simp only
  rw [notAllInt (x := List.ofFn fun i => Num.real (θ i)) ⟨.real (θ ⟨0, by omega⟩), by simp [List.mem_ofFn], rfl⟩]
  simp only [store_real, Num.val, List.map_id', Except.toOption, Option.getD_some, List.sum_ofFn]
  exact Finset.sum_congr rfl fun i _ => by rw [d3 i]; rfl

open Classical in
theorem measurable_jacAt (b : Bound) : Measurable fun t => (jacAt f32 b t).getD 0 := by
  obtain ⟨_ | l, u⟩ := b
  · simp only [jacAt]; exact measurable_const
  · cases u with
    | none =>
      have : (fun t => (jacAt f32 (some l, none) t).getD 0) = fun t => if 0 < t - f32 l then -Real.log (t - f32 l) else 0 := by
        funext t; simp only [jacAt]; split <;> rfl
      rw [this]
      exact Measurable.ite (measurableSet_lt measurable_const (by fun_prop)) (by fun_prop) measurable_const
    | some u =>
      have : (fun t => (jacAt f32 (some l, some u) t).getD 0) = fun t => if (t - f32 l) * (f32 u - t) ≠ 0 ∧ 0 < (f32 u - f32 l) / ((t - f32 l) * (f32 u - t)) then Real.log ((f32 u - f32 l) / ((t - f32 l) * (f32 u - t))) else 0 := by
        funext t; simp only [jacAt]; split <;> rfl
      rw [this]
      refine Measurable.ite (MeasurableSet.inter ?_ ?_) (by fun_prop) measurable_const
      · exact (measurableSet_eq_fun (f := fun t => (t - f32 l) * (f32 u - t)) (by fun_prop) (measurable_const (a := (0 : ℝ)))).compl
      · exact measurableSet_lt (measurable_const (a := (0 : ℝ))) (g := fun t => (f32 u - f32 l) / ((t - f32 l) * (f32 u - t))) (by fun_prop)

theorem measurable_logJac (hb : ∀ b ∈ bs, Proper f32 b) (h2 : 2 ≤ bs.length) : Measurable fun y => logJac f32 bs (back f32 bs y) := by
  have : (fun y => logJac f32 bs (back f32 bs y)) = fun y => ∑ i, (jacAt f32 bs[i] (back f32 bs y i)).getD 0 := by
    funext y
    exact logJac_inside hb h2 (back_mem hb h2 y)
  rw [this]
  exact Finset.measurable_sum _ fun i _ => (measurable_jacAt _).comp (measurable_pi_iff.1 (measurable_back h2) i)

theorem box_open (bs : List Bound) : IsOpen (box bs) := by
  rw [isOpen_iff_mem_nhds]
  intro v hv
  have : ∀ᶠ w in nhds v, ∀ i, Inside bs[i] (w i) := by
    rw [Filter.eventually_all]
    intro i
    exact (continuous_apply i).continuousAt.eventually (inside_nhds (hv i))
  exact this

/-- Integrals over the transformed space as integrals over the parameters inside the bounds. -/
theorem change (hb : ∀ b ∈ bs, Proper f32 b) (h2 : 2 ≤ bs.length) (g : (Fin bs.length → ℝ) → ℝ≥0∞) :
    ∫⁻ y, g y = ∫⁻ θ in box bs, ENNReal.ofReal (Real.exp (logJac f32 bs θ)) * g (out f32 bs θ) := by
  have hD : ∀ v : Fin bs.length → ℝ, v ∈ box bs → ∃ D : (Fin bs.length → ℝ) →L[ℝ] (Fin bs.length → ℝ), HasFDerivAt (out f32 bs) D v ∧ |D.det| = Real.exp (logJac f32 bs v) := by
    intro v hv
    obtain ⟨D, d1, d2, d3⟩ := C56_partial f32 bs hb h2 v hv
    refine ⟨D, d1, ?_⟩
    rw [logJac, d3]
    change |LinearMap.det (D : (Fin bs.length → ℝ) →ₗ[ℝ] (Fin bs.length → ℝ))| = Real.exp (Real.log _)
    rw [Real.exp_log d2, abs_of_pos d2]
  classical
  let D : (Fin bs.length → ℝ) → (Fin bs.length → ℝ) →L[ℝ] (Fin bs.length → ℝ) := fun v => if h : v ∈ box bs then (hD v h).choose else 0
  have hD1 : ∀ v (h : v ∈ box bs), D v = (hD v h).choose := fun v h => by simp [D, h]
  have himg : out f32 bs '' box bs = univ := by
    refine eq_univ_of_forall fun y => ⟨back f32 bs y, back_mem hb h2 y, out_back hb h2 y⟩
  have key := lintegral_image_eq_lintegral_abs_det_fderiv_mul volume (box_open bs).measurableSet (f := out f32 bs) (f' := D)
    (fun v hv => by rw [hD1 v hv]; exact (hD v hv).choose_spec.1.hasFDerivWithinAt)
    (fun v hv w hw h => by rw [← back_out hb h2 hv, ← back_out hb h2 hw, h]) g
  rw [himg, Measure.restrict_univ] at key
  rw [key]
  refine setLIntegral_congr_fun (box_open bs).measurableSet fun v hv => ?_
  rw [hD1 v hv, (hD v hv).choose_spec.2]

/-- The density of the transformed parameters. -/
theorem target_out (hb : ∀ b ∈ bs, Proper f32 b) (h2 : 2 ≤ bs.length) (prior loglik : (Fin bs.length → ℝ) → ℝ) {θ : Fin bs.length → ℝ} (hθ : θ ∈ box bs) :
    ENNReal.ofReal (Real.exp (logJac f32 bs θ)) * target (fun y => prior (back f32 bs y)) (fun y => loglik (back f32 bs y)) (fun y => logJac f32 bs (back f32 bs y)) (out f32 bs θ) =
      ENNReal.ofReal (prior θ * Real.exp (loglik θ)) := by
  rw [target, back_out hb h2 hθ, ← ENNReal.ofReal_mul (Real.exp_pos _).le]
  congr 1
  have := Real.exp_pos (logJac f32 bs θ)
  field_simp

theorem boundedStep_eq (hb : ∀ b ∈ bs, Proper f32 b) (h2 : 2 ≤ bs.length) (K : (Fin bs.length → ℝ) → Measure (Fin bs.length → ℝ)) (prior loglik : (Fin bs.length → ℝ) → ℝ) {θ : Fin bs.length → ℝ} (hθ : θ ∈ box bs)
    (A : Set (Fin bs.length → ℝ)) : boundedStep f32 bs K prior loglik θ A =
      stepLaw K (fun y => prior (back f32 bs y)) (fun y => loglik (back f32 bs y)) (fun y => logJac f32 bs (back f32 bs y)) (out f32 bs θ) {y | back f32 bs y ∈ A} := by
  have hm : ∀ y, moveProb (fun y => prior (back f32 bs y)) (fun y => loglik (back f32 bs y)) (fun y => logJac f32 bs (back f32 bs y)) (out f32 bs θ) y = moveProb prior loglik (logJac f32 bs) θ (back f32 bs y) := by
    intro y
    simp only [moveProb, back_out hb h2 hθ]
  rw [boundedStep, stepLaw]
  simp only [hm]
  congr 1
  by_cases h : θ ∈ A
  · rw [indicator_of_mem h, indicator_of_mem (by simpa [back_out hb h2 hθ] using h)]
    simp only [hm]
  · rw [indicator_of_notMem h, indicator_of_notMem (by simpa [back_out hb h2 hθ] using h)]

/-- A kernel with which the sampler leaves the posterior invariant without bounds does so with bounds. -/
theorem leavesPosterior (hb : ∀ b ∈ bs, Proper f32 b) (h2 : 2 ≤ bs.length) {K : (Fin bs.length → ℝ) → Measure (Fin bs.length → ℝ)} (hK : Reliable volume K) : LeavesPosterior f32 bs K := by
  intro prior loglik h0 m1 m2 A hA
  have mb := measurable_back (f32 := f32) h2
  have hinv := hK (fun y => prior (back f32 bs y)) (fun y => loglik (back f32 bs y)) (fun y => logJac f32 bs (back f32 bs y)) (fun y => h0 _) (m1.comp mb) (m2.comp mb) (measurable_logJac hb h2)
    {y | back f32 bs y ∈ A} (mb hA)
  rw [← lintegral_indicator (show MeasurableSet {y | back f32 bs y ∈ A} from mb hA), change hb h2, change hb h2] at hinv
  have e1 : ∫⁻ θ in box bs, ENNReal.ofReal (prior θ * Real.exp (loglik θ)) * boundedStep f32 bs K prior loglik θ A = _ := (setLIntegral_congr_fun (box_open bs).measurableSet fun θ hθ => by
    rw [boundedStep_eq hb h2 K prior loglik hθ, ← target_out hb h2 prior loglik hθ, mul_assoc]).trans hinv
  rw [e1, ← Measure.restrict_restrict hA, ← lintegral_indicator hA]
  refine setLIntegral_congr_fun (box_open bs).measurableSet fun θ hθ => ?_
  by_cases h : θ ∈ A
  · rw [indicator_of_mem h, indicator_of_mem (show out f32 bs θ ∈ {y | back f32 bs y ∈ A} by simpa [back_out hb h2 hθ] using h), target_out hb h2 prior loglik hθ]
  · rw [indicator_of_notMem h, indicator_of_notMem (show out f32 bs θ ∉ {y | back f32 bs y ∈ A} by simpa [back_out hb h2 hθ] using h), mul_zero]

/-- **C187, partial.** With bounds for two or more parameters (some of them may have none), which are single precision numbers, and with the normal or the Student kernel with a fixed symmetric positive definite matrix on the transformed
space, a step of the sampler leaves the posterior of the parameters inside the bounds invariant, whatever prior and likelihood. Missing: one parameter with bounds (`C52_one_bounded_violated`: every call raises), and bounds that are rounded
(`C55_rounding_violated`). -/
theorem C187_partial (hb : ∀ b ∈ bs, Proper f32 b) (h2 : 2 ≤ bs.length) {c : Matrix (Fin bs.length) (Fin bs.length) ℝ} (hc : c.PosDef) (hs : c.IsSymm) (e : Kernel.Eigh c) (d : Densities.Svd c) (df : ℝ) (hdf : 0 < df) :
    LeavesPosterior f32 bs (Kernel.normalLaw d) ∧ LeavesPosterior f32 bs (Kernel.studentLaw d df) :=
  ⟨leavesPosterior hb h2 (C166_continuous_partial hc hs e d df hdf).1, leavesPosterior hb h2 (C166_continuous_partial hc hs e d df hdf).2⟩

/-- One parameter above zero and one between one and three, and the identity as matrix. -/
example (df : ℝ) (hdf : 0 < df) : ∃ (d : Densities.Svd (1 : Matrix (Fin 2) (Fin 2) ℝ)),
    LeavesPosterior id [((some 0, none) : Bound), (some 1, some 3)] (Kernel.normalLaw d) ∧ LeavesPosterior id [((some 0, none) : Bound), (some 1, some 3)] (Kernel.studentLaw d df) := by
  have hs : (1 : Matrix (Fin 2) (Fin 2) ℝ).IsSymm := by simp [Matrix.IsSymm]
  refine ⟨⟨1, fun _ => 1, 1, by simp, by simp, by simp, by simp⟩, ?_⟩
  refine C187_partial (bs := [((some 0, none) : Bound), (some 1, some 3)]) ?_ (by simp) Matrix.PosDef.one hs ⟨1, fun _ => 1, by simp, by rw [Densities.lowerSym_of_symm hs]; simp⟩ _ df hdf
  intro b hb
  simp only [List.mem_cons, List.not_mem_nil, or_false] at hb
  rcases hb with rfl | rfl
  · exact ⟨by simp, by simp, by simp, by simp⟩
  · exact ⟨by simp, by simp, by simp, by rintro l u ⟨⟩ ⟨⟩; norm_num⟩

/-- The posterior in the example is not trivial: a flat prior on a square inside the bounds. -/
example : (∫⁻ θ in box [((some 0, none) : Bound), (some 1, some 3)], (Set.indicator (Set.univ.pi fun _ => Set.Icc (1.5 : ℝ) 2.5) (fun _ => 1) θ : ℝ≥0∞)) = 1 := by
  have hm : MeasurableSet (Set.univ.pi fun _ : Fin 2 => Set.Icc (1.5 : ℝ) 2.5) := MeasurableSet.univ_pi fun _ => measurableSet_Icc
  have hsub : (Set.univ.pi fun _ : Fin 2 => Set.Icc (1.5 : ℝ) 2.5) ⊆ box [((some 0, none) : Bound), (some 1, some 3)] := by
    intro θ h i
    have := h i (Set.mem_univ _)
    simp only [Set.mem_Icc] at this
    have h1 : (1 : ℝ) < θ i := lt_of_lt_of_le (by norm_num) this.1
    have h2 : θ i < 3 := lt_of_le_of_lt this.2 (by norm_num)
    have h3 : (0 : ℝ) < θ i := lt_trans one_pos h1
    fin_cases i
    · simpa [Inside] using h3
    · simpa [Inside] using ⟨h1, h2⟩
  change ∫⁻ θ in _, Set.indicator (Set.univ.pi fun _ : Fin 2 => Set.Icc (1.5 : ℝ) 2.5) (fun _ => (1 : ℝ≥0∞)) θ = 1
  rw [lintegral_indicator hm, Measure.restrict_restrict hm, Set.inter_eq_left.2 hsub, setLIntegral_one, volume_pi, Measure.pi_pi]
  simp
  norm_num

end Verif.Mcmc
