import Verif.Densities.MultiProps

/-!
# C136: the densities of the perturbation kernels

abcpy/perturbationkernel.py, `MultivariateNormalKernel`, `MultivariateStudentTKernel`, `JointPerturbationKernel`. The values of the models of one kernel are one
vector, as after `np.concatenate`; for cutting it into blocks see C26, for which block belongs to which model C10 and C25. Numbers are reals.

Trusted: the descriptions of `Verif.Densities.Multi`, and of `scipy.stats.multivariate_normal(mean, cov, allow_singular=True)`: it diagonalises the symmetric
matrix read from the lower triangle of `cov`, ignores the directions whose eigenvalue is at most `cond` times the largest absolute value of an eigenvalue
(`cond = 1e6 * 2.2e-16`), and evaluates the density formula in the others. (Versions of scipy from 1.10 on return zero outside a neighbourhood of the subspace; not modelled.)
-/

namespace Verif.Kernel

open MeasureTheory Real Matrix Set Verif.Densities

variable {dim : ℕ}

/-! ### Model -/

/-- What `scipy.linalg.eigh` returns for `c`. -/
structure Eigh (c : Matrix (Fin dim) (Fin dim) ℝ) where
  u : Matrix (Fin dim) (Fin dim) ℝ
  s : Fin dim → ℝ
  orth : u * uᵀ = 1
  eq : lowerSym c = u * diagonal s * uᵀ

open Classical in
/-- The directions that are kept. -/
noncomputable def Eigh.kept {c : Matrix (Fin dim) (Fin dim) ℝ} (cond : ℝ) (e : Eigh c) : Finset (Fin dim) :=
  Finset.univ.filter fun i => ∀ j, cond * |e.s j| < e.s i

/-- `MultivariateNormalKernel.pdf`, lines 330-359: `multivariate_normal(mean, cov, allow_singular=True).pdf(x)`. -/
noncomputable def normalPdf (cond : ℝ) {c : Matrix (Fin dim) (Fin dim) ℝ} (e : Eigh c) (mean x : Fin dim → ℝ) : ℝ :=
  exp (-(1 / 2) * ((e.kept cond).card * log (2 * π) + ∑ i ∈ e.kept cond, log (e.s i) + ∑ i ∈ e.kept cond, ((x - mean) ᵥ* e.u) i ^ 2 / e.s i))

/-- `MultivariateNormalKernel.update`, lines 302-328: the law of the drawn vector. -/
noncomputable def normalLaw {c : Matrix (Fin dim) (Fin dim) ℝ} (d : Svd c) (row : Fin dim → ℝ) : Measure (Fin dim → ℝ) := mvnLaw row d

/-- `MultivariateStudentTKernel.update`, lines 432-473: the law of the drawn vector, for finite degrees of freedom. -/
noncomputable def studentLaw {c : Matrix (Fin dim) (Fin dim) ℝ} (d : Svd c) (df : ℝ) (row : Fin dim → ℝ) : Measure (Fin dim → ℝ) := multiTLaw row d df

/-- `MultivariateStudentTKernel.pdf`, lines 475-525. -/
noncomputable def studentPdf (c : Matrix (Fin dim) (Fin dim) ℝ) (v : ℝ) (mean x : Fin dim → ℝ) : ℝ :=
  let p : ℝ := dim
  let numerator := Gamma ((v + p) / 2)
  let denominator := Gamma (v / 2) * (v * π) ^ (p / 2) * √|c.det|
  let tmp := 1 + 1 / v * ((x - mean) ᵥ* c⁻¹ ⬝ᵥ (x - mean))
  numerator / denominator * tmp ^ (-((v + p) / 2))

/-! ### The single kernels -/

theorem Eigh.orth' {c : Matrix (Fin dim) (Fin dim) ℝ} (e : Eigh c) : e.uᵀ * e.u = 1 := mul_eq_one_comm.1 e.orth

theorem eigh_pos {c : Matrix (Fin dim) (Fin dim) ℝ} (hL : (lowerSym c).PosDef) (e : Eigh c) (i : Fin dim) : 0 < e.s i := by
  have h : diagonal e.s = e.uᵀ * lowerSym c * e.u := by
    rw [e.eq]
    calc diagonal e.s = (e.uᵀ * e.u) * diagonal e.s * (e.uᵀ * e.u) := by rw [e.orth', Matrix.one_mul, Matrix.mul_one]
      _ = _ := by simp only [Matrix.mul_assoc]
  have hx : e.u *ᵥ Pi.single i 1 ≠ 0 := by
    intro h0
    have := congrArg (fun v => e.uᵀ *ᵥ v) h0
    simp only [mulVec_mulVec, e.orth', one_mulVec, mulVec_zero] at this
    have := congrFun this i
    simp at this
  have hp := hL.dotProduct_mulVec_pos hx
  have e1 : (e.u *ᵥ Pi.single i 1) ⬝ᵥ lowerSym c *ᵥ (e.u *ᵥ Pi.single i 1) = e.s i := by
    have e2 : e.u *ᵥ Pi.single i 1 = Pi.single i 1 ᵥ* e.uᵀ := by rw [vecMul_transpose]
    conv_lhs => arg 1; rw [e2]
    rw [← dotProduct_mulVec, mulVec_mulVec, mulVec_mulVec, ← h]
    simp [Matrix.diagonal]
  have hst : star (e.u *ᵥ Pi.single i (1 : ℝ)) = e.u *ᵥ Pi.single i 1 := by ext; simp
  rw [hst, e1] at hp
  exact hp

theorem normalPdf_eq {c : Matrix (Fin dim) (Fin dim) ℝ} (hL : (lowerSym c).PosDef) (cond : ℝ) (e : Eigh c)
    (hc : ∀ i j, cond * |e.s j| < e.s i) (mean x : Fin dim → ℝ) : normalPdf cond e mean x = mvnPdf mean c x := by
  have hk : e.kept cond = Finset.univ := by ext i; simp [Eigh.kept, hc i]
  have hs := eigh_pos hL e
  have hdet : (lowerSym c).det = ∏ i, e.s i := by
    rw [e.eq, det_mul, det_mul, mul_comm e.u.det, mul_assoc, ← det_mul, e.orth, det_one, mul_one, det_diagonal]
  have hinv : (lowerSym c)⁻¹ = e.u * diagonal (fun i => (e.s i)⁻¹) * e.uᵀ := by
    refine inv_eq_left_inv ?_
    rw [e.eq]
    calc e.u * diagonal (fun i => (e.s i)⁻¹) * e.uᵀ * (e.u * diagonal e.s * e.uᵀ)
        = e.u * diagonal (fun i => (e.s i)⁻¹) * (e.uᵀ * e.u) * diagonal e.s * e.uᵀ := by simp only [Matrix.mul_assoc]
      _ = e.u * (diagonal (fun i => (e.s i)⁻¹) * diagonal e.s) * e.uᵀ := by rw [e.orth', Matrix.mul_one, Matrix.mul_assoc e.u]
      _ = 1 := by
        rw [diagonal_mul_diagonal]
        have : (fun i => (e.s i)⁻¹ * e.s i) = fun _ => 1 := funext fun i => inv_mul_cancel₀ (hs i).ne'
        rw [this, diagonal_one, Matrix.mul_one, e.orth]
  have hq : (x - mean) ⬝ᵥ (lowerSym c)⁻¹ *ᵥ (x - mean) = ∑ i, ((x - mean) ᵥ* e.u) i ^ 2 / e.s i := by
    rw [hinv, ← mulVec_mulVec, ← mulVec_mulVec, dotProduct_mulVec, mulVec_transpose, dotProduct]
    refine Finset.sum_congr rfl fun i _ => ?_
    rw [mulVec_diagonal]
    field_simp
  rw [normalPdf, hk, mvnPdf, scipyMvn, hq, hdet, Finset.card_univ, Fintype.card_fin, ← log_prod fun i _ => (hs i).ne']
  have hP : 0 < ∏ i, e.s i := Finset.prod_pos fun i _ => hs i
  have h2 : (0 : ℝ) < (2 * π) ^ dim := by positivity
  rw [mul_add, exp_add, ← log_pow, ← log_mul h2.ne' hP.ne', mul_comm (exp _), div_eq_mul_inv (exp _)]
  congr 1
  rw [show -(1 / 2) * log ((2 * π) ^ dim * ∏ i, e.s i) = log ((2 * π) ^ dim * ∏ i, e.s i) * (-(1 / 2)) by ring, ← rpow_def_of_pos (by positivity),
    rpow_neg (by positivity), ← sqrt_eq_rpow]

/-- **C136, normal kernel.** For a symmetric positive definite covariance matrix none of whose eigenvalues is negligible, `pdf` around a row is the density of what
`update` draws around that row. Missing: see `C136_normal_violated`. -/
theorem C136_normal_partial {c : Matrix (Fin dim) (Fin dim) ℝ} (hc : c.PosDef) (hs : c.IsSymm) (cond : ℝ) (e : Eigh c) (d : Svd c)
    (hb : ∀ i j, cond * |e.s j| < e.s i) (row : Fin dim → ℝ) : IsDensityOn (normalLaw d row) (normalPdf cond e row) := by
  have hL : (lowerSym c).PosDef := by rw [lowerSym_of_symm hs]; exact hc
  have h := (mvn_density row hL d).2 (by rw [lowerSym_of_symm hs, hs.eq])
  have hf : normalPdf cond e row = mvnPdf row c := funext fun x => normalPdf_eq hL cond e hb row x
  rw [hf]
  exact h

/-- **C136, Student kernel.** For a symmetric positive definite matrix and finite positive degrees of freedom, `pdf` around a row is the density of what `update` draws around
that row. -/
theorem C136_student {c : Matrix (Fin dim) (Fin dim) ℝ} (hc : c.PosDef) (hs : c.IsSymm) (df : ℝ) (hd : 0 < df) (d : Svd c) (row : Fin dim → ℝ) :
    IsDensityOn (studentLaw d df row) (studentPdf c df row) := multiT_density row hc hs hd d

/-- **C136, symmetry**, which the acceptance rule of `MCMCMetropoliHastings` assumes. -/
theorem C136_symmetric {c : Matrix (Fin dim) (Fin dim) ℝ} (cond : ℝ) (e : Eigh c) (df : ℝ) (x y : Fin dim → ℝ) :
    normalPdf cond e x y = normalPdf cond e y x ∧ studentPdf c df x y = studentPdf c df y x := by
  have h : y - x = -(x - y) := by abel
  constructor
  · simp only [normalPdf, h, neg_vecMul, Pi.neg_apply, neg_sq]
  · simp only [studentPdf, h, neg_vecMul, neg_dotProduct, dotProduct_neg, neg_neg]

/-- **C136, violated.** Two parameters of very different scale: the covariance matrix is positive definite, but `pdf` ignores the second parameter, so it is not the density of what `update` draws. -/
theorem C136_normal_violated (cond δ : ℝ) (h0 : 0 < δ) (h1 : δ ≤ cond) (hc1 : cond < 1) (row : Fin 2 → ℝ) :
    let c : Matrix (Fin 2) (Fin 2) ℝ := diagonal ![1, δ]
    c.PosDef ∧ c.IsSymm ∧ ∃ e : Eigh c, (∀ x y y', normalPdf cond e row ![x, y] = normalPdf cond e row ![x, y']) ∧
      ∀ d : Svd c, ¬ IsDensityOn (normalLaw d row) (normalPdf cond e row) := by
  intro c
  have hsym : c.IsSymm := by simp [c, IsSymm]
  have hpd : c.PosDef := by
    refine PosDef.diagonal fun i => ?_
    fin_cases i
    · simp
    · simpa using h0
  have hk : Eigh.kept cond (⟨1, ![1, δ], by simp, by rw [lowerSym_of_symm hsym]; simp [c]⟩ : Eigh c) = {0} := by
    ext i
    simp only [Eigh.kept, Finset.mem_filter, Finset.mem_univ, true_and, Finset.mem_singleton]
    fin_cases i
    · simp only [Fin.zero_eta, Fin.forall_fin_two, iff_true]
      have : |δ| = δ := abs_of_pos h0
      simp [this]
      exact ⟨hc1, by nlinarith⟩
    · simp only [Fin.mk_one, Fin.forall_fin_two]
      simp
      intro h; linarith
  refine ⟨hpd, hsym, ⟨1, ![1, δ], by simp, by rw [lowerSym_of_symm hsym]; simp [c]⟩, ?_, ?_⟩
  · intro x y y'
    simp only [normalPdf, hk, Finset.sum_singleton]
    simp
  · intro d hden
    set e : Eigh c := ⟨1, ![1, δ], by simp, by rw [lowerSym_of_symm hsym]; simp [c]⟩
    have hL : (lowerSym c).PosDef := by rw [lowerSym_of_symm hsym]; exact hpd
    have hm := (mvn_density row hL d).2 (by rw [lowerSym_of_symm hsym, hsym.eq])
    have hcont : Continuous (normalPdf cond e row) := by
      unfold normalPdf
      simp only [hk, Finset.sum_singleton]
      simp only [e, vecMul_one]
      fun_prop
    have hcont' : Continuous (mvnPdf row c) := gaussForm_continuous row (lowerSym c)
    have hae : (fun x => ENNReal.ofReal (normalPdf cond e row x)) =ᵐ[volume] fun x => ENNReal.ofReal (mvnPdf row c x) := by
      refine ae_eq_of_forall_setLIntegral_eq_of_sigmaFinite hcont.measurable.ennreal_ofReal hcont'.measurable.ennreal_ofReal fun A hA _ => ?_
      rw [← hden.2.2.2 A hA, ← hm.2.2.2 A hA]; rfl
    have hev := (Continuous.ae_eq_iff_eq volume (ENNReal.continuous_ofReal.comp hcont) (ENNReal.continuous_ofReal.comp hcont')).1 hae
    have heq : ∀ x, normalPdf cond e row x = mvnPdf row c x := fun x =>
      (ENNReal.ofReal_eq_ofReal_iff (hden.2.2.1 x) (hm.2.2.1 x)).1 (congrFun hev x)
    have h3 : mvnPdf row c ![row 0, row 1] = mvnPdf row c ![row 0, row 1 + 1] := by
      rw [← heq, ← heq]
      simp only [normalPdf, hk, Finset.sum_singleton]
      simp [e]
    have hinv : c⁻¹ = diagonal ![1, δ⁻¹] := by
      refine inv_eq_left_inv ?_
      rw [diagonal_mul_diagonal, ← diagonal_one]
      congr 1; funext i
      fin_cases i
      · simp
      · simpa using inv_mul_cancel₀ h0.ne'
    have hdet : c.det = δ := by simp [c, det_diagonal, Fin.prod_univ_two]
    simp only [mvnPdf, scipyMvn, lowerSym_of_symm hsym, hinv, hdet] at h3
    have hne : √((2 * π) ^ 2 * δ) ≠ 0 := by positivity
    have h4 := exp_injective ((div_left_inj' hne).1 h3)
    simp [dotProduct, Fin.sum_univ_two, mulVec_diagonal] at h4
    rcases h4 with h4 | h4
    · exact h0.ne' h4
    · have : vecHead (vecTail row) = row 1 := rfl
      rw [this] at h4; norm_num at h4

/-! ### The joint kernel -/

/-- The law `P` has the density `f` with respect to `μ`. -/
structure HasDensity {E : Type} [MeasurableSpace E] (μ P : Measure E) (f : E → ℝ) : Prop where
  meas : Measurable f
  nonneg : ∀ x, 0 ≤ f x
  eq : P = μ.withDensity fun x => ENNReal.ofReal (f x)

theorem IsDensityOn.hasDensity {P : Measure (Fin dim → ℝ)} {f : (Fin dim → ℝ) → ℝ} (h : IsDensityOn P f) : HasDensity volume P f :=
  ⟨h.2.1, h.2.2.1, Measure.ext fun A hA => by rw [h.2.2.2 A hA, withDensity_apply _ hA]⟩

variable {ι : Type} [Fintype ι] {E : ι → Type} [∀ i, MeasurableSpace (E i)]

/-- **C136, joint kernel.** If the `pdf` of every kernel is the density of its `update`, with respect to Lebesgue measure, counting measure or any other σ-finite measure, and the
kernels draw independently, then the product of the `pdf`s (which is what the joint kernel returns, see C25) is the density of the joint `update`. -/
theorem C136_joint (μ P : ∀ i, Measure (E i)) [∀ i, SigmaFinite (μ i)] [∀ i, IsProbabilityMeasure (P i)] (f : ∀ i, E i → ℝ)
    (h : ∀ i, HasDensity (μ i) (P i) (f i)) : HasDensity (Measure.pi μ) (Measure.pi P) fun x => ∏ i, f i (x i) := by
  refine ⟨?_, fun x => Finset.prod_nonneg fun i _ => (h i).nonneg _, ?_⟩
  · exact Finset.measurable_prod _ fun i _ => (h i).meas.comp (measurable_pi_apply i)
  · refine (Measure.pi_eq fun s hs => ?_)
    rw [withDensity_apply _ (MeasurableSet.univ_pi hs), ← lintegral_indicator (MeasurableSet.univ_pi hs)]
    have hind : ∀ z : ∀ i, E i, (univ.pi s).indicator (fun z => ENNReal.ofReal (∏ i, f i (z i))) z = ENNReal.ofReal (∏ i, (s i).indicator (f i) (z i)) := by
      intro z
      by_cases hz : z ∈ univ.pi s
      · rw [indicator_of_mem hz]
        congr 1
        exact Finset.prod_congr rfl fun i _ => (indicator_of_mem (hz i (mem_univ i)) _).symm
      · rw [indicator_of_notMem hz]
        simp only [mem_pi, mem_univ, forall_const, not_forall] at hz
        obtain ⟨i, hi⟩ := hz
        rw [Finset.prod_eq_zero (Finset.mem_univ i) (indicator_of_notMem hi _), ENNReal.ofReal_zero]
    have hfi : ∀ i, Integrable (f i) (μ i) := fun i => by
      refine ⟨(h i).meas.aestronglyMeasurable, ?_⟩
      rw [hasFiniteIntegral_iff_ofReal (Filter.Eventually.of_forall (h i).nonneg), ← setLIntegral_univ, ← withDensity_apply _ MeasurableSet.univ,
        ← (h i).eq, measure_univ]
      exact ENNReal.one_lt_top
    have hint : ∀ i, Integrable ((s i).indicator (f i)) (μ i) := fun i => (hfi i).indicator (hs i)
    have hnn : ∀ i x, 0 ≤ (s i).indicator (f i) x := fun i x => indicator_nonneg (fun y _ => (h i).nonneg y) x
    have hip : Integrable (fun z : ∀ i, E i => ∏ i, (s i).indicator (f i) (z i)) (Measure.pi μ) := Integrable.fintype_prod_dep hint
    rw [lintegral_congr hind, ← ofReal_integral_eq_lintegral_ofReal hip (Filter.Eventually.of_forall fun z => Finset.prod_nonneg fun i _ => hnn i _),
      integral_fintype_prod_eq_prod (fun i => (s i).indicator (f i)), ENNReal.ofReal_prod_of_nonneg fun i _ => integral_nonneg (hnn i)]
    refine Finset.prod_congr rfl fun i _ => ?_
    rw [ofReal_integral_eq_lintegral_ofReal (hint i) (Filter.Eventually.of_forall (hnn i)), (h i).eq, withDensity_apply _ (hs i), ← lintegral_indicator (hs i)]
    refine lintegral_congr fun x => ?_
    by_cases hx : x ∈ s i <;> simp [indicator, hx]

/-- A matrix, its decompositions and the hypotheses of the theorems above: the identity. -/
example (df : ℝ) (hd : 0 < df) (row : Fin 3 → ℝ) : ∃ (c : Matrix (Fin 3) (Fin 3) ℝ) (e : Eigh c) (d : Svd c),
    IsDensityOn (normalLaw d row) (normalPdf (1 / 1000) e row) ∧ IsDensityOn (studentLaw d df row) (studentPdf c df row) := by
  have hs : (1 : Matrix (Fin 3) (Fin 3) ℝ).IsSymm := by simp [IsSymm]
  refine ⟨1, ⟨1, fun _ => 1, by simp, by rw [lowerSym_of_symm hs]; simp⟩, ⟨1, fun _ => 1, 1, by simp, by simp, by simp, by simp⟩, ?_, ?_⟩
  · refine C136_normal_partial PosDef.one hs _ _ _ (fun i j => ?_) row
    norm_num
  · exact C136_student PosDef.one hs df hd _ row

end Verif.Kernel
