import Mathlib.MeasureTheory.Function.Jacobian
import Mathlib.MeasureTheory.Function.AEEqOfLIntegral
import Mathlib.MeasureTheory.Integral.Pi
import Mathlib.MeasureTheory.Measure.OpenPos
import Mathlib.Data.List.GetD
import Verif.Densities.Multi
import Verif.Densities.Props

/-!
# C132, C133: multivariate distributions
-/

namespace Verif.Densities

open MeasureTheory ProbabilityTheory Real Matrix Set

/-! ### Specification -/

/-- `pdf` is a probability density of `law` on the space of vectors. -/
def IsDensityOn {dim : ℕ} (law : Measure (Fin dim → ℝ)) (pdf : (Fin dim → ℝ) → ℝ) : Prop :=
  law univ = 1 ∧ Measurable pdf ∧ (∀ x, 0 ≤ pdf x) ∧
    ∀ A, MeasurableSet A → law A = ∫⁻ x in A, ENNReal.ofReal (pdf x)

/-! ### Standard normal vectors -/

theorem stdMulti_prob (dim : ℕ) : IsProbabilityMeasure (stdMulti dim) := by
  have : IsProbabilityMeasure stdNormal := by unfold stdNormal; infer_instance
  unfold stdMulti; infer_instance

/-- The density of independent standard normal numbers. -/
noncomputable def phi {dim : ℕ} (z : Fin dim → ℝ) : ℝ := ∏ i, gaussianPDFReal 0 1 (z i)

theorem phi_eq {dim : ℕ} (z : Fin dim → ℝ) : phi z = exp (-(1 / 2) * (z ⬝ᵥ z)) / √((2 * π) ^ dim) := by
  have h : ∀ i, gaussianPDFReal 0 1 (z i) = (√(2 * π))⁻¹ * exp (-(1 / 2) * (z i * z i)) := by
    intro i
    simp only [gaussianPDFReal, NNReal.coe_one, mul_one, sub_zero]
    congr 2; ring
  simp only [phi, h]
  rw [Finset.prod_mul_distrib, Finset.prod_const, Finset.card_univ, Fintype.card_fin, ← exp_sum, ← Finset.mul_sum,
    dotProduct, Real.sqrt_eq_rpow, Real.sqrt_eq_rpow, ← rpow_natCast, ← rpow_natCast (2 * π) dim, ← rpow_mul (by positivity),
    inv_rpow (by positivity), ← rpow_mul (by positivity)]
  rw [mul_comm (1 / 2 : ℝ) (dim : ℝ)]
  ring

theorem phi_measurable {dim : ℕ} : Measurable (phi (dim := dim)) := by
  unfold phi
  exact Finset.measurable_prod _ fun i _ => (measurable_gaussianPDFReal 0 1).comp (measurable_pi_apply i)

theorem stdMulti_apply (dim : ℕ) {A : Set (Fin dim → ℝ)} (hA : MeasurableSet A) :
    stdMulti dim A = ∫⁻ z in A, ENNReal.ofReal (phi z) := by
  have hsn : IsProbabilityMeasure stdNormal := by unfold stdNormal; infer_instance
  have : stdMulti dim = volume.withDensity fun z => ENNReal.ofReal (phi z) := by
    refine (Measure.pi_eq fun s hs => ?_)
    rw [withDensity_apply _ (MeasurableSet.univ_pi hs), ← lintegral_indicator (MeasurableSet.univ_pi hs)]
    have hind : ∀ z : Fin dim → ℝ, (univ.pi s).indicator (fun z => ENNReal.ofReal (phi z)) z
        = ENNReal.ofReal (∏ i, (s i).indicator (gaussianPDFReal 0 1) (z i)) := by
      intro z
      by_cases hz : z ∈ univ.pi s
      · rw [indicator_of_mem hz, phi]
        congr 1
        exact Finset.prod_congr rfl fun i _ => (indicator_of_mem (hz i (mem_univ i)) _).symm
      · rw [indicator_of_notMem hz]
        simp only [mem_pi, mem_univ, forall_const, not_forall] at hz
        obtain ⟨i, hi⟩ := hz
        rw [Finset.prod_eq_zero (Finset.mem_univ i) (indicator_of_notMem hi _), ENNReal.ofReal_zero]
    simp only [hind]
    have hint : ∀ i, Integrable ((s i).indicator (gaussianPDFReal 0 1)) := fun i =>
      (integrable_gaussianPDFReal 0 1).indicator (hs i)
    have hnn : ∀ i x, 0 ≤ (s i).indicator (gaussianPDFReal 0 1) x := fun i x =>
      indicator_nonneg (fun y _ => gaussianPDFReal_nonneg 0 1 y) x
    have hip : Integrable (fun z : Fin dim → ℝ => ∏ i, (s i).indicator (gaussianPDFReal 0 1) (z i)) := by
      rw [volume_pi]; exact Integrable.fintype_prod hint
    rw [← ofReal_integral_eq_lintegral_ofReal hip
      (Filter.Eventually.of_forall fun z => Finset.prod_nonneg fun i _ => hnn i _)]
    rw [integral_fintype_prod_volume_eq_prod (fun i => (s i).indicator (gaussianPDFReal 0 1)),
      ENNReal.ofReal_prod_of_nonneg fun i _ => integral_nonneg (hnn i)]
    refine Finset.prod_congr rfl fun i _ => ?_
    rw [ofReal_integral_eq_lintegral_ofReal (hint i) (Filter.Eventually.of_forall (hnn i)), stdNormal,
      gaussianReal_apply 0 one_ne_zero, ← lintegral_indicator (hs i)]
    refine lintegral_congr fun x => ?_
    by_cases hx : x ∈ s i <;> simp [indicator, hx, gaussianPDF]
  rw [this, withDensity_apply _ hA]

/-- The density formula of the normal law with mean `mean` and covariance matrix `S`. -/
noncomputable def gaussForm {dim : ℕ} (mean : Fin dim → ℝ) (S : Matrix (Fin dim) (Fin dim) ℝ) (x : Fin dim → ℝ) : ℝ :=
  exp (-(1 / 2) * ((x - mean) ⬝ᵥ S⁻¹ *ᵥ (x - mean))) / √((2 * π) ^ dim * S.det)

theorem gaussForm_continuous {dim : ℕ} (mean : Fin dim → ℝ) (S : Matrix (Fin dim) (Fin dim) ℝ) :
    Continuous (gaussForm mean S) := by
  unfold gaussForm
  refine Continuous.div_const (Continuous.rexp (continuous_const.mul ?_)) _
  have h1 : Continuous fun x : Fin dim → ℝ => x - mean := by fun_prop
  exact h1.dotProduct (continuous_const.matrix_mulVec h1)

/-- An affine image of independent standard normal numbers has the density with the covariance matrix of the factor. -/
theorem affine_density {dim : ℕ} (mean : Fin dim → ℝ) {M : Matrix (Fin dim) (Fin dim) ℝ} (hM : M.det ≠ 0)
    {A : Set (Fin dim → ℝ)} (hA : MeasurableSet A) :
    stdMulti dim ((fun z => z ᵥ* M + mean) ⁻¹' A) = ∫⁻ x in A, ENNReal.ofReal (gaussForm mean (Mᵀ * M) x) := by
  set f : (Fin dim → ℝ) → Fin dim → ℝ := fun z => z ᵥ* M + mean with hf
  have hu : IsUnit M.det := isUnit_iff_ne_zero.2 hM
  have hmul : ∀ z, z ᵥ* M = Mᵀ *ᵥ z := fun z => (mulVec_transpose M z).symm
  have hcont : Continuous f := by
    have : f = fun z => Mᵀ *ᵥ z + mean := funext fun z => by rw [hf]; simp only [hmul]
    rw [this]; exact (continuous_const.matrix_mulVec continuous_id).add continuous_const
  have hB : MeasurableSet (f ⁻¹' A) := hcont.measurable hA
  have hinj : Function.Injective f := by
    intro a b e
    have e' : a ᵥ* M = b ᵥ* M := add_right_cancel e
    have := congrArg (fun w => w ᵥ* M⁻¹) e'
    simpa [vecMul_vecMul, mul_nonsing_inv M hu] using this
  have hsurj : Function.Surjective f := by
    intro x
    refine ⟨(x - mean) ᵥ* M⁻¹, ?_⟩
    simp [hf, vecMul_vecMul, nonsing_inv_mul M hu]
  have himg : f '' (f ⁻¹' A) = A := image_preimage_eq A hsurj
  let L : (Fin dim → ℝ) →L[ℝ] (Fin dim → ℝ) := LinearMap.toContinuousLinearMap (Matrix.toLin' Mᵀ)
  have hL : ∀ z, L z = z ᵥ* M := fun z => by simp [L, hmul]
  have hder : ∀ z ∈ f ⁻¹' A, HasFDerivWithinAt f L (f ⁻¹' A) z := by
    intro z _
    have : f = fun z => L z + mean := funext fun z => by rw [hL]
    rw [this]
    exact (L.hasFDerivAt.add_const mean).hasFDerivWithinAt
  have hdet : L.det = M.det := by
    change LinearMap.det (L : (Fin dim → ℝ) →ₗ[ℝ] (Fin dim → ℝ)) = _
    have : (L : (Fin dim → ℝ) →ₗ[ℝ] (Fin dim → ℝ)) = Matrix.toLin' Mᵀ := rfl
    rw [this, LinearMap.det_toLin', det_transpose]
  rw [stdMulti_apply dim hB]
  conv_rhs => rw [← himg]
  rw [lintegral_image_eq_lintegral_abs_det_fderiv_mul volume hB hder hinj.injOn]
  refine lintegral_congr fun z => ?_
  rw [hdet, ← ENNReal.ofReal_mul (abs_nonneg _)]
  congr 1
  have hx : f z - mean = z ᵥ* M := by simp [hf]
  have hS : (Mᵀ * M)⁻¹ = M⁻¹ * (Mᵀ)⁻¹ := Matrix.mul_inv_rev _ _
  have hut : IsUnit (Mᵀ).det := by rwa [det_transpose]
  have hq : (z ᵥ* M) ⬝ᵥ (Mᵀ * M)⁻¹ *ᵥ (z ᵥ* M) = z ⬝ᵥ z := by
    rw [hS, ← mulVec_mulVec, dotProduct_mulVec, vecMul_vecMul, mul_nonsing_inv M hu, vecMul_one]
    congr 1
    rw [hmul, mulVec_mulVec, nonsing_inv_mul _ hut, one_mulVec]
  have hd : √((2 * π) ^ dim * (Mᵀ * M).det) = √((2 * π) ^ dim) * |M.det| := by
    rw [det_mul, det_transpose, Real.sqrt_mul (by positivity), Real.sqrt_mul_self_eq_abs]
  rw [gaussForm, hx, hq, hd, phi_eq]
  have : |M.det| ≠ 0 := abs_ne_zero.2 hM
  field_simp

/-! ### The factor of the sampler -/

theorem factor_sq {dim : ℕ} {c : Matrix (Fin dim) (Fin dim) ℝ} (d : Svd c) :
    d.factorᵀ * d.factor = d.vᵀ * diagonal d.s * d.v := by
  have : diagonal (fun i => √(d.s i)) * diagonal (fun i => √(d.s i)) = diagonal d.s := by
    rw [diagonal_mul_diagonal]
    congr 1; funext i; exact Real.mul_self_sqrt (d.nonneg i)
  rw [Svd.factor, transpose_mul, diagonal_transpose, Matrix.mul_assoc, ← Matrix.mul_assoc (diagonal _) (diagonal _) d.v, this,
    Matrix.mul_assoc]

/-- The square of the covariance matrix of the draws. -/
theorem factor_sq_sq {dim : ℕ} {c : Matrix (Fin dim) (Fin dim) ℝ} (d : Svd c) :
    (d.factorᵀ * d.factor) * (d.factorᵀ * d.factor) = cᵀ * c := by
  rw [factor_sq]
  conv_rhs => rw [d.eq]
  simp only [transpose_mul, diagonal_transpose]
  calc d.vᵀ * diagonal d.s * d.v * (d.vᵀ * diagonal d.s * d.v)
      = d.vᵀ * diagonal d.s * (d.v * d.vᵀ) * diagonal d.s * d.v := by simp only [Matrix.mul_assoc]
    _ = d.vᵀ * diagonal d.s * (d.uᵀ * d.u) * diagonal d.s * d.v := by rw [d.orthV, d.orthU]
    _ = d.vᵀ * (diagonal d.s * d.uᵀ) * (d.u * diagonal d.s * d.v) := by simp only [Matrix.mul_assoc]

theorem factor_psd {dim : ℕ} {c : Matrix (Fin dim) (Fin dim) ℝ} (d : Svd c) : (d.factorᵀ * d.factor).PosSemidef := by
  have := Matrix.posSemidef_conjTranspose_mul_self d.factor
  simpa [conjTranspose_eq_transpose_of_trivial] using this

/-- Positive square roots are unique. -/
theorem psd_sqrt_unique {dim : ℕ} {P Q : Matrix (Fin dim) (Fin dim) ℝ} (hP : P.PosDef) (hQ : Q.PosSemidef)
    (h : P * P = Q * Q) : P = Q := by
  have hPt : Pᵀ = P := by simpa [conjTranspose_eq_transpose_of_trivial] using hP.isHermitian.eq
  have hQt : Qᵀ = Q := by simpa [conjTranspose_eq_transpose_of_trivial] using hQ.isHermitian.eq
  set D := P - Q with hD
  have hDt : Dᵀ = D := by rw [hD, transpose_sub, hPt, hQt]
  have hz : P * D + D * Q = 0 := by
    rw [hD, Matrix.mul_sub, Matrix.sub_mul, h]; abel
  have htr : (Dᵀ * P * D).trace + (Dᵀ * Q * D).trace = 0 := by
    have h1 : (D * (P * D + D * Q)).trace = 0 := by rw [hz]; simp
    rw [Matrix.mul_add, trace_add] at h1
    rw [hDt, trace_mul_comm (D * Q) D, Matrix.mul_assoc]
    exact h1
  have hp1 : (Dᵀ * P * D).PosSemidef := by
    have := hP.posSemidef.conjTranspose_mul_mul_same D
    simpa [conjTranspose_eq_transpose_of_trivial] using this
  have hp2 : (Dᵀ * Q * D).PosSemidef := by
    have := hQ.conjTranspose_mul_mul_same D
    simpa [conjTranspose_eq_transpose_of_trivial] using this
  have h0 : (Dᵀ * P * D).trace = 0 := by
    have := hp1.trace_nonneg
    have := hp2.trace_nonneg
    linarith
  have hz1 : Dᵀ * P * D = 0 := hp1.trace_eq_zero_iff.1 h0
  have hD0 : D = 0 := by
    ext i j
    by_contra hne
    have hcol : D *ᵥ Pi.single j 1 ≠ 0 := by
      intro e
      have := congrFun e i
      simp at this
      exact hne (by simpa using this)
    have hpos := hP.dotProduct_mulVec_pos hcol
    have hzero : star (D *ᵥ Pi.single j 1) ⬝ᵥ P *ᵥ (D *ᵥ Pi.single j 1) = 0 := by
      have : (Pi.single j (1 : ℝ)) ⬝ᵥ (Dᵀ * P * D) *ᵥ Pi.single j 1 = 0 := by rw [hz1]; simp
      rw [← this, star_trivial, mulVec_mulVec, dotProduct_mulVec, ← mulVec_transpose, mulVec_mulVec, dotProduct_comm,
        transpose_mul, hPt]
    linarith
  have := sub_eq_zero.1 hD0
  exact this

/-- Symmetric matrices with the same quadratic form are equal. -/
theorem quadratic_unique {dim : ℕ} {P Q : Matrix (Fin dim) (Fin dim) ℝ} (hP : Pᵀ = P) (hQ : Qᵀ = Q)
    (h : ∀ y, y ⬝ᵥ P *ᵥ y = y ⬝ᵥ Q *ᵥ y) : P = Q := by
  ext i j
  have k : ∀ R : Matrix (Fin dim) (Fin dim) ℝ, ∀ a b, (Pi.single a (1 : ℝ)) ⬝ᵥ R *ᵥ Pi.single b 1 = R a b := by
    intro R a b; simp
  have e : ∀ R : Matrix (Fin dim) (Fin dim) ℝ, Rᵀ = R →
      (Pi.single i (1 : ℝ) + Pi.single j 1) ⬝ᵥ R *ᵥ (Pi.single i 1 + Pi.single j 1) = R i i + 2 * R i j + R j j := by
    intro R hR
    rw [mulVec_add, add_dotProduct, dotProduct_add, dotProduct_add, k, k, k, k]
    have : R j i = R i j := congrFun (congrFun hR i) j
    rw [this]; ring
  have h1 := h (Pi.single i 1 + Pi.single j 1)
  have h2 := h (Pi.single i 1)
  have h3 := h (Pi.single j 1)
  rw [e P hP, e Q hQ] at h1
  rw [k, k] at h2 h3
  linarith

theorem lowerSym_symm {dim : ℕ} (c : Matrix (Fin dim) (Fin dim) ℝ) : (lowerSym c)ᵀ = lowerSym c := by
  ext i j
  simp only [transpose_apply, lowerSym]
  rcases lt_trichotomy i j with h | h | h
  · rw [if_pos h.le, if_neg (not_le.2 h)]
  · subst h; rfl
  · rw [if_neg (not_le.2 h), if_pos h.le]

theorem lowerSym_of_symm {dim : ℕ} {c : Matrix (Fin dim) (Fin dim) ℝ} (h : c.IsSymm) : lowerSym c = c := by
  ext i j
  simp only [lowerSym]
  split_ifs
  · rfl
  · exact h.apply i j

/-! ### C132: the checks -/

/-- On symmetric matrices the checks decide positive definiteness (and the sign of the degrees of freedom). -/
theorem C132_partial (dim : ℕ) (input : List ℝ) (hs : (covOf dim input).IsSymm) :
    (mvnCheck dim input ↔ input.length = dim + dim ^ 2 ∧ (covOf dim input).PosDef) ∧
    (multiTCheck dim input ↔
      input.length = dim + dim ^ 2 + 1 ∧ (covOf dim input).PosDef ∧ 0 < input.getD (dim + dim ^ 2) 0) := by
  have hc : allclose (covOf dim input) (covOf dim input)ᵀ := by
    intro i j
    rw [hs.eq, sub_self, abs_zero]
    positivity
  simp only [mvnCheck, multiTCheck, lowerSym_of_symm hs, hc, true_and, not_le]

/-- The values for a given mean and matrix, as `InputConnector` lists them. -/
def inputOf {dim : ℕ} (mean : Fin dim → ℝ) (c : Matrix (Fin dim) (Fin dim) ℝ) : List ℝ :=
  List.ofFn mean ++ List.ofFn fun k : Fin (dim * dim) => c k.divNat k.modNat

theorem inputOf_length {dim : ℕ} (mean : Fin dim → ℝ) (c : Matrix (Fin dim) (Fin dim) ℝ) :
    (inputOf mean c).length = dim + dim ^ 2 := by
  simp [inputOf, sq]

theorem covOf_inputOf {dim : ℕ} (mean : Fin dim → ℝ) (c : Matrix (Fin dim) (Fin dim) ℝ) (l : List ℝ) :
    covOf dim (inputOf mean c ++ l) = c := by
  ext i j
  have hlt : i * dim + j < dim * dim := by
    have := i.isLt; have := j.isLt
    nlinarith
  have h1 : dim + i * dim + j < (inputOf mean c ++ l).length := by
    rw [List.length_append, inputOf_length, sq]; omega
  have hd : 0 < dim := by have := i.isLt; omega
  have e1 : (⟨i * dim + j, hlt⟩ : Fin (dim * dim)).divNat = i := by
    ext; simp [Fin.divNat, Nat.add_div_of_dvd_right, Nat.mul_div_cancel _ hd, Nat.div_eq_of_lt j.isLt]
  have e2 : (⟨i * dim + j, hlt⟩ : Fin (dim * dim)).modNat = j := by
    ext; simp [Fin.modNat, Nat.mod_eq_of_lt j.isLt]
  rw [covOf, List.getD_eq_getElem _ _ h1, List.getElem_append_left (by rw [inputOf_length, sq]; omega)]
  simp only [inputOf]
  rw [List.getElem_append_right (by simp; omega)]
  simp only [List.length_ofFn, List.getElem_ofFn]
  have : dim + i * dim + j - dim = i * dim + j := by omega
  simp only [this, e1, e2]

theorem meanOf_inputOf {dim : ℕ} (mean : Fin dim → ℝ) (c : Matrix (Fin dim) (Fin dim) ℝ) (l : List ℝ) :
    meanOf dim (inputOf mean c ++ l) = mean := by
  funext i
  have h1 : (i : ℕ) < (inputOf mean c ++ l).length := by
    rw [List.length_append, inputOf_length]; have := i.isLt; omega
  rw [meanOf, List.getD_eq_getElem _ _ h1, List.getElem_append_left (by rw [inputOf_length]; have := i.isLt; omega)]
  simp only [inputOf]
  rw [List.getElem_append_left (by simp)]
  simp

/-- The matrix of the counterexamples: `10⁻⁶` on the diagonal, and `9·10⁻⁴` in one entry above it. -/
noncomputable def skew (dim : ℕ) : Matrix (Fin (dim + 2)) (Fin (dim + 2)) ℝ :=
  fun i j => if i = j then 1 / 1000000 else if i = 0 ∧ j = 1 then 9 / 10000 else 0

theorem skew_lower (dim : ℕ) : lowerSym (skew dim) = (1 / 1000000 : ℝ) • (1 : Matrix (Fin (dim + 2)) (Fin (dim + 2)) ℝ) := by
  ext i j
  simp only [lowerSym, skew, Matrix.smul_apply, one_apply, smul_eq_mul]
  by_cases h : i = j
  · subst h; simp
  · have h' : ¬ j = i := fun e => h e.symm
    simp only [h, h', if_false, mul_zero]
    split_ifs with h1 h2 h2 <;> try rfl
    · obtain ⟨rfl, rfl⟩ := h2
      simp at h1
    · obtain ⟨rfl, rfl⟩ := h2
      simp at h1

theorem skew_close (dim : ℕ) : allclose (skew dim) (skew dim)ᵀ := by
  intro i j
  have habs : (0 : ℝ) ≤ |(skew dim)ᵀ i j| := abs_nonneg _
  have : |skew dim i j - (skew dim)ᵀ i j| ≤ 9 / 10000 := by
    simp only [skew, transpose_apply]
    by_cases h : i = j
    · subst h; norm_num
    · have h' : ¬ j = i := fun e => h e.symm
      simp only [h, h', if_false]
      split_ifs <;> norm_num
  linarith

theorem skew_check (dim : ℕ) (mean : Fin (dim + 2) → ℝ) : mvnCheck (dim + 2) (inputOf mean (skew dim)) := by
  have hc : covOf (dim + 2) (inputOf mean (skew dim)) = skew dim := by
    simpa using covOf_inputOf mean (skew dim) []
  refine ⟨inputOf_length _ _, by rw [hc]; exact skew_close dim, ?_⟩
  rw [hc, skew_lower]
  exact Matrix.PosDef.one.smul (by norm_num)

theorem skew_checkT (dim : ℕ) (mean : Fin (dim + 2) → ℝ) {df : ℝ} (hd : 0 < df) :
    multiTCheck (dim + 2) (inputOf mean (skew dim) ++ [df]) := by
  have hc := covOf_inputOf mean (skew dim) [df]
  refine ⟨by rw [List.length_append, inputOf_length]; rfl, by rw [hc]; exact skew_close dim, ?_, ?_⟩
  · rw [hc, skew_lower]
    exact Matrix.PosDef.one.smul (by norm_num)
  · rw [List.getD_eq_getElem _ _ (by rw [List.length_append, inputOf_length]; simp),
      List.getElem_append_right (by rw [inputOf_length])]
    simpa [inputOf_length] using hd

/-- In every dimension from two on, and for every mean, both checks accept a matrix that is not symmetric, and whose quadratic form takes
negative values. -/
theorem C132_violated (dim : ℕ) (hd : 2 ≤ dim) (mean : Fin dim → ℝ) :
    ∃ c : Matrix (Fin dim) (Fin dim) ℝ, mvnCheck dim (inputOf mean c) ∧ (∀ df, 0 < df → multiTCheck dim (inputOf mean c ++ [df])) ∧
      ¬ c.IsSymm ∧ ∃ y, y ⬝ᵥ c *ᵥ y < 0 := by
  obtain ⟨n, rfl⟩ : ∃ n, dim = n + 2 := ⟨dim - 2, by omega⟩
  refine ⟨skew n, skew_check n mean, fun df hdf => skew_checkT n mean hdf, ?_, Pi.single 0 1 - Pi.single 1 1, ?_⟩
  · intro h
    have := h.apply 0 1
    simp [skew] at this
    norm_num at this
  · have k : ∀ a b, (Pi.single a (1 : ℝ)) ⬝ᵥ skew n *ᵥ Pi.single b 1 = skew n a b := by intro a b; simp
    rw [mulVec_sub, sub_dotProduct, dotProduct_sub, dotProduct_sub, k, k, k, k]
    simp [skew]
    norm_num

/-! ### C133: density and sampler -/

theorem mvnDraw_measurable {dim : ℕ} (mean : Fin dim → ℝ) {c : Matrix (Fin dim) (Fin dim) ℝ} (d : Svd c) :
    Measurable (mvnDraw mean d) := by
  have : mvnDraw mean d = fun z => d.factorᵀ *ᵥ z + mean := funext fun z => by rw [mvnDraw, mulVec_transpose]
  rw [this]
  exact ((continuous_const.matrix_mulVec continuous_id).add continuous_const).measurable

/-- If the factor is singular, the draws lie in a set without volume. -/
theorem singular_null {dim : ℕ} (mean : Fin dim → ℝ) {c : Matrix (Fin dim) (Fin dim) ℝ} (d : Svd c) (h : d.factor.det = 0) :
    volume (range (mvnDraw mean d)) = 0 := by
  have h1 : range (mvnDraw mean d) = (fun x => x + mean) '' (Matrix.toLin' d.factorᵀ '' univ) := by
    ext x
    simp only [mem_range, mem_image, mem_univ, true_and, exists_exists_eq_and, mvnDraw, toLin'_apply, mulVec_transpose]
  rw [h1, image_add_right, measure_preimage_add_right, Measure.addHaar_image_linearMap, LinearMap.det_toLin', det_transpose, h]
  simp

theorem factor_det {dim : ℕ} {c : Matrix (Fin dim) (Fin dim) ℝ} (d : Svd c) (h : (d.factorᵀ * d.factor).det ≠ 0) :
    d.factor.det ≠ 0 := by
  intro e; exact h (by rw [det_mul, e, mul_zero])

/-- For every singular value decomposition the sampler may use: the density function is the density of the
draws exactly if the squares of the given matrix and of the matrix read from its lower triangle agree. -/
theorem mvn_density {dim : ℕ} (mean : Fin dim → ℝ) {c : Matrix (Fin dim) (Fin dim) ℝ} (hL : (lowerSym c).PosDef) (d : Svd c) :
    IsDensityOn (mvnLaw mean d) (mvnPdf mean c) ↔ cᵀ * c = lowerSym c * lowerSym c := by
  have hprob := stdMulti_prob dim
  have hmd := mvnDraw_measurable mean d
  have hpdf : mvnPdf mean c = gaussForm mean (lowerSym c) := rfl
  constructor
  · rintro ⟨-, -, -, h4⟩
    by_cases hdet : d.factor.det = 0
    · exfalso
      have hn := singular_null mean d hdet
      have hA := measurableSet_toMeasurable volume (range (mvnDraw mean d))
      have := h4 _ hA
      rw [mvnLaw, Measure.map_apply hmd hA] at this
      have hu : mvnDraw mean d ⁻¹' toMeasurable volume (range (mvnDraw mean d)) = univ :=
        eq_univ_of_forall fun z => subset_toMeasurable volume _ ⟨z, rfl⟩
      rw [hu, measure_univ, Measure.restrict_eq_zero.2 (by rw [measure_toMeasurable, hn])] at this
      simp at this
    · have hae : (fun x => ENNReal.ofReal (gaussForm mean (d.factorᵀ * d.factor) x))
          =ᵐ[volume] fun x => ENNReal.ofReal (gaussForm mean (lowerSym c) x) := by
        refine ae_eq_of_forall_setLIntegral_eq_of_sigmaFinite (gaussForm_continuous _ _).measurable.ennreal_ofReal
          (gaussForm_continuous _ _).measurable.ennreal_ofReal fun A hA _ => ?_
        rw [← affine_density mean hdet hA, ← hpdf, ← h4 A hA, mvnLaw, Measure.map_apply hmd hA]
        rfl
      have hev := (Continuous.ae_eq_iff_eq volume (ENNReal.continuous_ofReal.comp (gaussForm_continuous mean (d.factorᵀ * d.factor)))
        (ENNReal.continuous_ofReal.comp (gaussForm_continuous mean (lowerSym c)))).1 hae
      have hdS : 0 < (d.factorᵀ * d.factor).det := by
        rw [det_mul, det_transpose]; exact mul_self_pos.2 hdet
      have hdL : 0 < (lowerSym c).det := hL.det_pos
      have hpos : ∀ S : Matrix (Fin dim) (Fin dim) ℝ, ∀ x, 0 ≤ gaussForm mean S x := fun S x => by
        unfold gaussForm; positivity
      have heq : ∀ x, gaussForm mean (d.factorᵀ * d.factor) x = gaussForm mean (lowerSym c) x := fun x => by
        have := congrFun hev x
        exact (ENNReal.ofReal_eq_ofReal_iff (hpos _ _) (hpos _ _)).1 this
      have hnorm : √((2 * π) ^ dim * (d.factorᵀ * d.factor).det) = √((2 * π) ^ dim * (lowerSym c).det) := by
        have := heq mean
        simp only [gaussForm, sub_self, mulVec_zero, dotProduct_zero, mul_zero, exp_zero, one_div] at this
        exact inv_injective this
      have hinv : (d.factorᵀ * d.factor)⁻¹ = (lowerSym c)⁻¹ := by
        refine quadratic_unique ?_ ?_ fun y => ?_
        · rw [transpose_nonsing_inv, transpose_mul, transpose_transpose]
        · rw [transpose_nonsing_inv, lowerSym_symm]
        · have := heq (y + mean)
          simp only [gaussForm, add_sub_cancel_right, hnorm] at this
          have hne : √((2 * π) ^ dim * (lowerSym c).det) ≠ 0 := by positivity
          have h2 := exp_injective ((div_left_inj' hne).1 this)
          linarith
      have hSL : d.factorᵀ * d.factor = lowerSym c := by
        have := congrArg (fun X => X⁻¹) hinv
        simpa [nonsing_inv_nonsing_inv _ (isUnit_iff_ne_zero.2 hdS.ne'), nonsing_inv_nonsing_inv _ (isUnit_iff_ne_zero.2 hdL.ne')]
          using this
      rw [← factor_sq_sq d, hSL]
  · intro hsq
    have hSL : lowerSym c = d.factorᵀ * d.factor :=
      psd_sqrt_unique hL (factor_psd d) (by rw [factor_sq_sq d, hsq])
    have hdet : d.factor.det ≠ 0 := factor_det d (by rw [← hSL]; exact hL.det_pos.ne')
    refine ⟨?_, ?_, ?_, ?_⟩
    · rw [mvnLaw, Measure.map_apply hmd MeasurableSet.univ]; simp
    · rw [hpdf]; exact (gaussForm_continuous _ _).measurable
    · intro x; rw [hpdf, gaussForm]; positivity
    · intro A hA
      rw [mvnLaw, Measure.map_apply hmd hA, hpdf, hSL]
      exact affine_density mean hdet hA

/-- For every accepted input and every singular value decomposition the sampler may use: the density function is the density of the
draws exactly if the squares of the given matrix and of the matrix read from its lower triangle agree. -/
theorem C133_normal_iff {dim : ℕ} {input : List ℝ} (h : mvnCheck dim input) (d : Svd (covOf dim input)) :
    IsDensityOn (mvnLaw (meanOf dim input) d) (mvnPdf (meanOf dim input) (covOf dim input)) ↔
      (covOf dim input)ᵀ * covOf dim input = lowerSym (covOf dim input) * lowerSym (covOf dim input) :=
  mvn_density _ h.2.2 d

/-- `MultivariateNormal`, symmetric covariance matrix: the density function is the density of the draws. -/
theorem C133_normal_partial {dim : ℕ} {input : List ℝ} (h : mvnCheck dim input) (hs : (covOf dim input).IsSymm)
    (d : Svd (covOf dim input)) :
    IsDensityOn (mvnLaw (meanOf dim input) d) (mvnPdf (meanOf dim input) (covOf dim input)) := by
  rw [C133_normal_iff h d, lowerSym_of_symm hs, hs.eq]

/-- In every dimension from two on some accepted input has draws whose density is not the density function, whatever singular
value decomposition is used. -/
theorem C133_normal_violated (dim : ℕ) (hd : 2 ≤ dim) (mean : Fin dim → ℝ) :
    ∃ c : Matrix (Fin dim) (Fin dim) ℝ, mvnCheck dim (inputOf mean c) ∧
      ∀ d : Svd c, ¬ IsDensityOn (mvnLaw mean d) (mvnPdf mean c) := by
  obtain ⟨n, rfl⟩ : ∃ n, dim = n + 2 := ⟨dim - 2, by omega⟩
  refine ⟨skew n, skew_check n mean, ?_⟩
  intro d hden
  have hL : (lowerSym (skew n)).PosDef := by
    rw [skew_lower]; exact Matrix.PosDef.one.smul (by norm_num)
  have := (mvn_density mean hL d).1 hden
  rw [skew_lower] at this
  have h11 := congrFun (congrFun this 1) 1
  simp only [mul_apply, transpose_apply, Matrix.smul_apply, one_apply, smul_eq_mul] at h11
  have hle : (9 / 10000 : ℝ) * (9 / 10000) ≤ ∑ k, skew n k 1 * skew n k 1 := by
    have := Finset.single_le_sum (f := fun k => skew n k 1 * skew n k 1) (fun k _ => mul_self_nonneg _)
      (Finset.mem_univ (0 : Fin (n + 2)))
    have h01 : skew n 0 1 = 9 / 10000 := by simp [skew]
    simpa [h01] using this
  simp at h11
  have hsum : (∑ k, skew n k 1 * skew n k 1) = (1 / 1000000 : ℝ) * (1 / 1000000) := by
    rw [h11]; norm_num
  rw [hsum] at hle
  norm_num at hle

/-! ### MultiStudentT -/

/-- The quadratic form of line 582. -/
noncomputable def form {dim : ℕ} (mean : Fin dim → ℝ) (c : Matrix (Fin dim) (Fin dim) ℝ) (x : Fin dim → ℝ) : ℝ :=
  (x - mean) ⬝ᵥ c⁻¹ *ᵥ (x - mean)

theorem multi_mixture {dim : ℕ} (mean : Fin dim → ℝ) {c : Matrix (Fin dim) (Fin dim) ℝ} (hc : c.PosDef) {df : ℝ} (hd : 0 < df)
    (x : Fin dim → ℝ) :
    ∫⁻ g in Ioi 0, ENNReal.ofReal (gammaPDFReal (df / 2) 1 g)
        * ENNReal.ofReal (gaussForm mean ((df / (2 * g)) • c) x)
      = ENNReal.ofReal (multiTPdf mean c df x) := by
  have hq : 0 ≤ form mean c x := by
    have := hc.inv.posSemidef.dotProduct_mulVec_nonneg (x - mean)
    simpa [form] using this
  have hdet : 0 < c.det := hc.det_pos
  set k : ℝ := 1 / (Gamma (df / 2) * ((df * π) ^ ((dim : ℝ) / 2) * √c.det)) with hk
  set r : ℝ := 1 + 1 / df * form mean c x with hr
  have hr0 : 0 < r := by positivity
  have hG := Gamma_pos_of_pos (show 0 < df / 2 by positivity)
  have hk0 : 0 < k := by positivity
  have hpt : ∀ g ∈ Ioi (0 : ℝ), ENNReal.ofReal (gammaPDFReal (df / 2) 1 g)
        * ENNReal.ofReal (gaussForm mean ((df / (2 * g)) • c) x)
      = ENNReal.ofReal (k * (g ^ ((df + dim) / 2 - 1) * exp (-(r * g)))) := by
    intro g hg
    have hg : 0 < g := hg
    rw [← ENNReal.ofReal_mul (gammaPDFReal_nonneg (by positivity) one_pos g)]
    congr 1
    have hs0 : (0 : ℝ) < df / (2 * g) := by positivity
    have hinv : ((df / (2 * g)) • c)⁻¹ = (2 * g / df) • c⁻¹ := by
      refine inv_eq_left_inv ?_
      rw [smul_mul_smul_comm, nonsing_inv_mul _ (isUnit_iff_ne_zero.2 hdet.ne'), show 2 * g / df * (df / (2 * g)) = 1 by field_simp,
        one_smul]
    have h1 : g ^ ((df + dim) / 2 - 1) = g ^ (df / 2 - 1) * g ^ ((dim : ℝ) / 2) := by
      rw [← rpow_add hg]; congr 1; ring
    have h2 : exp (-(r * g)) = exp (-(1 * g)) * exp (-(1 / 2) * (2 * g / df * form mean c x)) := by
      rw [← exp_add]; congr 1
      rw [hr]; field_simp; ring
    have h3 : √((2 * π) ^ dim * ((df / (2 * g)) • c).det) = (df * π) ^ ((dim : ℝ) / 2) / g ^ ((dim : ℝ) / 2) * √c.det := by
      rw [det_smul, Fintype.card_fin, ← mul_assoc, ← mul_pow, Real.sqrt_mul (by positivity),
        show 2 * π * (df / (2 * g)) = df * π / g by field_simp, Real.sqrt_eq_rpow, ← rpow_natCast, ← rpow_mul (by positivity),
        ← div_rpow (by positivity) hg.le]
      congr 2; ring
    rw [gaussForm, hinv, h3, h1, h2, smul_mulVec, dotProduct_smul, smul_eq_mul, ← form]
    simp only [gammaPDFReal, if_pos hg.le, one_rpow, hk]
    have : 0 < g ^ ((dim : ℝ) / 2) := by positivity
    have : 0 < (df * π) ^ ((dim : ℝ) / 2) := by positivity
    have : 0 < √c.det := by positivity
    field_simp
  rw [setLIntegral_congr_fun measurableSet_Ioi hpt]
  have hs : 0 < (df + dim) / 2 := by positivity
  have hval := integral_rpow_mul_exp_neg_mul_Ioi hs hr0
  have hint : IntegrableOn (fun g : ℝ => g ^ ((df + dim) / 2 - 1) * exp (-(r * g))) (Ioi 0) := by
    by_contra hne
    rw [integral_undef hne] at hval
    have : 0 < (1 / r) ^ ((df + dim) / 2) * Gamma ((df + dim) / 2) := by
      have := Gamma_pos_of_pos hs
      positivity
    linarith
  rw [← ofReal_integral_eq_lintegral_ofReal (hint.const_mul k), integral_const_mul, hval]
  · congr 1
    have hform : (x - mean) ᵥ* c⁻¹ ⬝ᵥ (x - mean) = form mean c x := by rw [form, dotProduct_mulVec]
    simp only [multiTPdf, hform]
    rw [← hr, hk, one_div r, inv_rpow hr0.le, abs_of_pos hdet, rpow_neg hr0.le]
    field_simp
  · refine (ae_restrict_iff' measurableSet_Ioi).2 (Filter.Eventually.of_forall fun g hg => ?_)
    have hg : (0 : ℝ) < g := hg
    have := rpow_nonneg hg.le ((df + dim) / 2 - 1)
    simp only [Pi.zero_apply]
    positivity

theorem multiTDraw_measurable {dim : ℕ} (mean : Fin dim → ℝ) {c : Matrix (Fin dim) (Fin dim) ℝ} (d : Svd c) (df : ℝ) :
    Measurable (multiTDraw mean d df) := by
  unfold multiTDraw
  refine measurable_pi_lambda _ fun i => ?_
  have h1 : Measurable fun e : ℝ × (Fin dim → ℝ) => (e.2 ᵥ* d.factor + 0) i := by
    have : (fun e : ℝ × (Fin dim → ℝ) => (e.2 ᵥ* d.factor + 0) i) = fun e => (d.factorᵀ *ᵥ e.2) i := by
      funext e; rw [mulVec_transpose, add_zero]
    rw [this]
    exact ((continuous_apply i).comp (continuous_const.matrix_mulVec continuous_snd)).measurable
  have h2 : Measurable fun e : ℝ × (Fin dim → ℝ) => √(2 * e.1 / df) := by fun_prop
  exact measurable_const.add (h1.div h2)

/-- A symmetric positive definite matrix and finite degrees of freedom. -/
theorem multiT_density {dim : ℕ} (mean : Fin dim → ℝ) {c : Matrix (Fin dim) (Fin dim) ℝ} (hL : c.PosDef) (hs : c.IsSymm) {df : ℝ} (hd : 0 < df)
    (d : Svd c) : IsDensityOn (multiTLaw mean d df) (multiTPdf mean c df) := by
  have hmd := multiTDraw_measurable mean d df
  have hprob := stdMulti_prob dim
  have : IsProbabilityMeasure (gammaMeasure (df / 2) 1) := isProbabilityMeasure_gammaMeasure (by positivity) one_pos
  have hG1 := Gamma_pos_of_pos (show 0 < df / 2 by positivity)
  have hG2 := Gamma_pos_of_pos (show 0 < (df + dim) / 2 by positivity)
  have hF : d.factorᵀ * d.factor = c :=
    (psd_sqrt_unique hL (factor_psd d) (by rw [factor_sq_sq d, hs.eq])).symm
  have hFd : d.factor.det ≠ 0 := factor_det d (by rw [hF]; exact hL.det_pos.ne')
  have hform : ∀ x, (x - mean) ᵥ* c⁻¹ ⬝ᵥ (x - mean) = form mean c x := fun x => by rw [form, dotProduct_mulVec]
  have hq : ∀ x, 0 ≤ form mean c x := fun x => by
    have := hL.inv.posSemidef.dotProduct_mulVec_nonneg (x - mean)
    simpa [form] using this
  have hfm : Measurable (form mean c) := by
    have h1 : Continuous fun x : Fin dim → ℝ => x - mean := by fun_prop
    exact (h1.dotProduct (continuous_const.matrix_mulVec h1)).measurable
  refine ⟨?_, ?_, ?_, ?_⟩
  · rw [multiTLaw, Measure.map_apply hmd MeasurableSet.univ]; simp
  · unfold multiTPdf
    simp only [hform]
    fun_prop
  · intro x
    simp only [multiTPdf, hform]
    have := hq x
    positivity
  · intro A hA
    rw [multiTLaw, Measure.map_apply hmd hA, Measure.prod_apply (hmd hA)]
    have hinner : ∀ g ∈ Ioi (0 : ℝ), stdMulti dim (Prod.mk g ⁻¹' (multiTDraw mean d df ⁻¹' A))
        = ∫⁻ x in A, ENNReal.ofReal (gaussForm mean ((df / (2 * g)) • c) x) := by
      intro g hg
      have hg : 0 < g := hg
      have hpos : 0 < √(2 * g / df) := sqrt_pos.2 (by positivity)
      have hM : ((1 / √(2 * g / df)) • d.factor).det ≠ 0 := by
        rw [det_smul]; exact mul_ne_zero (pow_ne_zero _ (by positivity)) hFd
      have hsq : ((1 / √(2 * g / df)) • d.factor)ᵀ * ((1 / √(2 * g / df)) • d.factor) = (df / (2 * g)) • c := by
        rw [transpose_smul, smul_mul_smul_comm, hF]
        congr 1
        rw [div_mul_div_comm, Real.mul_self_sqrt (by positivity)]
        field_simp
      rw [← hsq, ← affine_density mean hM hA]
      congr 1
      ext z
      simp only [mem_preimage, multiTDraw]
      have : (fun i => mean i + (z ᵥ* d.factor + 0) i / √(2 * g / df)) = z ᵥ* ((1 / √(2 * g / df)) • d.factor) + mean := by
        funext i
        rw [vecMul_smul, add_zero]
        simp only [Pi.add_apply, Pi.smul_apply, smul_eq_mul]
        ring
      rw [this]
    have hmg : Measurable (gammaPDF (df / 2) 1) := (measurable_gammaPDFReal _ _).ennreal_ofReal
    rw [gammaMeasure, lintegral_withDensity_eq_lintegral_mul₀ hmg.aemeasurable
      (measurable_measure_prodMk_left (hmd hA)).aemeasurable]
    have hz : ∫⁻ g, (gammaPDF (df / 2) 1 * fun g => stdMulti dim (Prod.mk g ⁻¹' (multiTDraw mean d df ⁻¹' A))) g
        = ∫⁻ g in Ioi 0, ENNReal.ofReal (gammaPDFReal (df / 2) 1 g)
            * ∫⁻ x in A, ENNReal.ofReal (gaussForm mean ((df / (2 * g)) • c) x) := by
      rw [← setLIntegral_univ, ← Iio_union_Ici (a := (0 : ℝ)),
        lintegral_union measurableSet_Ici (by
          rw [Set.disjoint_iff_forall_ne]; intro a ha b hb e; simp at ha hb; linarith)]
      rw [setLIntegral_congr_fun (g := fun _ => 0) measurableSet_Iio (by
        intro g hg
        simp [Pi.mul_apply, gammaPDF_of_neg hg])]
      rw [lintegral_zero, zero_add, setLIntegral_congr Ioi_ae_eq_Ici.symm]
      refine setLIntegral_congr_fun measurableSet_Ioi fun g hg => ?_
      simp only [Pi.mul_apply]
      rw [hinner g hg]
      rfl
    rw [hz]
    have hexp : ∀ g ∈ Ioi (0 : ℝ), ∀ x, gaussForm mean ((df / (2 * g)) • c) x
        = exp (-(1 / 2) * (2 * g / df * form mean c x)) / √((2 * π) ^ dim * ((df / (2 * g)) ^ dim * c.det)) := by
      intro g hg x
      have hg : 0 < g := hg
      have hinv : ((df / (2 * g)) • c)⁻¹ = (2 * g / df) • c⁻¹ := by
        refine inv_eq_left_inv ?_
        rw [smul_mul_smul_comm, nonsing_inv_mul _ (isUnit_iff_ne_zero.2 hL.det_pos.ne'),
          show 2 * g / df * (df / (2 * g)) = 1 by field_simp, one_smul]
      rw [gaussForm, hinv, det_smul, Fintype.card_fin, smul_mulVec, dotProduct_smul, smul_eq_mul, ← form]
    have hm2 : Measurable fun p : ℝ × (Fin dim → ℝ) =>
        exp (-(1 / 2) * (2 * p.1 / df * form mean c p.2)) / √((2 * π) ^ dim * ((df / (2 * p.1)) ^ dim * c.det)) := by
      have : Measurable fun p : ℝ × (Fin dim → ℝ) => form mean c p.2 := hfm.comp measurable_snd
      fun_prop
    have hswap : ∫⁻ g in Ioi 0, ENNReal.ofReal (gammaPDFReal (df / 2) 1 g)
            * ∫⁻ x in A, ENNReal.ofReal (gaussForm mean ((df / (2 * g)) • c) x)
        = ∫⁻ x in A, ∫⁻ g in Ioi 0, ENNReal.ofReal (gammaPDFReal (df / 2) 1 g)
            * ENNReal.ofReal (gaussForm mean ((df / (2 * g)) • c) x) := by
      have e1 : ∀ g ∈ Ioi (0 : ℝ), ENNReal.ofReal (gammaPDFReal (df / 2) 1 g)
            * ∫⁻ x in A, ENNReal.ofReal (gaussForm mean ((df / (2 * g)) • c) x)
          = ∫⁻ x in A, ENNReal.ofReal (gammaPDFReal (df / 2) 1 g)
            * ENNReal.ofReal (exp (-(1 / 2) * (2 * g / df * form mean c x)) / √((2 * π) ^ dim * ((df / (2 * g)) ^ dim * c.det))) := by
        intro g hg
        have hmx : Measurable fun x : Fin dim → ℝ => ENNReal.ofReal
            (exp (-(1 / 2) * (2 * g / df * form mean c x)) / √((2 * π) ^ dim * ((df / (2 * g)) ^ dim * c.det))) :=
          (hm2.comp (measurable_const.prodMk measurable_id)).ennreal_ofReal
        rw [lintegral_const_mul _ hmx]
        congr 1
        exact lintegral_congr fun x => by rw [hexp g hg x]
      rw [setLIntegral_congr_fun measurableSet_Ioi e1, lintegral_lintegral_swap]
      · refine lintegral_congr fun x => ?_
        refine setLIntegral_congr_fun measurableSet_Ioi fun g hg => ?_
        rw [hexp g hg x]
      · refine Measurable.aemeasurable ?_
        have k1 : Measurable fun p : ℝ × (Fin dim → ℝ) => ENNReal.ofReal (gammaPDFReal (df / 2) 1 p.1) :=
          ((measurable_gammaPDFReal _ _).comp measurable_fst).ennreal_ofReal
        exact k1.mul hm2.ennreal_ofReal
    rw [hswap]
    exact lintegral_congr fun x => multi_mixture mean hL hd x

/-- `MultiStudentT`, symmetric covariance matrix, finite degrees of freedom: the density function is the density of the draws. -/
theorem C133_student_partial {dim : ℕ} {input : List ℝ} (h : multiTCheck dim input) (hs : (covOf dim input).IsSymm)
    (d : Svd (covOf dim input)) :
    IsDensityOn (multiTLaw (meanOf dim input) d (input.getD (dim + dim ^ 2) 0))
      (multiTPdf (meanOf dim input) (covOf dim input) (input.getD (dim + dim ^ 2) 0)) := by
  obtain ⟨-, -, hL, hdf⟩ := h
  rw [lowerSym_of_symm hs] at hL
  exact multiT_density _ hL hs (not_le.1 hdf) d

/-- `MultiStudentT` in every dimension from two on, for every mean and degrees of freedom: for some accepted matrix, `pdf` raises a
negative number to the power `-(df + dim) / 2` at some point. -/
theorem C133_student_violated (dim : ℕ) (hd : 2 ≤ dim) (mean : Fin dim → ℝ) {df : ℝ} (hdf : 0 < df) :
    ∃ c : Matrix (Fin dim) (Fin dim) ℝ, multiTCheck dim (inputOf mean c ++ [df]) ∧
      ∃ x, 1 + 1 / df * ((x - mean) ᵥ* c⁻¹ ⬝ᵥ (x - mean)) < 0 := by
  obtain ⟨n, rfl⟩ : ∃ n, dim = n + 2 := ⟨dim - 2, by omega⟩
  refine ⟨skew n, skew_checkT n mean hdf, ?_⟩
  obtain ⟨w, hw⟩ : ∃ w, w ⬝ᵥ skew n *ᵥ w < 0 := by
    refine ⟨Pi.single 0 1 - Pi.single 1 1, ?_⟩
    have k : ∀ a b, (Pi.single a (1 : ℝ)) ⬝ᵥ skew n *ᵥ Pi.single b 1 = skew n a b := by intro a b; simp
    rw [mulVec_sub, sub_dotProduct, dotProduct_sub, dotProduct_sub, k, k, k, k]
    simp [skew]
    norm_num
  have hdet : (skew n).det ≠ 0 := by
    rw [det_of_isUpperTriangular]
    · refine Finset.prod_ne_zero_iff.2 fun i _ => ?_
      simp [skew]
    · intro i j hij
      have hij : j < i := hij
      simp only [skew]
      rw [if_neg hij.ne', if_neg]
      rintro ⟨rfl, rfl⟩
      simp at hij
  have hu : IsUnit (skew n).det := isUnit_iff_ne_zero.2 hdet
  set Q := w ⬝ᵥ skew n *ᵥ w with hQ
  refine ⟨√((df + 1) / -Q) • (skew n *ᵥ w) + mean, ?_⟩
  have hpos : 0 < (df + 1) / -Q := div_pos (by linarith) (by linarith)
  have hval : (√((df + 1) / -Q) • (skew n *ᵥ w)) ᵥ* (skew n)⁻¹ ⬝ᵥ (√((df + 1) / -Q) • (skew n *ᵥ w)) = -(df + 1) := by
    rw [← dotProduct_mulVec, mulVec_smul, mulVec_mulVec, nonsing_inv_mul _ hu, one_mulVec, smul_dotProduct, dotProduct_smul,
      dotProduct_comm, ← hQ, smul_eq_mul, smul_eq_mul, ← mul_assoc, Real.mul_self_sqrt hpos.le]
    have : Q ≠ 0 := hw.ne
    field_simp
  rw [add_sub_cancel_right, hval]
  have : 1 / df * -(df + 1) = -1 - 1 / df := by field_simp; ring
  rw [this]
  have : 0 < 1 / df := by positivity
  linarith

/-- The hypotheses are met: the identity matrix is accepted, and has a singular value decomposition. -/
example (dim : ℕ) (mean : Fin dim → ℝ) : mvnCheck dim (inputOf mean 1) ∧ (covOf dim (inputOf mean 1)).IsSymm ∧
    Nonempty (Svd (covOf dim (inputOf mean 1))) := by
  have hc : covOf dim (inputOf mean 1) = 1 := by simpa using covOf_inputOf mean 1 []
  have hs : (covOf dim (inputOf mean 1)).IsSymm := by rw [hc]; exact Matrix.isSymm_one
  refine ⟨((C132_partial dim _ hs).1).2 ⟨inputOf_length _ _, by rw [hc]; exact Matrix.PosDef.one⟩, hs, ?_⟩
  rw [hc]
  exact ⟨⟨1, fun _ => 1, 1, by simp, by simp, fun _ => zero_le_one, by simp⟩⟩

end Verif.Densities
