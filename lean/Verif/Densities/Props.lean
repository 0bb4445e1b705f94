import Mathlib.MeasureTheory.Function.JacobianOneDim
import Mathlib.Probability.Distributions.Poisson.Basic
import Verif.Densities.Model

/-!
# C130, C131: density functions agree with the samplers
-/

namespace Verif.Densities

open MeasureTheory ProbabilityTheory Real Set

/-! ### Specification -/

/-- `pdf` is a probability density of `law`: it is nonnegative, measurable, and the probability of every event is its integral. -/
def IsDensity (law : Measure ℝ) (pdf : ℝ → ℝ) : Prop :=
  law univ = 1 ∧ Measurable pdf ∧ (∀ x, 0 ≤ pdf x) ∧
    ∀ A, MeasurableSet A → law A = ∫⁻ x in A, ENNReal.ofReal (pdf x)

/-! ### Normal -/

theorem normalLaw_eq (mu sigma : ℝ) : normalLaw mu sigma = gaussianReal mu (sigma ^ 2).toNNReal := by
  have h : normalDraw mu sigma = (fun x => mu + x) ∘ fun z => sigma * z := rfl
  rw [normalLaw, h, ← Measure.map_map (by fun_prop) (by fun_prop), stdNormal, gaussianReal_map_const_mul,
    gaussianReal_map_const_add]
  congr 1
  · simp
  · ext; simp [sq_nonneg]

theorem normalPdf_eq {mu sigma : ℝ} (h : 0 < sigma) (x : ℝ) :
    normalPdf mu sigma x = gaussianPDFReal mu (sigma ^ 2).toNNReal x := by
  rw [normalPdf, scipyNorm, gaussianPDFReal, Real.coe_toNNReal _ (sq_nonneg _)]
  have : √(2 * π * sigma ^ 2) = √(2 * π) * sigma := by
    rw [Real.sqrt_mul (by positivity), Real.sqrt_sq h.le]
  simp only [this, mul_inv]
  rw [show -((x - mu) / sigma) ^ 2 / 2 = -(x - mu) ^ 2 / (2 * sigma ^ 2) by field_simp]
  ring

theorem C130_normal {mu sigma : ℝ} (h : normalCheck [mu, sigma] = true) :
    IsDensity (normalLaw mu sigma) (normalPdf mu sigma) := by
  have hs : 0 < sigma := by simpa [normalCheck] using h
  have hv : (sigma ^ 2).toNNReal ≠ 0 := by
    intro e
    have := Real.toNNReal_eq_zero.1 e
    nlinarith [sq_pos_of_pos hs]
  have hp : normalPdf mu sigma = gaussianPDFReal mu (sigma ^ 2).toNNReal := funext (normalPdf_eq hs)
  rw [normalLaw_eq, hp]
  exact ⟨measure_univ, measurable_gaussianPDFReal _ _, gaussianPDFReal_nonneg _ _,
    fun A _ => gaussianReal_apply mu hv A⟩

/-! ### LogNormal -/

theorem C130_lognormal {mu sigma : ℝ} (h : lognormalCheck [mu, sigma] = true) :
    IsDensity (lognormalLaw mu sigma) (lognormalPdf mu sigma) := by
  have hs : 0 < sigma := by simpa [lognormalCheck] using h
  obtain ⟨n1, n2, n3, n4⟩ := C130_normal (mu := mu) (sigma := sigma) (by simpa [normalCheck] using hs)
  have hmd : Measurable (normalDraw mu sigma) := by unfold normalDraw; fun_prop
  have hl : lognormalLaw mu sigma = (normalLaw mu sigma).map exp := by
    rw [normalLaw, Measure.map_map measurable_exp hmd]; rfl
  have hpt : ∀ y, exp y * lognormalPdf mu sigma (exp y) = normalPdf mu sigma y := by
    intro y
    have e1 : exp y / exp mu = exp (y - mu) := (exp_sub y mu).symm
    simp only [lognormalPdf, scipyLognorm, if_pos (exp_pos y), e1, log_exp, normalPdf, scipyNorm]
    rw [show -((y - mu) / sigma) ^ 2 / 2 = -(y - mu) ^ 2 / (2 * sigma ^ 2) by field_simp, exp_sub]
    field_simp
  refine ⟨?_, ?_, ?_, ?_⟩
  · rw [hl, Measure.map_apply measurable_exp MeasurableSet.univ]; simpa using n1
  · unfold lognormalPdf scipyLognorm
    exact Measurable.ite measurableSet_Ioi (by fun_prop) measurable_const
  · intro x
    unfold lognormalPdf scipyLognorm
    split_ifs <;> positivity
  · intro A hA
    have hB : MeasurableSet (exp ⁻¹' A) := measurable_exp hA
    rw [hl, Measure.map_apply measurable_exp hA, n4 _ hB]
    have himg : exp '' (exp ⁻¹' A) = A ∩ Ioi 0 := by
      rw [image_preimage_eq_inter_range, range_exp]
    have hz : ∫⁻ x in A, ENNReal.ofReal (lognormalPdf mu sigma x)
        = ∫⁻ x in A ∩ Ioi 0, ENNReal.ofReal (lognormalPdf mu sigma x) := by
      rw [← lintegral_indicator hA, ← lintegral_indicator (hA.inter measurableSet_Ioi)]
      congr 1
      funext x
      by_cases hx : x ∈ A <;> by_cases h0 : 0 < x <;>
        simp [indicator, hx, h0, lognormalPdf, scipyLognorm]
    rw [hz, ← himg, lintegral_image_eq_lintegral_abs_deriv_mul hB
      (fun x _ => (hasDerivAt_exp x).hasDerivWithinAt) exp_injective.injOn]
    refine lintegral_congr fun y => ?_
    rw [← hpt, abs_of_pos (exp_pos y), ENNReal.ofReal_mul (exp_pos y).le]

/-! ### Exponential -/

theorem C130_exponential {rate : ℝ} (h : exponentialCheck [rate] = true) :
    IsDensity (exponentialLaw rate) (exponentialPdf rate) ∧
      ∀ x, exponentialPdf rate x = if 0 ≤ x then rate * exp (-rate * x) else 0 := by
  have hr : 0 < rate := by simpa [exponentialCheck] using h
  have hpdf : ∀ x, exponentialPdf rate x = if 0 ≤ x then rate * exp (-rate * x) else 0 := by
    intro x
    have e : x / (1 / rate) = rate * x := by field_simp
    simp only [exponentialPdf, scipyExpon, e]
    by_cases hx : 0 ≤ x
    · rw [if_pos (by positivity), if_pos hx]; field_simp
    · rw [if_neg (by nlinarith [not_le.1 hx]), if_neg hx]
  have hmd : Measurable (exponentialDraw rate) := by unfold exponentialDraw; fun_prop
  refine ⟨⟨?_, ?_, ?_, ?_⟩, hpdf⟩
  · rw [exponentialLaw, Measure.map_apply hmd MeasurableSet.univ, unitLaw]; simp
  · rw [funext hpdf]
    exact Measurable.ite measurableSet_Ici (by fun_prop) measurable_const
  · intro x; rw [hpdf]; split_ifs <;> positivity
  · intro A hA
    have hD : MeasurableSet (exponentialDraw rate ⁻¹' A) := hmd hA
    rw [exponentialLaw, Measure.map_apply hmd hA, unitLaw, Measure.restrict_apply hD]
    have hB : MeasurableSet (A ∩ Ioi 0) := hA.inter measurableSet_Ioi
    set f : ℝ → ℝ := fun x => 1 - exp (-rate * x) with hf
    have himg : f '' (A ∩ Ioi 0) = exponentialDraw rate ⁻¹' A ∩ Ioo 0 1 := by
      ext u
      simp only [mem_image, mem_inter_iff, mem_Ioi, mem_preimage, mem_Ioo, hf, exponentialDraw]
      constructor
      · rintro ⟨x, ⟨hx, h0⟩, rfl⟩
        have e : -(1 / rate) * log (1 - (1 - exp (-rate * x))) = x := by
          rw [sub_sub_cancel, log_exp]; field_simp
        refine ⟨by rw [e]; exact hx, ?_, ?_⟩
        · have : exp (-rate * x) < 1 := by rw [exp_lt_one_iff]; nlinarith
          linarith
        · linarith [exp_pos (-rate * x)]
      · rintro ⟨hx, h0, h1⟩
        have hlog : log (1 - u) < 0 := log_neg (by linarith) (by linarith)
        refine ⟨_, ⟨hx, ?_⟩, ?_⟩
        · have : 0 < 1 / rate := by positivity
          nlinarith
        · have e : -rate * (-(1 / rate) * log (1 - u)) = log (1 - u) := by field_simp
          rw [e, exp_log (by linarith)]; ring
    have hder : ∀ x ∈ A ∩ Ioi 0, HasDerivWithinAt f (rate * exp (-rate * x)) (A ∩ Ioi 0) x := by
      intro x _
      have h1 : HasDerivAt (fun x => -rate * x) (-rate) x := by
        simpa using (hasDerivAt_id x).const_mul (-rate)
      have h2 := (h1.exp.const_sub 1)
      exact (h2.congr_deriv (by ring)).hasDerivWithinAt
    have hinj : InjOn f (A ∩ Ioi 0) := by
      intro x _ y _ e
      have : exp (-rate * x) = exp (-rate * y) := by simpa [hf] using e
      have := exp_injective this
      exact mul_left_cancel₀ (by linarith : -rate ≠ 0) this
    have hchg := lintegral_image_eq_lintegral_abs_deriv_mul hB hder hinj (fun _ => 1)
    rw [himg] at hchg
    simp only [lintegral_const, mul_one, one_mul, Measure.restrict_apply MeasurableSet.univ, univ_inter] at hchg
    rw [hchg]
    have hz : ∫⁻ x in A, ENNReal.ofReal (exponentialPdf rate x)
        = ∫⁻ x in A ∩ Ici 0, ENNReal.ofReal (exponentialPdf rate x) := by
      rw [← lintegral_indicator hA, ← lintegral_indicator (hA.inter measurableSet_Ici)]
      congr 1
      funext x
      by_cases hx : x ∈ A <;> by_cases h0 : 0 ≤ x <;> simp [indicator, hx, h0, hpdf]
    have hz2 : ∫⁻ x in A ∩ Ici 0, ENNReal.ofReal (exponentialPdf rate x)
        = ∫⁻ x in A ∩ Ioi 0, ENNReal.ofReal (exponentialPdf rate x) :=
      setLIntegral_congr ((ae_eq_refl A).inter Ioi_ae_eq_Ici.symm)
    rw [hz, hz2]
    refine setLIntegral_congr_fun hB fun x hx => ?_
    rw [hpdf, if_pos (le_of_lt hx.2), abs_of_pos (by positivity)]

/-! ### StudentT -/

/-- The mixture of normal densities over the gamma number is the density of line 310. -/
theorem student_mixture {mean df : ℝ} (hd : 0 < df) (x : ℝ) :
    ∫⁻ g in Ioi 0, ENNReal.ofReal (gammaPDFReal (df / 2) 1 g)
        * ENNReal.ofReal (normalPdf mean (√(df / 2) / √g) x)
      = ENNReal.ofReal (studentPdf mean df x) := by
  set c : ℝ := 1 / (Gamma (df / 2) * √(df * π)) with hc
  set r : ℝ := 1 + (x - mean) ^ 2 / df with hr
  have hr0 : 0 < r := by positivity
  have hG := Gamma_pos_of_pos (show 0 < df / 2 by positivity)
  have hc0 : 0 < c := by positivity
  have hpt : ∀ g ∈ Ioi (0 : ℝ), ENNReal.ofReal (gammaPDFReal (df / 2) 1 g)
        * ENNReal.ofReal (normalPdf mean (√(df / 2) / √g) x)
      = ENNReal.ofReal (c * (g ^ ((df + 1) / 2 - 1) * exp (-(r * g)))) := by
    intro g hg
    have hg : 0 < g := hg
    rw [← ENNReal.ofReal_mul (gammaPDFReal_nonneg (by positivity) one_pos g)]
    congr 1
    have hsg : 0 < √g := sqrt_pos.2 hg
    have hsd : 0 < √(df / 2) := sqrt_pos.2 (by positivity)
    have h1 : g ^ ((df + 1) / 2 - 1) = g ^ (df / 2 - 1) * √g := by
      rw [sqrt_eq_rpow, ← rpow_add hg]; congr 1; ring
    have h2 : exp (-(r * g)) = exp (-(1 * g)) * exp (-((x - mean) / (√(df / 2) / √g)) ^ 2 / 2) := by
      rw [← exp_add]; congr 1
      rw [div_pow, div_pow, sq_sqrt hg.le, sq_sqrt (by positivity), hr]
      field_simp
      ring
    have h3 : √(df * π) = √(2 * π) * √(df / 2) := by
      rw [← Real.sqrt_mul (by positivity)]; congr 1; ring
    simp only [gammaPDFReal, if_pos hg.le, one_rpow, normalPdf, scipyNorm, h1, h2, hc, h3]
    have : √(2 * π) ≠ 0 := by positivity
    field_simp
  rw [setLIntegral_congr_fun measurableSet_Ioi hpt]
  have hs : 0 < (df + 1) / 2 := by positivity
  have hval := integral_rpow_mul_exp_neg_mul_Ioi hs hr0
  have hint : IntegrableOn (fun g : ℝ => g ^ ((df + 1) / 2 - 1) * exp (-(r * g))) (Ioi 0) := by
    by_contra hne
    rw [integral_undef hne] at hval
    have : 0 < (1 / r) ^ ((df + 1) / 2) * Gamma ((df + 1) / 2) := by
      have := Gamma_pos_of_pos hs
      positivity
    linarith
  rw [← ofReal_integral_eq_lintegral_ofReal (hint.const_mul c), integral_const_mul, hval]
  · congr 1
    simp only [studentPdf]
    rw [← hr, hc, one_div r, inv_rpow hr0.le]
    field_simp
  · refine (ae_restrict_iff' measurableSet_Ioi).2 (Filter.Eventually.of_forall fun g hg => ?_)
    have hg : (0 : ℝ) < g := hg
    have := rpow_nonneg hg.le ((df + 1) / 2 - 1)
    simp only [Pi.zero_apply]
    positivity

theorem C130_student {mean df : ℝ} (h : studentCheck [mean, df] = true) :
    IsDensity (studentLaw mean df) (studentPdf mean df) := by
  have hd : 0 < df := by simpa [studentCheck] using h
  have hmd : Measurable (studentDraw mean df) := by unfold studentDraw; fun_prop
  have : IsProbabilityMeasure (gammaMeasure (df / 2) 1) := isProbabilityMeasure_gammaMeasure (by positivity) one_pos
  have : IsProbabilityMeasure stdNormal := by unfold stdNormal; infer_instance
  have hG1 := Gamma_pos_of_pos (show 0 < df / 2 by positivity)
  have hG2 := Gamma_pos_of_pos (show 0 < (df + 1) / 2 by positivity)
  refine ⟨?_, ?_, ?_, ?_⟩
  · rw [studentLaw, Measure.map_apply hmd MeasurableSet.univ]; simp
  · unfold studentPdf; fun_prop
  · intro x
    unfold studentPdf
    positivity
  · intro A hA
    rw [studentLaw, Measure.map_apply hmd hA, Measure.prod_apply (hmd hA)]
    have hinner : ∀ g ∈ Ioi (0 : ℝ), stdNormal (Prod.mk g ⁻¹' (studentDraw mean df ⁻¹' A))
        = ∫⁻ x in A, ENNReal.ofReal (normalPdf mean (√(df / 2) / √g) x) := by
      intro g hg
      have hg : 0 < g := hg
      have hs : 0 < √(df / 2) / √g := div_pos (sqrt_pos.2 (by positivity)) (sqrt_pos.2 hg)
      obtain ⟨-, -, -, n4⟩ := C130_normal (mu := mean) (sigma := √(df / 2) / √g) (by simpa [normalCheck] using hs)
      rw [← n4 A hA, normalLaw, Measure.map_apply (by unfold normalDraw; fun_prop) hA]
      congr 1
      ext z
      simp only [mem_preimage, studentDraw, normalDraw]
      rw [show √(df / 2) * z / √g + mean = mean + √(df / 2) / √g * z by ring]
    have hmg : Measurable (gammaPDF (df / 2) 1) := (measurable_gammaPDFReal _ _).ennreal_ofReal
    rw [gammaMeasure, lintegral_withDensity_eq_lintegral_mul₀ hmg.aemeasurable
      (measurable_measure_prodMk_left (hmd hA)).aemeasurable]
    have hz : ∫⁻ g, (gammaPDF (df / 2) 1 * fun g => stdNormal (Prod.mk g ⁻¹' (studentDraw mean df ⁻¹' A))) g
        = ∫⁻ g in Ioi 0, ENNReal.ofReal (gammaPDFReal (df / 2) 1 g)
            * ∫⁻ x in A, ENNReal.ofReal (normalPdf mean (√(df / 2) / √g) x) := by
      rw [← setLIntegral_univ, ← Iio_union_Ici (a := (0 : ℝ)),
        lintegral_union measurableSet_Ici (by
          rw [Set.disjoint_iff_forall_ne]; intro a ha b hb e; simp at ha hb; linarith)]
      rw [setLIntegral_congr_fun (g := fun _ => 0) measurableSet_Iio (by
        intro g hg
        simp [Pi.mul_apply, gammaPDF_of_neg hg])]
      rw [lintegral_zero, zero_add, setLIntegral_congr Ioi_ae_eq_Ici.symm]
      refine setLIntegral_congr_fun measurableSet_Ioi fun g hg => ?_
      simp only [Pi.mul_apply]
      rw [hinner g hg]
      rfl
    rw [hz]
    have hm2 : Measurable fun p : ℝ × ℝ => normalPdf mean (√(df / 2) / √p.1) p.2 := by
      unfold normalPdf scipyNorm; fun_prop
    have hswap : ∫⁻ g in Ioi 0, ENNReal.ofReal (gammaPDFReal (df / 2) 1 g)
            * ∫⁻ x in A, ENNReal.ofReal (normalPdf mean (√(df / 2) / √g) x)
        = ∫⁻ x in A, ∫⁻ g in Ioi 0, ENNReal.ofReal (gammaPDFReal (df / 2) 1 g)
            * ENNReal.ofReal (normalPdf mean (√(df / 2) / √g) x) := by
      rw [lintegral_lintegral_swap]
      · refine lintegral_congr fun g => ?_
        rw [lintegral_const_mul]
        exact (hm2.comp (measurable_const.prodMk measurable_id)).ennreal_ofReal
      · refine Measurable.aemeasurable ?_
        change Measurable fun p : ℝ × ℝ => ENNReal.ofReal (gammaPDFReal (df / 2) 1 p.2)
          * ENNReal.ofReal (normalPdf mean (√(df / 2) / √p.2) p.1)
        have k1 : Measurable fun p : ℝ × ℝ => ENNReal.ofReal (gammaPDFReal (df / 2) 1 p.2) :=
          ((measurable_gammaPDFReal _ _).comp measurable_snd).ennreal_ofReal
        have k2 : Measurable fun p : ℝ × ℝ => ENNReal.ofReal (normalPdf mean (√(df / 2) / √p.2) p.1) :=
          (hm2.comp (measurable_snd.prodMk measurable_fst)).ennreal_ofReal
        exact k1.mul k2
    rw [hswap]
    exact lintegral_congr fun x => student_mixture hd x

/-! ### Parameters -/

/-- The second parameter of `Normal`, which the documentation calls its variance (continuousmodels.py 125-133), is the standard
deviation: the variance of the draws is its square, and so equals the parameter only if that is 1. -/
theorem C130_variance_violated {mu sigma : ℝ} (h : normalCheck [mu, sigma] = true) :
    ∫ x, x ∂normalLaw mu sigma = mu ∧ Var[id; normalLaw mu sigma] = sigma ^ 2 ∧
      (Var[id; normalLaw mu sigma] = sigma ↔ sigma = 1) := by
  have hs : 0 < sigma := by simpa [normalCheck] using h
  have hv : Var[id; normalLaw mu sigma] = sigma ^ 2 := by
    rw [normalLaw_eq, variance_id_gaussianReal, Real.coe_toNNReal _ (sq_nonneg _)]
  refine ⟨by rw [normalLaw_eq, integral_id_gaussianReal], hv, ?_⟩
  rw [hv]
  constructor
  · intro e
    have : sigma * (sigma - 1) = 0 := by linarith
    rcases mul_eq_zero.1 this with h0 | h1 <;> linarith
  · rintro rfl; norm_num

/-! ### Poisson -/

/-- The mass function of the Poisson law of mean `rate`. -/
noncomputable def poissonMass (rate : ℝ) (x : ℕ) : ℝ := exp (-rate) * rate ^ x / x.factorial

theorem hasSum_poissonMass {rate : ℝ} (h : 0 ≤ rate) : HasSum (poissonMass rate) 1 := by
  have := hasSum_one_poissonMeasure rate.toNNReal
  rw [Real.coe_toNNReal _ h] at this
  exact this

/-- The mean of the Poisson law. -/
theorem hasSum_poissonMean {rate : ℝ} (h : 0 ≤ rate) : HasSum (fun x : ℕ => x * poissonMass rate x) rate := by
  have h1 : HasSum (fun x : ℕ => rate * poissonMass rate x) (rate * 1) := (hasSum_poissonMass h).mul_left rate
  rw [mul_one] at h1
  refine (hasSum_nat_add_iff' 1).1 ?_
  simp only [Finset.range_one, Finset.sum_singleton, Nat.cast_zero, zero_mul, sub_zero]
  refine (funext fun x => ?_ : (fun x : ℕ => ((x + 1 : ℕ) : ℝ) * poissonMass rate (x + 1)) = fun x => rate * poissonMass rate x) ▸ h1
  simp only [poissonMass, Nat.factorial_succ]
  push_cast
  field_simp
  ring

theorem C131_partial {rate : ℝ} (h : poissonCheck [rate] = some true) :
    (∀ x, poissonPmf rate x = poissonDrawMass rate x) ∧ (∀ x, 0 ≤ poissonPmf rate x) ∧ HasSum (poissonPmf rate) 1 ∧
      HasSum (fun x : ℕ => x * poissonPmf rate x) ⌊rate⌋₊ ∧
      ((∀ x, poissonPmf rate x = poissonMass rate x) ↔ ∃ n : ℕ, rate = n) := by
  have hr : 0 ≤ rate := by simpa [poissonCheck] using h
  refine ⟨fun _ => rfl, fun x => ?_, hasSum_poissonMass (Nat.cast_nonneg _), hasSum_poissonMean (Nat.cast_nonneg _), ?_⟩
  · unfold poissonPmf scipyPoisson; positivity
  · constructor
    · intro e
      have := e 0
      simp only [poissonPmf, scipyPoisson, poissonMass, pow_zero, mul_one, Nat.factorial_zero, Nat.cast_one, div_one] at this
      exact ⟨_, by linarith [exp_injective this]⟩
    · rintro ⟨n, rfl⟩ x
      simp [poissonPmf, scipyPoisson, poissonMass]

/-- Every accepted rate that is no integer: the draws and the mass function both have a smaller mean than the rate. -/
theorem C131_violated {rate : ℝ} (h : poissonCheck [rate] = some true) (hn : ∀ n : ℕ, rate ≠ n) :
    (∃ m, m < rate ∧ HasSum (fun x : ℕ => x * poissonDrawMass rate x) m) ∧
      poissonPmf rate 0 > poissonMass rate 0 ∧ (rate < 1 → poissonDrawMass rate 0 = 1) := by
  have hr : 0 ≤ rate := by simpa [poissonCheck] using h
  have hlt : (⌊rate⌋₊ : ℝ) < rate := lt_of_le_of_ne (Nat.floor_le hr) (hn _).symm
  refine ⟨⟨_, hlt, hasSum_poissonMean (Nat.cast_nonneg _)⟩, ?_, fun h1 => ?_⟩
  · simp only [poissonPmf, scipyPoisson, poissonMass, pow_zero, mul_one, Nat.factorial_zero, Nat.cast_one, div_one]
    exact exp_lt_exp.2 (by linarith)
  · rw [poissonDrawMass, Nat.floor_eq_zero.2 h1]; simp [scipyPoisson]

/-- C130, which inputs are accepted: exactly the right number of parameters, with a positive scale, degree of freedom or rate (`poissonCheck`: a rate that is not negative; without any parameter it raises). -/
theorem C130_checks (l : List ℝ) : (normalCheck l = true ↔ ∃ mu sigma, l = [mu, sigma] ∧ 0 < sigma) ∧ (lognormalCheck l = true ↔ ∃ mu sigma, l = [mu, sigma] ∧ 0 < sigma) ∧
    (studentCheck l = true ↔ ∃ mean df, l = [mean, df] ∧ 0 < df) ∧ (exponentialCheck l = true ↔ ∃ rate, l = [rate] ∧ 0 < rate) ∧
    (poissonCheck l = some true ↔ ∃ rate, l = [rate] ∧ 0 ≤ rate) ∧ (poissonCheck l = none ↔ l = []) := by
  rcases l with _ | ⟨a, _ | ⟨b, _ | ⟨c, l⟩⟩⟩ <;> simp [normalCheck, lognormalCheck, studentCheck, exponentialCheck, poissonCheck]

/-- The hypotheses are met. -/
example : normalCheck [3, 2] = true ∧ studentCheck [1, (5 : ℝ) / 2] = true ∧ lognormalCheck [0, 1 / 2] = true
    ∧ exponentialCheck [3] = true ∧ poissonCheck [5 / 2] = some true ∧ ∀ n : ℕ, (5 / 2 : ℝ) ≠ n := by
  refine ⟨by norm_num [normalCheck], by norm_num [studentCheck], by norm_num [lognormalCheck],
    by norm_num [exponentialCheck], by norm_num [poissonCheck], fun n e => ?_⟩
  have h2 : (5 : ℝ) = ((2 * n : ℕ) : ℝ) := by push_cast; linarith
  have h3 : (5 : ℕ) = 2 * n := by exact_mod_cast h2
  omega

end Verif.Densities
