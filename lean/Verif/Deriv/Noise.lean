import Verif.Deriv.TrainProps
import Mathlib.Probability.Distributions.Gaussian.Real
import Mathlib.MeasureTheory.Constructions.Pi
import Mathlib.Data.Real.Sign
/-
C128: the noise of `_single_sliced_score_matching` (`abcpy/statisticslearning.py` 1781-1793), for all its types, and the mean of the sliced loss over it.
-/
namespace Verif.Deriv

open MeasureTheory ProbabilityTheory

/-- The argument `noise_type`. -/
inductive NoiseType where
  | radermacher
  | sphere
  | gaussian
  | other

/-- Lines 1782-1793 for standard normal numbers `z` (`torch.randn_like`) of `d` columns; `none` is a `RuntimeError`. -/
noncomputable def makeNoise (t : NoiseType) (varianceReduction : Bool) (d : Nat) (z : Batch) : Option Batch :=
  match t with
  | .radermacher => some fun b i => Real.sign (z b i)
  | .sphere => if varianceReduction then none else some fun b i => z b i / Real.sqrt (∑ k ∈ Finset.range d, z b k ^ 2) * Real.sqrt d
  | .gaussian => some z
  | .other => none

/-- The loss of a batch with the sliced method and no given noise, lines 1766-1814. -/
noncomputable def slicedLossDrawn (t : NoiseType) (net : Net) (n d m : Nat) (samples etas z : Batch) (varianceReduction : Bool) : Option ℝ :=
  (makeNoise t varianceReduction d z).map fun v => slicedLoss net n d m samples etas v varianceReduction

/-! ### Specification -/

/-- The numbers of an array of `n` rows and `d` columns. -/
def toBatch {n d : Nat} (z : Fin n → Fin d → ℝ) : Batch := fun b i => if h : b < n ∧ i < d then z ⟨b, h.1⟩ ⟨i, h.2⟩ else 0

/-- The law of `d` independent standard normal numbers. -/
noncomputable def normalRow (d : Nat) : Measure (Fin d → ℝ) := Measure.pi fun _ => gaussianReal 0 1

/-- The law of an array of independent standard normal numbers. -/
noncomputable def normalArray (n d : Nat) : Measure (Fin n → Fin d → ℝ) := Measure.pi fun _ => normalRow d

instance (d : Nat) : IsProbabilityMeasure (normalRow d) := by unfold normalRow; infer_instance
instance (n d : Nat) : IsProbabilityMeasure (normalArray n d) := by unfold normalArray; infer_instance

/-! ### Second moments -/

/-- A function of a row that has uncorrelated entries of mean square one. -/
def Isotropic {d : Nat} (w : (Fin d → ℝ) → Fin d → ℝ) : Prop :=
  ∀ i j, Integrable (fun z => w z i * w z j) (normalRow d) ∧ ∫ z, w z i * w z j ∂normalRow d = if i = j then 1 else 0

theorem flip_preserving {d : Nat} (i : Fin d) : MeasurePreserving (fun z : Fin d → ℝ => fun k => if k = i then -z k else z k) (normalRow d) (normalRow d) := by
  have := measurePreserving_pi (fun _ : Fin d => gaussianReal 0 1) (fun _ : Fin d => gaussianReal 0 1) (f := fun k x => if k = i then -x else x) (fun k => by
    by_cases h : k = i
    · simp only [h, if_true]
      exact ⟨measurable_neg, by rw [gaussianReal_map_neg, neg_zero]⟩
    · simp only [h, if_false]
      exact MeasurePreserving.id _)
  exact this

theorem perm_preserving {d : Nat} (e : Fin d ≃ Fin d) : MeasurePreserving (fun z : Fin d → ℝ => fun k => z (e k)) (normalRow d) (normalRow d) := by
  have := measurePreserving_piCongrLeft (fun _ : Fin d => gaussianReal 0 1) e.symm
  unfold normalRow
  convert this using 1
  funext z k
  have := Equiv.piCongrLeft_apply_apply (fun _ : Fin d => ℝ) e.symm z (e k)
  rw [Equiv.symm_apply_apply] at this
  exact this.symm

theorem eval_preserving {d : Nat} (i : Fin d) : MeasurePreserving (fun z : Fin d → ℝ => z i) (normalRow d) (gaussianReal 0 1) := measurePreserving_eval _ i

theorem isotropic_of {d : Nat} (w : (Fin d → ℝ) → Fin d → ℝ) (hm : ∀ i, Measurable fun z => w z i) (hi : ∀ i, Integrable (fun z => w z i * w z i) (normalRow d))
    (h1 : ∀ i, ∫ z, w z i * w z i ∂normalRow d = 1) (hf : ∀ (i : Fin d) z, w (fun k => if k = i then -z k else z k) = fun k => if k = i then -w z k else w z k) : Isotropic w := by
  have L2 : ∀ i, MemLp (fun z => w z i) 2 (normalRow d) := fun i => by
    rw [memLp_two_iff_integrable_sq (hm i).aestronglyMeasurable]
    simpa [pow_two] using hi i
  intro i j
  refine ⟨(L2 i).integrable_mul (L2 j), ?_⟩
  split
  · rename_i e; subst e; exact h1 i
  · rename_i hne
    have hmm : AEStronglyMeasurable (fun z => w z i * w z j) (Measure.map (fun z : Fin d → ℝ => fun k => if k = i then -z k else z k) (normalRow d)) := ((hm i).mul (hm j)).aestronglyMeasurable
    have h : ∫ z, w z i * w z j ∂normalRow d = ∫ z, -(w z i * w z j) ∂normalRow d := by
      conv_lhs => rw [← (flip_preserving i).map_eq]
      rw [integral_map (flip_preserving i).aemeasurable hmm]
      congr 1
      funext z
      simp only [hf, if_true, if_neg (Ne.symm hne), neg_mul]
    rw [integral_neg] at h
    linarith

theorem normal_sq {d : Nat} (i : Fin d) : Integrable (fun z : Fin d → ℝ => z i * z i) (normalRow d) ∧ ∫ z, z i * z i ∂normalRow d = 1 := by
  have hL : Integrable (fun x : ℝ => x * x) (gaussianReal 0 1) := by
    have := memLp_id_gaussianReal' (μ := 0) (v := 1) 2 (by norm_num)
    exact this.integrable_mul this
  constructor
  · exact (eval_preserving i).integrable_comp_of_integrable hL
  · have h : ∫ x, x * x ∂gaussianReal 0 1 = 1 := by
      have := variance_fun_id_gaussianReal (μ := 0) (v := 1)
      rw [variance_eq_integral measurable_id'.aemeasurable] at this
      simpa [pow_two] using this
    rw [← h, ← (eval_preserving i).map_eq, integral_map (eval_preserving i).aemeasurable]
    exact (measurable_id.mul measurable_id).aestronglyMeasurable

theorem nonzero_ae {d : Nat} (i : Fin d) : ∀ᵐ z ∂normalRow d, z i ≠ 0 := by
  have h : ∀ᵐ x ∂gaussianReal 0 1, x ≠ 0 := by
    have := nullSingletonClass_gaussianReal (μ := 0) (v := 1) one_ne_zero
    rw [ae_iff]
    simp only [ne_eq, not_not, Set.setOf_eq_eq_singleton]
    exact measure_singleton _
  exact (eval_preserving i).quasiMeasurePreserving.ae h

theorem isotropic_gaussian (d : Nat) : Isotropic (fun z : Fin d → ℝ => z) :=
  isotropic_of _ (fun i => measurable_pi_apply i) (fun i => (normal_sq i).1) (fun i => (normal_sq i).2) fun _ _ => rfl

theorem measurable_sign : Measurable Real.sign := by
  unfold Real.sign
  exact Measurable.ite measurableSet_Iio measurable_const (Measurable.ite measurableSet_Ioi measurable_const measurable_const)

theorem isotropic_sign (d : Nat) : Isotropic (fun (z : Fin d → ℝ) k => Real.sign (z k)) := by
  have h : ∀ i, (fun z : Fin d → ℝ => Real.sign (z i) * Real.sign (z i)) =ᵐ[normalRow d] fun _ => (1 : ℝ) := fun i => by
    filter_upwards [nonzero_ae i] with z hz
    rcases Real.sign_apply_eq_of_ne_zero _ hz with h | h <;> rw [h] <;> norm_num
  refine isotropic_of _ (fun i => measurable_sign.comp (measurable_pi_apply i)) (fun i => (integrable_congr (h i)).2 (integrable_const _)) (fun i => ?_) fun i z => ?_
  · rw [integral_congr_ae (h i)]; simp
  · funext k
    by_cases h : k = i
    · simp only [h, if_true]; exact Real.sign_neg
    · simp only [h, if_false]

/-- The projection of a row to the sphere. -/
noncomputable def onSphere {d : Nat} (z : Fin d → ℝ) (k : Fin d) : ℝ := z k / Real.sqrt (∑ l, z l ^ 2) * Real.sqrt d

theorem onSphere_sq {d : Nat} (z : Fin d → ℝ) (k : Fin d) : onSphere z k * onSphere z k = z k ^ 2 / (∑ l, z l ^ 2) * d := by
  have h1 := Real.mul_self_sqrt (Finset.sum_nonneg fun l (_ : l ∈ Finset.univ) => sq_nonneg (z l))
  have h2 := Real.mul_self_sqrt (Nat.cast_nonneg (α := ℝ) d)
  unfold onSphere
  calc _ = z k ^ 2 / (Real.sqrt (∑ l, z l ^ 2) * Real.sqrt (∑ l, z l ^ 2)) * (Real.sqrt d * Real.sqrt d) := by ring
    _ = _ := by rw [h1, h2]

theorem measurable_onSphere {d : Nat} (k : Fin d) : Measurable fun z : Fin d → ℝ => onSphere z k := by
  unfold onSphere
  fun_prop

theorem isotropic_sphere (d : Nat) : Isotropic (onSphere : (Fin d → ℝ) → Fin d → ℝ) := by
  have hint : ∀ i, Integrable (fun z : Fin d → ℝ => onSphere z i * onSphere z i) (normalRow d) := fun i => by
    refine Integrable.mono' (integrable_const (d : ℝ)) ((measurable_onSphere i).mul (measurable_onSphere i)).aestronglyMeasurable (Filter.Eventually.of_forall fun z => ?_)
    rw [onSphere_sq, Real.norm_of_nonneg (by positivity)]
    have : z i ^ 2 / (∑ l, z l ^ 2) ≤ 1 := div_le_one_of_le₀ (Finset.single_le_sum (fun l _ => sq_nonneg (z l)) (Finset.mem_univ i)) (Finset.sum_nonneg fun l _ => sq_nonneg _)
    nlinarith [Nat.cast_nonneg (α := ℝ) d]
  have hsame : ∀ i j, ∫ z, onSphere z i * onSphere z i ∂normalRow d = ∫ z, onSphere z j * onSphere z j ∂normalRow d := fun i j => by
    have hp := perm_preserving (Equiv.swap i j)
    have hmm : AEStronglyMeasurable (fun z => onSphere z i * onSphere z i) (Measure.map (fun z : Fin d → ℝ => fun k => z (Equiv.swap i j k)) (normalRow d)) :=
      ((measurable_onSphere i).mul (measurable_onSphere i)).aestronglyMeasurable
    conv_lhs => rw [← hp.map_eq]
    rw [integral_map hp.aemeasurable hmm]
    congr 1
    funext z
    rw [onSphere_sq, onSphere_sq, Equiv.swap_apply_left, Equiv.sum_comp (Equiv.swap i j) fun l => z l ^ 2]
  refine isotropic_of _ measurable_onSphere hint (fun i => ?_) fun i z => ?_
  · have hsum : ∑ j, ∫ z, onSphere z j * onSphere z j ∂normalRow d = d := by
      rw [← integral_finsetSum _ fun j _ => hint j]
      have : (fun z : Fin d → ℝ => ∑ j, onSphere z j * onSphere z j) =ᵐ[normalRow d] fun _ => (d : ℝ) := by
        filter_upwards [nonzero_ae i] with z hz
        have hpos : 0 < ∑ l, z l ^ 2 := lt_of_lt_of_le (by positivity) (Finset.single_le_sum (fun l _ => sq_nonneg (z l)) (Finset.mem_univ i))
        simp only [onSphere_sq]
        rw [← Finset.sum_mul, ← Finset.sum_div, div_self hpos.ne', one_mul]
      rw [integral_congr_ae this]
      simp
    simp only [hsame _ i, Finset.sum_const, Finset.card_univ, Fintype.card_fin, nsmul_eq_mul] at hsum
    have hd : (d : ℝ) ≠ 0 := by
      have := i.pos
      positivity
    exact mul_left_cancel₀ hd (by rw [hsum, mul_one])
  · funext k
    have : ∑ l, (if l = i then -z l else z l) ^ 2 = ∑ l, z l ^ 2 := Finset.sum_congr rfl fun l _ => by split <;> ring
    unfold onSphere
    rw [this]
    by_cases h : k = i
    · simp only [h, if_true]; ring
    · simp only [h, if_false]

/-! ### The mean of the loss -/

theorem row_moment {n d : Nat} (w : (Fin d → ℝ) → Fin d → ℝ) (hm : ∀ i, Measurable fun z => w z i) (hw : Isotropic w) (b : Fin n) (i j : Fin d) :
    Integrable (fun z : Fin n → Fin d → ℝ => w (z b) i * w (z b) j) (normalArray n d) ∧ ∫ z, w (z b) i * w (z b) j ∂normalArray n d = if i = j then 1 else 0 := by
  have hp : MeasurePreserving (fun z : Fin n → Fin d → ℝ => z b) (normalArray n d) (normalRow d) := measurePreserving_eval _ b
  obtain ⟨h1, h2⟩ := hw i j
  refine ⟨hp.integrable_comp_of_integrable h1, ?_⟩
  rw [← h2, ← hp.map_eq, integral_map hp.aemeasurable]
  exact ((hm i).mul (hm j)).aestronglyMeasurable

/-- The function is integrable and has this mean. -/
def Mean {n d : Nat} (f : (Fin n → Fin d → ℝ) → ℝ) (c : ℝ) : Prop := Integrable f (normalArray n d) ∧ ∫ z, f z ∂normalArray n d = c

section
variable {n d : Nat}

theorem Mean.const (c : ℝ) : Mean (fun _ : Fin n → Fin d → ℝ => c) c := ⟨integrable_const c, by simp⟩

theorem Mean.add {f g : (Fin n → Fin d → ℝ) → ℝ} {a b : ℝ} (hf : Mean f a) (hg : Mean g b) : Mean (fun z => f z + g z) (a + b) :=
  ⟨hf.1.add hg.1, by rw [integral_add hf.1 hg.1, hf.2, hg.2]⟩

theorem Mean.mul {f : (Fin n → Fin d → ℝ) → ℝ} {a : ℝ} (c : ℝ) (hf : Mean f a) : Mean (fun z => c * f z) (c * a) :=
  ⟨hf.1.const_mul c, by rw [integral_const_mul, hf.2]⟩

theorem Mean.sum {S : Finset ℕ} {f : ℕ → (Fin n → Fin d → ℝ) → ℝ} {a : ℕ → ℝ} (h : ∀ i ∈ S, Mean (f i) (a i)) : Mean (fun z => ∑ i ∈ S, f i z) (∑ i ∈ S, a i) :=
  ⟨integrable_finsetSum _ fun i hi => (h i hi).1, by rw [integral_finsetSum _ fun i hi => (h i hi).1]; exact Finset.sum_congr rfl fun i hi => (h i hi).2⟩

end

/-- The mean of the loss for any noise with uncorrelated entries of mean square one. -/
theorem mean_loss (net : Net) (ha : net.act.Smooth) (n d m : Nat) (hd : d ≤ net.input.width) (samples etas : Batch) (vr : Bool) (w : (Fin d → ℝ) → Fin d → ℝ)
    (hm : ∀ i, Measurable fun z => w z i) (hw : Isotropic w) (v : (Fin n → Fin d → ℝ) → Batch) (hv : ∀ z b i, v z b.1 i.1 = w (z b) i) :
    Mean (fun z => slicedLoss net n d m samples etas (v z) vr) (scoreMatching net n d m samples etas 0) := by
  have key : ∀ b < n, ∀ i < d, ∀ j < d, Mean (fun z : Fin n → Fin d → ℝ => v z b i * v z b j) (if i = j then 1 else 0) := by
    intro b hb i hi j hj
    have := row_moment (n := n) w hm hw ⟨b, hb⟩ ⟨i, hi⟩ ⟨j, hj⟩
    have e : (fun z : Fin n → Fin d → ℝ => v z b i * v z b j) = fun z => w (z ⟨b, hb⟩) ⟨i, hi⟩ * w (z ⟨b, hb⟩) ⟨j, hj⟩ := by
      funext z
      rw [hv z ⟨b, hb⟩ ⟨i, hi⟩, hv z ⟨b, hb⟩ ⟨j, hj⟩]
    rw [e]
    simpa [Mean] using this
  simp only [slicedLoss_eq net ha n d m hd, div_eq_inv_mul]
  rw [scoreMatching, div_eq_inv_mul]
  refine Mean.mul _ (Mean.sum fun b hb => ?_)
  have hb' := Finset.mem_range.mp hb
  set s := score net m etas samples b with hs
  set H := fun i j => partialAt (partialAt (logDensity net m etas b) b j) b i samples with hH
  have h1 : Mean (fun z : Fin n → Fin d → ℝ => if vr then ∑ i ∈ Finset.range d, s i ^ 2 else (∑ i ∈ Finset.range d, s i * v z b i) ^ 2) (∑ i ∈ Finset.range d, s i ^ 2) := by
    cases vr with
    | true => simpa using Mean.const (n := n) (d := d) (∑ i ∈ Finset.range d, s i ^ 2)
    | false =>
      have := Mean.sum (n := n) (d := d) (S := Finset.range d) fun i hi => Mean.sum (S := Finset.range d) fun j hj =>
        Mean.mul (s i * s j) (key b hb' i (Finset.mem_range.mp hi) j (Finset.mem_range.mp hj))
      convert this using 1
      · funext z
        simp only [Bool.false_eq_true, if_false, pow_two, Finset.sum_mul_sum]
        exact Finset.sum_congr rfl fun i _ => Finset.sum_congr rfl fun j _ => by ring
      · refine Finset.sum_congr rfl fun i hi => ?_
        simp only [mul_ite, mul_one, mul_zero, Finset.sum_ite_eq, hi, if_true, pow_two]
  have h2 : Mean (fun z : Fin n → Fin d → ℝ => ∑ i ∈ Finset.range d, ∑ j ∈ Finset.range d, H i j * (v z b i * v z b j)) (∑ i ∈ Finset.range d, H i i) := by
    have := Mean.sum (n := n) (d := d) (S := Finset.range d) fun i hi => Mean.sum (S := Finset.range d) fun j hj =>
      Mean.mul (H i j) (key b hb' i (Finset.mem_range.mp hi) j (Finset.mem_range.mp hj))
    convert this using 1
    refine Finset.sum_congr rfl fun i hi => ?_
    simp only [mul_ite, mul_one, mul_zero, Finset.sum_ite_eq, hi, if_true]
  have := (h1.mul (1 / 2)).add h2
  convert this using 1
  · funext z
    simp only [hH]
    ring
  rw [Finset.mul_sum, ← Finset.sum_add_distrib]
  refine Finset.sum_congr rfl fun i _ => ?_
  simp only [hs, hH, score]
  ring

theorem toBatch_at {n d : Nat} (z : Fin n → Fin d → ℝ) (b : Fin n) (i : Fin d) : toBatch z b i = z b i := by simp [toBatch]

/-- C128 for all types of noise: over arrays of independent standard normal numbers, the mean of the loss is the score-matching objective, for signs and for normal noise with and without variance reduction, and for noise on
the sphere without. -/
theorem C128_noise (t : NoiseType) (vr : Bool) (ht : t ≠ .other) (hs : t = .sphere → vr = false) (net : Net) (ha : net.act.Smooth) (n d m : Nat) (hd : d ≤ net.input.width) (samples etas : Batch) :
    ∃ loss : (Fin n → Fin d → ℝ) → ℝ, (∀ z, slicedLossDrawn t net n d m samples etas (toBatch z) vr = some (loss z)) ∧ Integrable loss (normalArray n d) ∧
      ∫ z, loss z ∂normalArray n d = scoreMatching net n d m samples etas 0 := by
  cases t with
  | radermacher =>
    refine ⟨_, fun z => rfl, mean_loss net ha n d m hd samples etas vr (fun z k => Real.sign (z k)) (fun i => measurable_sign.comp (measurable_pi_apply i)) (isotropic_sign d)
      (fun z b i => Real.sign (toBatch z b i)) fun z b i => by rw [toBatch_at]⟩
  | gaussian =>
    refine ⟨_, fun z => rfl, mean_loss net ha n d m hd samples etas vr (fun z => z) (fun i => measurable_pi_apply i) (isotropic_gaussian d) toBatch fun z b i => by rw [toBatch_at]⟩
  | sphere =>
    rw [hs rfl]
    refine ⟨_, fun z => rfl, mean_loss net ha n d m hd samples etas false onSphere measurable_onSphere (isotropic_sphere d)
      (fun z b i => toBatch z b i / Real.sqrt (∑ k ∈ Finset.range d, toBatch z b k ^ 2) * Real.sqrt d) fun z b i => ?_⟩
    rw [onSphere, toBatch_at, Finset.sum_range]
    simp only [toBatch_at]
  | other => exact absurd rfl ht

/-- The hypotheses can be met: noise on the sphere, two inputs, two hidden units, one statistic and the term `c(x)`. -/
example (samples etas : Batch) : ∃ (net : Net) (loss : (Fin 3 → Fin 2 → ℝ) → ℝ), net.layers.length = 1 ∧ (∀ z, slicedLossDrawn .sphere net 3 2 1 samples etas (toBatch z) false = some (loss z)) ∧
    ∫ z, loss z ∂normalArray 3 2 = scoreMatching net 3 2 1 samples etas 0 := by
  obtain ⟨loss, h, _, h'⟩ := C128_noise .sphere false (by simp) (fun _ => rfl) ⟨⟨2, fun o i => if o = i then 1 else 0, fun _ => 0⟩, [⟨2, fun _ _ => 1, fun _ => 0⟩], softplus⟩ softplus_smooth 3 2 1 le_rfl samples etas
  exact ⟨_, loss, rfl, h, h'⟩

/-- C128, what is refused: other types of noise, and noise on the sphere with variance reduction. -/
theorem C128_refused (t : NoiseType) (vr : Bool) (net : Net) (n d m : Nat) (samples etas z : Batch) :
    slicedLossDrawn t net n d m samples etas z vr = none ↔ t = .other ∨ (t = .sphere ∧ vr = true) := by
  cases t <;> cases vr <;> simp [slicedLossDrawn, makeNoise]

end Verif.Deriv
