import Verif.Cov.Model
import Mathlib.Tactic.Ring
import Mathlib.Tactic.Linarith
import Mathlib.Tactic.NormNum
import Mathlib.Tactic.FieldSimp
import Mathlib.Tactic.Positivity
import Mathlib.Algebra.BigOperators.Field
import Mathlib.Algebra.Order.Star.Real
/-
C121: the covariance matrices of the kernels and of the posterior are weighted covariances of the particles.
-/
namespace Verif.Cov

open Matrix

/-! ### Specification -/

/-- The mean of weighted numbers (weight, number). -/
noncomputable def mean (l : List (ℝ × ℝ)) : ℝ := (l.map fun p => p.1 * p.2).sum / (l.map (·.1)).sum

/-- The unbiased variance of weighted numbers with weights that express reliability. For `n` equal weights this is the sum of the squared deviations divided by `n - 1`. -/
noncomputable def variance (l : List (ℝ × ℝ)) : ℝ :=
  (l.map fun p => p.1 * (p.2 - mean l) ^ 2).sum / ((l.map (·.1)).sum - (l.map fun p => p.1 ^ 2).sum / (l.map (·.1)).sum)

/-! ### Lemmas -/

theorem zipWith_map_zip {A B : Type} (w : List A) (x : List B) (f : B → ℝ) (g : A → ℝ → ℝ) :
    List.zipWith g w (x.map f) = (w.zip x).map fun p => g p.1 (f p.2) := by
  induction w generalizing x with
  | nil => simp
  | cons a w ih => cases x with
    | nil => simp
    | cons b x => simp [ih]

theorem map_fst_zip {A B : Type} (w : List A) (x : List B) (h : w.length = x.length) : (w.zip x).map (·.1) = w := by
  rw [List.map_fst_zip]; omega

/-- Weighted sums of products of centred entries. -/
noncomputable def scatter {d : Nat} (l : List (ℝ × (Fin d → ℝ))) (m : Fin d → ℝ) : Matrix (Fin d) (Fin d) ℝ :=
  Matrix.of fun i j => (l.map fun p => (p.2 i - m i) * ((p.2 j - m j) * p.1)).sum

theorem scatter_cons {d : Nat} (p : ℝ × (Fin d → ℝ)) (l : List (ℝ × (Fin d → ℝ))) (m : Fin d → ℝ) :
    scatter (p :: l) m = p.1 • vecMulVec (p.2 - m) (p.2 - m) + scatter l m := by
  ext i j
  simp [scatter, vecMulVec_apply]
  ring

theorem scatter_form {d : Nat} (l : List (ℝ × (Fin d → ℝ))) (m a : Fin d → ℝ) :
    a ⬝ᵥ (scatter l m *ᵥ a) = (l.map fun p => p.1 * (a ⬝ᵥ p.2 - a ⬝ᵥ m) ^ 2).sum := by
  induction l with
  | nil =>
    have : scatter ([] : List (ℝ × (Fin d → ℝ))) m = 0 := by ext i j; simp [scatter]
    simp [this]
  | cons p l ih =>
    rw [scatter_cons, add_mulVec, dotProduct_add, ih, smul_mulVec, dotProduct_smul, vecMulVec_mulVec]
    simp only [List.map_cons, List.sum_cons, op_smul_eq_smul, dotProduct_smul, smul_eq_mul]
    have h1 : (p.2 - m) ⬝ᵥ a = a ⬝ᵥ p.2 - a ⬝ᵥ m := by rw [dotProduct_comm, dotProduct_sub]
    have h2 : a ⬝ᵥ (p.2 - m) = a ⬝ᵥ p.2 - a ⬝ᵥ m := dotProduct_sub _ _ _
    rw [h1, h2]
    ring

theorem scatter_symm {d : Nat} (l : List (ℝ × (Fin d → ℝ))) (m : Fin d → ℝ) : (scatter l m)ᵀ = scatter l m := by
  ext i j
  simp only [scatter, transpose_apply, of_apply]
  congr 1
  apply List.map_congr_left
  intro p _
  ring

/-- The mean vector. -/
noncomputable def centre {d : Nat} (l : List (ℝ × (Fin d → ℝ))) : Fin d → ℝ := fun i => mean (l.map fun p => (p.1, p.2 i))

theorem centre_form {d : Nat} (l : List (ℝ × (Fin d → ℝ))) (a : Fin d → ℝ) : a ⬝ᵥ centre l = mean (l.map fun p => (p.1, a ⬝ᵥ p.2)) := by
  have h : ∀ l : List (ℝ × (Fin d → ℝ)), ∑ i, a i * (l.map fun p => p.1 * p.2 i).sum = (l.map fun p => p.1 * a ⬝ᵥ p.2).sum := by
    intro l
    induction l with
    | nil => simp
    | cons p l ih =>
      simp only [List.map_cons, List.sum_cons, mul_add, Finset.sum_add_distrib, ih]
      congr 1
      rw [dotProduct, Finset.mul_sum]
      apply Finset.sum_congr rfl
      intro i _
      ring
  simp only [centre, mean, dotProduct, List.map_map, Function.comp_def]
  have h' := h l
  simp only [dotProduct] at h'
  rw [← h', Finset.sum_div]
  apply Finset.sum_congr rfl
  intro i _
  rw [mul_div_assoc]

theorem sum_sq_le (w : List ℝ) (h : ∀ a ∈ w, 0 ≤ a) : 0 ≤ w.sum ∧ (w.map fun a => a * a).sum ≤ w.sum * w.sum := by
  induction w with
  | nil => simp
  | cons a w ih =>
    obtain ⟨h1, h2⟩ := ih fun b hb => h b (by simp [hb])
    have ha := h a (by simp)
    simp only [List.map_cons, List.sum_cons]
    exact ⟨by linarith, by nlinarith [mul_nonneg ha h1]⟩

theorem sum_pos_iff (w : List ℝ) (h : ∀ a ∈ w, 0 ≤ a) : 0 < w.sum ↔ 1 ≤ (w.filter (0 < ·)).length := by
  induction w with
  | nil => simp
  | cons a w ih =>
    have ih := ih fun b hb => h b (by simp [hb])
    have hs := (sum_sq_le w fun b hb => h b (by simp [hb])).1
    have ha := h a (by simp)
    by_cases h0 : 0 < a
    · simp [h0]; linarith
    · have : a = 0 := le_antisymm (not_lt.mp h0) ha
      simpa [h0, this] using ih

/-- The factor is positive if and only if two weights are positive. -/
theorem fact_pos_iff (w : List ℝ) (h : ∀ a ∈ w, 0 ≤ a) : (w.map fun a => a * a).sum < w.sum * w.sum ↔ 2 ≤ (w.filter (0 < ·)).length := by
  induction w with
  | nil => simp
  | cons a w ih =>
    have hw : ∀ b ∈ w, 0 ≤ b := fun b hb => h b (by simp [hb])
    have ih := ih hw
    obtain ⟨hs, hq⟩ := sum_sq_le w hw
    have hp := sum_pos_iff w hw
    have ha := h a (by simp)
    simp only [List.map_cons, List.sum_cons]
    by_cases h0 : 0 < a
    · simp only [h0, decide_true, List.filter_cons_of_pos, List.length_cons]
      constructor
      · intro hlt
        have : 0 < w.sum := by
          by_contra hn
          have : w.sum = 0 := le_antisymm (not_lt.mp hn) hs
          rw [this] at hlt hq
          have : 0 ≤ (w.map fun a => a * a).sum := List.sum_nonneg fun x hx => by
            obtain ⟨y, _, rfl⟩ := List.mem_map.mp hx; exact mul_self_nonneg y
          nlinarith
        have := hp.mp this
        omega
      · intro hl
        have : 0 < w.sum := hp.mpr (by omega)
        nlinarith [mul_pos h0 this]
    · have : a = 0 := le_antisymm (not_lt.mp h0) ha
      subst this
      simpa using ih

theorem npCov_eq {d : Nat} (x : List (Fin d → ℝ)) (w : List ℝ) (hl : w.length = x.length) (hn : ∀ a ∈ w, 0 ≤ a) (h2 : 2 ≤ (w.filter (0 < ·)).length) :
    npCov x (some w) = some ((1 / (w.sum - (w.map fun a => a * a).sum / w.sum)) • scatter (w.zip x) (centre (w.zip x))) := by
  have hs : 0 < w.sum := (sum_pos_iff w hn).mpr (by omega)
  have hf : 0 < w.sum - (w.map fun a => a * a).sum / w.sum := by
    have := (fact_pos_iff w hn).mpr h2
    have : (w.map fun a => a * a).sum / w.sum < w.sum := by rwa [div_lt_iff₀ hs]
    linarith
  unfold npCov
  simp only [Option.getD_some, one_mul]
  rw [if_neg, if_neg (not_le.mpr hf)]
  · congr 1
    ext i j
    simp only [scatter, centre, mean, average, Matrix.smul_apply, of_apply, smul_eq_mul, zipWith_map_zip, List.map_map, Function.comp_def]
    have e : (w.zip x).map (fun p => p.1) = w := map_fst_zip w x hl
    rw [e]
    congr 1
    generalize (((w.zip x).map fun p => p.1 * p.2 i).sum / w.sum) = mi
    generalize (((w.zip x).map fun p => p.1 * p.2 j).sum / w.sum) = mj
    clear e hf hs h2 hn
    induction w generalizing x with
    | nil => cases x <;> simp
    | cons a w ih => cases x with
      | nil => simp
      | cons v x => simp [ih x (by simpa using hl)]
  · rw [not_or, not_or]
    refine ⟨by simp [hl], ?_, hs.ne'⟩
    rintro ⟨a, ha, h⟩
    exact absurd (hn a ha) (not_le.mpr h)

theorem npCov_none {d : Nat} (x : List (Fin d → ℝ)) (w : List ℝ) (h2 : ¬ 2 ≤ (w.filter (0 < ·)).length) : npCov x (some w) = none := by
  unfold npCov
  simp only [Option.getD_some, one_mul]
  split
  · rfl
  · rename_i h
    rw [not_or, not_or] at h
    have hn : ∀ a ∈ w, 0 ≤ a := fun a ha => not_lt.mp fun hlt => h.2.1 ⟨a, ha, hlt⟩
    have hs : 0 < w.sum := lt_of_le_of_ne (sum_sq_le w hn).1 (Ne.symm h.2.2)
    rw [if_pos]
    have := mt (fact_pos_iff w hn).mp h2
    have : w.sum ≤ (w.map fun a => a * a).sum / w.sum := by rw [le_div_iff₀ hs]; exact not_lt.mp this
    linarith

/-- Without weights the result is that for equal weights. -/
theorem npCov_unweighted {d : Nat} (x : List (Fin d → ℝ)) (h : x ≠ []) : npCov x none = npCov x (some (List.replicate x.length 1)) := by
  have hp : (x.length : ℝ) ≠ 0 := by simpa using h
  unfold npCov
  simp only [Option.getD_none, Option.getD_some, List.map_replicate, List.sum_replicate, nsmul_eq_mul, mul_one, one_mul, div_self hp]

/-! ### Properties -/

/-- The rows of a table of particles. -/
noncomputable def point (d : Nat) (blocks : List (List ℝ)) : Fin d → ℝ := fun i => blocks.flatten.getD i 0

theorem calculateCov_eq (table : List (List (List ℝ))) (w : Option (List ℝ)) (d : Nat) (hne : table ≠ []) (hd : ∀ b ∈ table, b.flatten.length = d) :
    calculateCov table w = (npCov (table.map (point d)) w).map fun m => ⟨d, m⟩ := by
  cases table with
  | nil => exact absurd rfl hne
  | cons b table =>
    have hb := hd b (by simp)
    subst hb
    unfold calculateCov
    simp only [List.map_cons]
    rw [if_pos]
    · simp [point, Function.comp_def, List.map_map]
      rfl
    · rw [List.all_eq_true]
      intro q hq
      obtain ⟨c, hc, rfl⟩ := List.mem_map.mp hq
      simp [hd c (by simp [hc])]

/-- C121: for particles of `d` numbers each with non-negative weights, two of them positive, the covariance matrix of a kernel is symmetric and positive semidefinite, and the variance that it gives to any
linear combination of the parameters is the weighted variance of that combination over the particles. -/
theorem C121 (table : List (List (List ℝ))) (w : List ℝ) (d : Nat) (hd : ∀ b ∈ table, b.flatten.length = d) (hl : w.length = table.length) (hn : ∀ a ∈ w, 0 ≤ a)
    (h2 : 2 ≤ (w.filter (0 < ·)).length) :
    ∃ C : Matrix (Fin d) (Fin d) ℝ, calculateCov table (some w) = some ⟨d, C⟩ ∧ C.PosSemidef ∧
      ∀ a : Fin d → ℝ, a ⬝ᵥ (C *ᵥ a) = variance ((w.zip table).map fun p => (p.1, ∑ i, a i * p.2.flatten.getD i 0)) := by
  have hne : table ≠ [] := by rintro rfl; simp only [List.length_nil, List.length_eq_zero_iff] at hl; subst hl; simp at h2
  have hs : 0 < w.sum := (sum_pos_iff w hn).mpr (by omega)
  have hf : 0 < w.sum - (w.map fun a => a * a).sum / w.sum := by
    have := (fact_pos_iff w hn).mpr h2
    have : (w.map fun a => a * a).sum / w.sum < w.sum := by rwa [div_lt_iff₀ hs]
    linarith
  have hform : ∀ a : Fin d → ℝ, a ⬝ᵥ (((1 / (w.sum - (w.map fun a => a * a).sum / w.sum)) • scatter (w.zip (table.map (point d))) (centre (w.zip (table.map (point d))))) *ᵥ a) =
      variance ((w.zip table).map fun p => (p.1, ∑ i, a i * p.2.flatten.getD i 0)) := by
    intro a
    rw [smul_mulVec, dotProduct_smul, scatter_form, centre_form, smul_eq_mul, variance]
    have e : ∀ {B : Type} (f : ℝ → (Fin d → ℝ) → B), (w.zip (table.map (point d))).map (fun p => f p.1 p.2) = (w.zip table).map (fun p => f p.1 (point d p.2)) := by
      intro B f
      rw [List.zip_map_right, List.map_map]
      rfl
    have e1 := e fun u v => (u, a ⬝ᵥ v)
    rw [e1]
    have e2 := e fun u v => u * (a ⬝ᵥ v - mean ((w.zip table).map fun p => (p.1, a ⬝ᵥ point d p.2))) ^ 2
    rw [e2]
    simp only [List.map_map, Function.comp_def]
    have ew : (w.zip table).map (fun p => p.1) = w := map_fst_zip w table hl
    have ew2 : (w.zip table).map (fun p => p.1 ^ 2) = w.map fun a => a * a := by
      conv_rhs => rw [← ew, List.map_map]
      apply List.map_congr_left
      intro p _
      simp only [Function.comp]
      ring
    rw [ew, ew2, one_div, inv_mul_eq_div]
    rfl
  refine ⟨_, by rw [calculateCov_eq table _ d hne hd, npCov_eq _ w (by simp [hl]) hn h2]; rfl, ?_, hform⟩
  rw [posSemidef_iff_dotProduct_mulVec]
  refine ⟨?_, fun a => ?_⟩
  · rw [IsHermitian, conjTranspose_smul, star_trivial]
    congr 1
    exact scatter_symm _ _
  · rw [star_trivial, smul_mulVec, dotProduct_smul, scatter_form, smul_eq_mul]
    refine mul_nonneg (one_div_nonneg.mpr hf.le) (List.sum_nonneg fun y hy => ?_)
    obtain ⟨p, hp, rfl⟩ := List.mem_map.mp hy
    exact mul_nonneg (hn p.1 (List.of_mem_zip hp).1) (sq_nonneg _)

/-- C121: without weights every particle counts the same. -/
theorem C121_unweighted (table : List (List (List ℝ))) (d : Nat) (hne : table ≠ []) (hd : ∀ b ∈ table, b.flatten.length = d) :
    calculateCov table none = calculateCov table (some (List.replicate table.length 1)) := by
  rw [calculateCov_eq table _ d hne hd, calculateCov_eq table _ d hne hd, npCov_unweighted _ (by simpa using hne)]
  simp

/-- C121, violated part: if one particle has all the weight there is no covariance matrix, whatever the particles are. -/
theorem C121_violated (table : List (List (List ℝ))) (w : List ℝ) (h : (w.filter (0 < ·)).length ≤ 1) : calculateCov table (some w) = none := by
  unfold calculateCov
  split
  · rfl
  · split
    · rw [npCov_none _ _ (by omega)]; rfl
    · rfl

theorem variance_nonneg_zero (l : List (ℝ × ℝ)) (hn : ∀ p ∈ l, 0 ≤ p.1) (h : (l.map fun p => p.1 * (p.2 - mean l) ^ 2).sum = 0) : ∀ p ∈ l, 0 < p.1 → p.2 = mean l := by
  have key : ∀ (m : ℝ) (l : List (ℝ × ℝ)), (∀ p ∈ l, 0 ≤ p.1) → (l.map fun p => p.1 * (p.2 - m) ^ 2).sum = 0 → ∀ p ∈ l, 0 < p.1 → p.2 = m := by
    intro m l
    induction l with
    | nil => simp
    | cons q l ih =>
      intro hn h p hp hpos
      simp only [List.map_cons, List.sum_cons] at h
      have h1 : 0 ≤ q.1 * (q.2 - m) ^ 2 := mul_nonneg (hn q (by simp)) (sq_nonneg _)
      have h2 : 0 ≤ (l.map fun p => p.1 * (p.2 - m) ^ 2).sum := List.sum_nonneg fun y hy => by
        obtain ⟨r, hr, rfl⟩ := List.mem_map.mp hy
        exact mul_nonneg (hn r (by simp [hr])) (sq_nonneg _)
      rcases List.mem_cons.mp hp with rfl | hp
      · have : p.1 * (p.2 - m) ^ 2 = 0 := by linarith
        rcases mul_eq_zero.mp this with h0 | h0
        · exact absurd h0 hpos.ne'
        · exact sub_eq_zero.mp (pow_eq_zero_iff (two_ne_zero)|>.mp h0)
      · exact ih (fun r hr => hn r (by simp [hr])) (by linarith) p hp hpos
  exact key (mean l) l hn h

theorem mean_const (l : List (ℝ × ℝ)) (c : ℝ) (hn : ∀ p ∈ l, 0 ≤ p.1) (hs : (l.map (·.1)).sum ≠ 0) (h : ∀ p ∈ l, 0 < p.1 → p.2 = c) : mean l = c := by
  have : (l.map fun p => p.1 * p.2).sum = (l.map (·.1)).sum * c := by
    clear hs
    induction l with
    | nil => simp
    | cons q l ih =>
      simp only [List.map_cons, List.sum_cons, add_mul]
      rw [ih (fun p hp => hn p (by simp [hp])) fun p hp => h p (by simp [hp])]
      congr 1
      rcases (hn q (by simp)).lt_or_eq with h0 | h0
      · rw [h q (by simp) h0]
      · simp [← h0]
  rw [mean, this, mul_div_assoc, mul_div_cancel₀ _ hs]

theorem acceptedCov_form {d : Nat} (f : ℝ) (C : Matrix (Fin d) (Fin d) ℝ) : acceptedCov f C = f • C + ((1 / 10 ^ 20 : ℝ) * C.trace) • (1 : Matrix (Fin d) (Fin d) ℝ) := by
  unfold acceptedCov
  split
  · rfl
  · rename_i h
    have : d = 1 := by
      have := not_not.mp h
      exact Nat.eq_one_of_mul_eq_one_left this
    subst this
    congr 1
    ext i j
    have hi : i = 0 := Subsingleton.elim _ _
    have hj : j = 0 := Subsingleton.elim _ _
    subst hi hj
    simp [trace]

/-- C121: the stabilised matrix that proposals are made with is positive definite, so that the kernel has a density, if and only if two particles with positive weight differ. -/
theorem C121_accepted (table : List (List (List ℝ))) (w : List ℝ) (d : Nat) (hd : ∀ b ∈ table, b.flatten.length = d) (hl : w.length = table.length) (hn : ∀ a ∈ w, 0 ≤ a)
    (h2 : 2 ≤ (w.filter (0 < ·)).length) (f : ℝ) (hf : 0 ≤ f) :
    ∃ C : Matrix (Fin d) (Fin d) ℝ, calculateCov table (some w) = some ⟨d, C⟩ ∧
      ((0 < d ∧ (acceptedCov f C).PosDef) ↔ ∃ p ∈ w.zip table, ∃ q ∈ w.zip table, 0 < p.1 ∧ 0 < q.1 ∧ p.2.flatten ≠ q.2.flatten) := by
  obtain ⟨C, hC, hp, hv⟩ := C121 table w d hd hl hn h2
  refine ⟨C, hC, ?_⟩
  have hs : 0 < w.sum := (sum_pos_iff w hn).mpr (by omega)
  have hfac : 0 < w.sum - (w.map fun a => a * a).sum / w.sum := by
    have := (fact_pos_iff w hn).mpr h2
    have : (w.map fun a => a * a).sum / w.sum < w.sum := by rwa [div_lt_iff₀ hs]
    linarith
  have ew : (w.zip table).map (fun p => p.1) = w := map_fst_zip w table hl
  have ew2 : (w.zip table).map (fun p => p.1 ^ 2) = w.map fun a => a * a := by
    conv_rhs => rw [← ew, List.map_map]
    apply List.map_congr_left
    intro p _
    simp only [Function.comp]
    ring
  have hdiag : ∀ i : Fin d, C i i = variance ((w.zip table).map fun p => (p.1, p.2.flatten.getD i 0)) := by
    intro i
    have := hv (Pi.single i 1)
    simpa [Pi.single_apply] using this
  have hzw : ∀ p ∈ w.zip table, 0 ≤ p.1 := fun p hp => hn p.1 (List.of_mem_zip hp).1
  have hzd : ∀ p ∈ w.zip table, p.2.flatten.length = d := fun p hp => hd p.2 (List.of_mem_zip hp).2
  rw [acceptedCov_form]
  constructor
  · rintro ⟨h0, hpd⟩
    by_contra hne
    push Not at hne
    have hz : ∀ a : Fin d → ℝ, a ⬝ᵥ (C *ᵥ a) = 0 := by
      intro a
      rw [hv a]
      obtain ⟨p0, hp0, hpos0⟩ : ∃ p ∈ w.zip table, 0 < p.1 := by
        by_contra hcon
        push Not at hcon
        have : w.sum ≤ 0 := by
          rw [← ew]
          have : ∀ l : List (ℝ × List (List ℝ)), (∀ p ∈ l, p.1 ≤ 0) → (l.map fun p => p.1).sum ≤ 0 := by
            intro l hl
            induction l with
            | nil => simp
            | cons p l ih =>
              have := ih fun q hq => hl q (by simp [hq])
              have := hl p (by simp)
              simp only [List.map_cons, List.sum_cons]
              linarith
          exact this _ hcon
        linarith
      have hm := mean_const ((w.zip table).map fun p => (p.1, ∑ i, a i * p.2.flatten.getD i 0)) (∑ i, a i * p0.2.flatten.getD i 0)
        (by intro p hp; obtain ⟨q, hq, rfl⟩ := List.mem_map.mp hp; exact hzw q hq)
        (by simp only [List.map_map, Function.comp_def]; rw [ew]; exact hs.ne')
        (by
          intro p hp hpos
          obtain ⟨q, hq, rfl⟩ := List.mem_map.mp hp
          simp only
          rw [hne q hq p0 hp0 hpos hpos0])
      unfold variance
      rw [hm]
      have : (((w.zip table).map fun p => (p.1, ∑ i, a i * p.2.flatten.getD i 0)).map fun p => p.1 * (p.2 - ∑ i, a i * p0.2.flatten.getD i 0) ^ 2).sum = 0 := by
        apply List.sum_eq_zero
        intro y hy
        simp only [List.map_map, List.mem_map, Function.comp_def] at hy
        obtain ⟨q, hq, rfl⟩ := hy
        rcases (hzw q hq).lt_or_eq with hpos | h0
        · rw [hne q hq p0 hp0 hpos hpos0]; simp
        · simp [← h0]
      rw [this, zero_div]
    have ht : C.trace = 0 := by
      rw [trace]
      apply Finset.sum_eq_zero
      intro i _
      have := hz (Pi.single i 1)
      simpa using this
    have := hpd.diag_pos (i := ⟨0, h0⟩)
    have h00 := hz (Pi.single ⟨0, h0⟩ 1)
    simp [ht] at this h00
    simp [h00] at this
  · rintro ⟨p, hpz, q, hqz, hpp, hqq, hdiff⟩
    obtain ⟨i, hi⟩ : ∃ i : Fin d, p.2.flatten.getD i 0 ≠ q.2.flatten.getD i 0 := by
      by_contra hcon
      push Not at hcon
      apply hdiff
      apply List.ext_getElem (by rw [hzd p hpz, hzd q hqz])
      intro k h1 h2
      have := hcon ⟨k, by rw [← hzd p hpz]; exact h1⟩
      simpa [List.getElem?_eq_getElem h1, List.getElem?_eq_getElem h2] using this
    have hpos : 0 < C i i := by
      refine lt_of_le_of_ne hp.diag_nonneg fun h0 => hi ?_
      rw [hdiag i, variance] at h0
      simp only [List.map_map, Function.comp_def] at h0
      rw [ew, ew2, eq_comm, div_eq_zero_iff] at h0
      have h1 := h0.resolve_right hfac.ne'
      have h3 := variance_nonneg_zero ((w.zip table).map fun p => (p.1, p.2.flatten.getD i 0))
        (by intro p hp; obtain ⟨q, hq, rfl⟩ := List.mem_map.mp hp; exact hzw q hq)
        (by simpa only [List.map_map, Function.comp_def] using h1)
      exact (h3 (p.1, p.2.flatten.getD i 0) (List.mem_map.mpr ⟨p, hpz, rfl⟩) hpp).trans (h3 (q.1, q.2.flatten.getD i 0) (List.mem_map.mpr ⟨q, hqz, rfl⟩) hqq).symm
    have htr : 0 < C.trace := by
      rw [trace]
      exact Finset.sum_pos' (fun j _ => hp.diag_nonneg) ⟨i, Finset.mem_univ _, hpos⟩
    refine ⟨i.pos, ?_⟩
    refine PosDef.posSemidef_add (hp.smul hf) (PosDef.smul PosDef.one ?_)
    positivity

/-- C121: `posterior_cov` of a journal returns the names of the parameters in the order in which their values are joined, and gives to any linear combination of the joined values the weighted variance of
that combination over the particles. Particle `k` is entry `k` of every parameter. -/
theorem C121_posterior (params : List (String × List (List ℝ))) (w : List ℝ) (d : Nat) (hp : params ≠ []) (hr : ∀ q ∈ params, q.2.length = w.length)
    (hd : ∀ k < w.length, (params.map fun q => q.2.getD k []).flatten.length = d) (hn : ∀ a ∈ w, 0 ≤ a) (h2 : 2 ≤ (w.filter (0 < ·)).length) :
    ∃ C : Matrix (Fin d) (Fin d) ℝ, posteriorCov params w = some (⟨d, C⟩, params.map (·.1)) ∧ C.PosSemidef ∧
      ∀ a : Fin d → ℝ, a ⬝ᵥ (C *ᵥ a) = variance ((w.zip (List.range w.length)).map fun p => (p.1, ∑ i, a i * (params.map fun q => q.2.getD p.2 []).flatten.getD i 0)) := by
  obtain ⟨C, hC, hs, hv⟩ := C121 ((List.range w.length).map fun k => params.map fun q => q.2.getD k []) w d
    (by intro b hb; obtain ⟨k, hk, rfl⟩ := List.mem_map.mp hb; exact hd k (List.mem_range.mp hk)) (by simp) hn h2
  refine ⟨C, ?_, hs, ?_⟩
  · cases params with
    | nil => exact absurd rfl hp
    | cons p rest =>
      unfold posteriorCov
      simp only
      rw [if_pos, hr p (by simp), hC]
      · rfl
      · rw [List.all_eq_true]
        intro q hq
        simp [hr q (by simp [hq]), hr p (by simp)]
  · intro a
    rw [hv a, List.zip_map_right, List.map_map]
    rfl

/-- The hypotheses can be met: three particles with two parameters in blocks, one of them without weight. -/
example : 2 ≤ (([1/2, 0, 1/2] : List ℝ).filter (0 < ·)).length ∧ (∀ b ∈ ([[[1], [2]], [[7], [7]], [[3], [5]]] : List (List (List ℝ))), b.flatten.length = 2) := by
  constructor
  · norm_num [List.filter]
  · simp

/-- And what comes out for two particles with one parameter and equal weights: the usual variance. -/
example : ∃ C, calculateCov [[[1]], [[3]]] (some [1/2, 1/2]) = some ⟨1, C⟩ ∧ C 0 0 = 2 := by
  obtain ⟨C, hC, _, hv⟩ := C121 [[[1]], [[3]]] [1/2, 1/2] 1 (by simp) (by simp) (by norm_num) (by norm_num [List.filter])
  refine ⟨C, hC, ?_⟩
  have := hv 1
  norm_num [variance, mean] at this
  simpa [dotProduct, mulVec] using this

end Verif.Cov
