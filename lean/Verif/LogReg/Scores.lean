import Verif.LogReg.Props
import Mathlib.Data.List.GetD
import Mathlib.Analysis.SpecialFunctions.Log.Basic
/-!
# C175, C176: what the classifier based distance and likelihood measure

C175: the score of `distances.PenLogReg` is the mean over the folds of the accuracy of a classifier trained without the rows of the fold. C176: `approx_lhd.PenLogReg` returns the logarithm of the ratio of the
densities of the two classes when the classifier has the true class probabilities.
-/

namespace Verif.LogReg

open Verif.Distance

/-! ### Specification -/

/-- `n / folds`, rounded up. -/
noncomputable def blockLength (folds n : Nat) : Nat := ⌈(n : ℚ) / folds⌉₊

/-- Fold `g`: the `g`-th block of consecutive positions in either data set. -/
noncomputable def foldAt (folds n g : Nat) : List Nat := (List.range n).filter fun i => i / blockLength folds n == g

/-- The positions outside fold `g`. -/
noncomputable def foldOthers (folds n g : Nat) : List Nat := (List.range n).filter fun i => i / blockLength folds n != g

/-- The rows of the two data sets at given positions, labelled by data set. -/
def rowsAt (s1 s2 : List Row) (l : List Nat) : List (Row × Nat) := (l.map fun i => (s1.getD i [], 0)) ++ l.map fun i => (s2.getD i [], 1)

/-- The fraction of the rows of fold `g` whose data set is recognised by a classifier trained on the rows outside the fold. -/
noncomputable def foldScore (folds : Nat) (train : List (Row × Nat) → Row → Nat) (s1 s2 : List Row) (g : Nat) : ℝ :=
  let inFold := foldAt folds s1.length g
  let classifier := train (rowsAt s1 s2 (foldOthers folds s1.length g))
  ((inFold.countP fun i => classifier (s1.getD i []) == 0) + (inFold.countP fun i => classifier (s2.getD i []) == 1) : ℕ) / (2 * inFold.length)

/-! ### Proofs -/

theorem blockLength_eq (folds n : Nat) (hf : 0 < folds) : blockLength folds n = foldSize n folds := by
  obtain ⟨h1, h2⟩ := foldSize_bounds n folds hf
  have hq : (0 : ℚ) < folds := by exact_mod_cast hf
  unfold blockLength
  rcases Nat.eq_zero_or_pos n with rfl | hn
  · have : foldSize 0 folds = 0 := by
      rw [foldSize]
      exact Nat.div_eq_of_lt (by omega)
    simp [this]
  · rw [Nat.ceil_eq_iff]
    · constructor
      · rw [lt_div_iff₀ hq]
        have hpos : 1 ≤ foldSize n folds := by
          by_contra h
          have : foldSize n folds = 0 := by omega
          rw [this] at h1
          omega
        have e : ((foldSize n folds - 1 : ℕ) : ℚ) = foldSize n folds - 1 := by push_cast [hpos]; ring
        rw [e]
        have : (folds * foldSize n folds : ℚ) < n + folds := by exact_mod_cast h2
        linarith
      · rw [div_le_iff₀ hq]
        have : (n : ℚ) ≤ folds * foldSize n folds := by exact_mod_cast h1
        linarith
    · intro h
      rw [h] at h1
      omega

theorem pick (s : List Row) (lab : Nat) (φ : Nat → Nat) (q : Nat → Bool) :
    (((s.map fun r => (r, lab)).zip ((List.range s.length).map φ)).filter fun p => q p.2).map Prod.fst = ((List.range s.length).filter fun i => q (φ i)).map fun i => (s.getD i [], lab) := by
  have e : (s.map fun r => (r, lab)).zip ((List.range s.length).map φ) = (List.range s.length).map fun i => ((s.getD i [], lab), φ i) := by
    refine List.ext_getElem (by simp) fun i h1 h2 => ?_
    have hi : i < s.length := by simpa using h2
    simp [List.getElem?_eq_getElem hi]
  rw [e, List.filter_map, List.map_map]
  rfl

theorem split (folds : Nat) (hf : 0 < folds) (s1 s2 : List Row) (h : s2.length = s1.length) (g : Nat) :
    heldOut (labelled s1 s2) (groups folds s1.length) g = rowsAt s1 s2 (foldAt folds s1.length g) ∧ kept (labelled s1 s2) (groups folds s1.length) g = rowsAt s1 s2 (foldOthers folds s1.length g) := by
  have hl : (s1.map fun r => ((r, 0) : Row × Nat)).length = ((List.range s1.length).map (· / foldSize s1.length folds)).length := by simp
  have key : ∀ q : Nat → Bool, (((labelled s1 s2).zip (groups folds s1.length)).filter fun p => q p.2).map Prod.fst =
      rowsAt s1 s2 ((List.range s1.length).filter fun i => q (i / blockLength folds s1.length)) := by
    intro q
    rw [labelled, groups, foldLabels_eq folds _ hf, List.zip_append hl, List.filter_append, List.map_append, rowsAt, blockLength_eq folds _ hf, pick s1 0 _ q]
    congr 1
    rw [← h, pick s2 1 _ q]
  exact ⟨key fun b => b == g, key fun b => b != g⟩

theorem accuracy_rows (c : Row → Nat) (s1 s2 : List Row) (l : List Nat) (hl : l ≠ []) :
    accuracy c (rowsAt s1 s2 l) = some (((l.countP fun i => c (s1.getD i []) == 0) + (l.countP fun i => c (s2.getD i []) == 1) : ℕ) / (2 * l.length) : ℝ) := by
  have hne : rowsAt s1 s2 l ≠ [] := by
    intro h
    rw [rowsAt, List.append_eq_nil_iff, List.map_eq_nil_iff] at h
    exact hl h.1
  have e1 : ((rowsAt s1 s2 l).filter fun p => c p.1 == p.2).length = (l.countP fun i => c (s1.getD i []) == 0) + (l.countP fun i => c (s2.getD i []) == 1) := by
    rw [rowsAt, List.filter_append, List.length_append, List.filter_map, List.filter_map, List.length_map, List.length_map, List.countP_eq_length_filter, List.countP_eq_length_filter]
    rfl
  have e2 : (rowsAt s1 s2 l).length = 2 * l.length := by
    rw [rowsAt]
    simp
    ring
  rw [accuracy, if_neg hne, e1, e2]
  push_cast
  rfl

/-! ### Properties -/

/-- **C175.** For two data sets of the same size and folds that are not empty, the distance is `2 (a - 1/2)` where `a` is the mean over the folds of `foldScore`: each row is classified by a classifier trained without the fold of the row. -/
theorem C175 (folds : Nat) (hf : 0 < folds) (train : List (Row × Nat) → Row → Nat) (s1 s2 : Stats) (h : s2.rows.length = s1.rows.length) (hne : ∀ g < folds, foldAt folds s1.rows.length g ≠ []) :
    penLogReg folds train s1 s2 = some (2 * ((∑ g ∈ Finset.range folds, foldScore folds train s1.rows s2.rows g) / folds - 1 / 2)) := by
  have e : ((List.range folds).map fun g => accuracy (train (kept (labelled s1.rows s2.rows) (groups folds s1.rows.length) g)) (heldOut (labelled s1.rows s2.rows) (groups folds s1.rows.length) g)) =
      ((List.range folds).map fun g => foldScore folds train s1.rows s2.rows g).map some := by
    rw [List.map_map]
    refine List.map_congr_left fun g hg => ?_
    obtain ⟨a, b⟩ := split folds hf s1.rows s2.rows h g
    rw [a, b, accuracy_rows _ _ _ _ (hne g (List.mem_range.1 hg))]
    rfl
  rw [penLogReg, if_neg (by simpa using h)]
  simp only
  rw [e, collect_map_some]
  have hnil : (List.range folds).map (fun g => foldScore folds train s1.rows s2.rows g) ≠ [] := by
    rw [ne_eq, List.map_eq_nil_iff, List.range_eq_nil]
    omega
  simp only [if_neg hnil]
  rw [List.length_map, List.length_range, Finset.sum_range, ← List.sum_ofFn]
  congr 5
  refine List.ext_getElem (by simp) fun i h1 h2 => ?_
  simp

/-- **C175, folds without rows.** If a fold is empty there is no distance. -/
theorem C175_empty (folds : Nat) (hf : 0 < folds) (train : List (Row × Nat) → Row → Nat) (s1 s2 : Stats) (h : s2.rows.length = s1.rows.length) (g : Nat) (hg : g < folds)
    (he : foldAt folds s1.rows.length g = []) : penLogReg folds train s1 s2 = none := by
  rw [penLogReg, if_neg (by simpa using h)]
  simp only
  have : collect ((List.range folds).map fun g => accuracy (train (kept (labelled s1.rows s2.rows) (groups folds s1.rows.length) g)) (heldOut (labelled s1.rows s2.rows) (groups folds s1.rows.length) g)) = none := by
    rw [collect_eq_none]
    refine List.mem_map.2 ⟨g, List.mem_range.2 hg, ?_⟩
    rw [(split folds hf s1.rows s2.rows h g).1, he]
    rfl
  rw [this]

/-- Two folds of two rows each: a trainer that labels a row by looking it up in the training set knows nothing about the rows of the fold, so that it does no better than always answering zero. -/
example : penLogReg 2 (fun l r => ((l.find? fun p => p.1 == r).map Prod.snd).getD 0) ⟨1, [[1], [2], [3], [4]]⟩ ⟨1, [[5], [6], [7], [8]]⟩ = some 0 := by
  have hb : blockLength 2 4 = 2 := by rw [blockLength_eq 2 4 (by omega)]; rfl
  have hr : List.range 4 = [0, 1, 2, 3] := rfl
  rw [C175 2 (by omega) _ ⟨1, [[1], [2], [3], [4]]⟩ ⟨1, [[5], [6], [7], [8]]⟩ rfl]
  · have f0 : foldAt 2 4 0 = [0, 1] := by rw [foldAt, hb, hr]; rfl
    have f1 : foldAt 2 4 1 = [2, 3] := by rw [foldAt, hb, hr]; rfl
    have o0 : foldOthers 2 4 0 = [2, 3] := by rw [foldOthers, hb, hr]; rfl
    have o1 : foldOthers 2 4 1 = [0, 1] := by rw [foldOthers, hb, hr]; rfl
    simp only [Finset.sum_range_succ, Finset.range_zero, Finset.sum_empty, foldScore, List.length_cons, List.length_nil, f0, f1, o0, o1, rowsAt, List.countP_cons, List.countP_nil, List.map_cons, List.map_nil, List.getD_cons_zero,
      List.getD_cons_succ]
    norm_num
  · intro g hg
    have : g = 0 ∨ g = 1 := by omega
    rcases this with rfl | rfl <;> simp [foldAt, hb, hr]

/-! ### Likelihood -/

/-- The probability of label one in a logistic model. -/
noncomputable def logistic (z : ℝ) : ℝ := 1 / (1 + Real.exp (-z))

/-- **C176.** If the fitted logistic model has the true probabilities of the two classes (rows simulated at the parameters have label zero and density `sim`, rows of the reference data label one and density `ref`, as many of each), the
value returned is the log-likelihood of the observations up to the marginal density of the reference data, which does not depend on the parameters. -/
theorem C176 (intercept : ℝ) (coef : Row) (obs : Stats) (sim ref : Row → ℝ) (hs : ∀ r ∈ obs.rows, 0 < sim r) (hr : ∀ r ∈ obs.rows, 0 < ref r)
    (true_prob : ∀ r ∈ obs.rows, logistic (intercept + (List.zipWith (· * ·) coef r).sum) = ref r / (sim r + ref r)) :
    linearLoglik intercept coef obs = (obs.rows.map fun r => Real.log (sim r)).sum - (obs.rows.map fun r => Real.log (ref r)).sum := by
  rw [linearLoglik]
  generalize obs.rows = rows at hs hr true_prob
  induction rows with
  | nil => simp
  | cons r rows ih =>
    have h := ih (fun x hx => hs x (by simp [hx])) (fun x hx => hr x (by simp [hx])) (fun x hx => true_prob x (by simp [hx]))
    have ps := hs r (by simp)
    have pr := hr r (by simp)
    have e := true_prob r (by simp)
    set z := intercept + (List.zipWith (· * ·) coef r).sum with hz
    have hexp : Real.exp (-z) = sim r / ref r := by
      rw [logistic, div_eq_div_iff (by positivity) (by positivity)] at e
      field_simp
      linarith
    have hlog : -z = Real.log (sim r) - Real.log (ref r) := by
      rw [← Real.log_div ps.ne' pr.ne', ← hexp, Real.log_exp]
    simp only [List.map_cons, List.sum_cons] at h ⊢
    rw [← hz]
    linarith

/-- One feature; the densities `exp (-x)` and `exp x` of the classes: the logistic model with intercept zero and coefficient two has their probabilities. -/
example (x : ℝ) : linearLoglik 0 [2] ⟨1, [[x]]⟩ = Real.log (Real.exp (-x)) - Real.log (Real.exp x) := by
  have := C176 0 [2] ⟨1, [[x]]⟩ (fun r => Real.exp (-(r.headD 0))) (fun r => Real.exp (r.headD 0)) (fun _ _ => Real.exp_pos _) (fun _ _ => Real.exp_pos _) (by
    intro r hr
    have : r = [x] := by simpa using hr
    subst this
    simp only [logistic, List.zipWith_cons_cons, List.zipWith_nil_left, List.sum_cons, List.sum_nil, List.headD_cons, add_zero, zero_add]
    rw [div_eq_div_iff (by positivity) (by positivity), show -(2 * x) = -x + -x by ring, Real.exp_add]
    have : Real.exp x * Real.exp (-x) = 1 := by rw [← Real.exp_add]; simp
    linear_combination (-Real.exp (-x)) * this)
  simpa using this

end Verif.LogReg
