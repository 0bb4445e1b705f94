import Verif.Learning.Props
import Mathlib.Analysis.InnerProductSpace.Projection.Minimal
import Mathlib.Analysis.InnerProductSpace.PiL2

/-!
# C88: semiautomatic statistics are least-squares predictors of the parameters
-/

namespace Verif.Learning

open Verif.Distance (Stats Row)
open Verif.Statistics

/-! ## Specification -/

/-- The value of the linear function with the given coefficients. -/
noncomputable def dot (c r : Row) : ℝ := (List.zipWith (· * ·) r c).sum

/-- The sum of the squared errors when the responses are predicted by `b + c · x`. -/
noncomputable def squaredError (X : List Row) (y : List ℝ) (b : ℝ) (c : Row) : ℝ :=
  (List.zipWith (fun x v => (v - (b + dot c x)) ^ 2) X y).sum

/-- Ordinary least squares with intercept on `w` features: no other line has a smaller squared error. -/
def Fits (regress : List Row → List ℝ → Row) (w : Nat) : Prop :=
  ∀ (X : List Row) (y : List ℝ), (∀ x ∈ X, x.length = w) → X.length = y.length → (regress X y).length = w ∧
    ∃ b, ∀ b' (c : Row), c.length = w → squaredError X y b (regress X y) ≤ squaredError X y b' c

/-! ## C88 -/

/-- C88: the learned statistics have one component for each parameter. The `j`-th is a linear function of
the statistics they are learned from, and together with some intercept it predicts the `j`-th parameter
of the training set with the least squared error. -/
theorem C88 (regress : List Row → List ℝ → Row) (chain : List Step) (p : Pairs) (k : Nat) (hf : Fits regress p.stats.width)
    (hr : p.stats.Rect) (hl : p.stats.rows.length = p.params.length) :
    ∃ c : Nat → Row, (∀ j, (c j).length = p.stats.width ∧
        ∃ b, ∀ b' (c' : Row), c'.length = p.stats.width →
          squaredError p.stats.rows (p.params.map fun r => r.getD j 0) b (c j) ≤
            squaredError p.stats.rows (p.params.map fun r => r.getD j 0) b' c') ∧
      ∀ (data : List Row) (s : Stats), statistics chain data = some s → s.width = p.stats.width →
        statistics (semiautomatic regress chain p k) data =
          some ⟨k, s.rows.map fun r => (List.range k).map fun j => dot (c j) r⟩ := by
  refine ⟨fun j => regress p.stats.rows (p.params.map fun r => r.getD j 0), fun j => hf _ _ hr (by simpa using hl), ?_⟩
  intro data s hs hw
  rw [statistics] at hs
  rw [statistics, semiautomatic]
  obtain ⟨a, ha, hc⟩ := Option.bind_eq_some_iff.1 hs
  rw [ha, Option.bind_some]
  simp only [List.foldlM_append]
  rw [hc]
  simp only [Option.bind_eq_bind, Option.bind_some, List.foldlM_cons, List.foldlM_nil]
  rw [Step.apply, Kind.apply, if_neg (by simpa using hw)]
  simp [rescale, expand, powers, dot, List.map_map, Function.comp_def]

/-! ## The hypotheses can be met -/

theorem dot_ofFn : ∀ (w : Nat) (c : Fin w → ℝ) (x : Row), dot (List.ofFn c) x = ∑ i : Fin w, c i * x.getD i 0 := by
  intro w
  induction w with
  | zero => intro c x; simp [dot]
  | succ w ih =>
    intro c x
    cases x with
    | nil => simp [dot]
    | cons a x =>
      have := ih (fun i => c i.succ) x
      rw [dot] at this
      rw [dot, List.ofFn_succ, List.zipWith_cons_cons, List.sum_cons, this, Fin.sum_univ_succ]
      simp [mul_comm]

theorem squaredError_eq (X : List Row) (y : List ℝ) (hl : X.length = y.length) (b : ℝ) (c : Row) :
    squaredError X y b c = ∑ i : Fin X.length, (y.getD i 0 - (b + dot c X[i])) ^ 2 := by
  rw [squaredError]
  induction X generalizing y with
  | nil => simp
  | cons x X ih =>
    cases y with
    | nil => simp at hl
    | cons v y =>
      rw [List.zipWith_cons_cons, List.sum_cons, ih y (by simpa using hl)]
      symm
      refine (Fin.sum_univ_succ (n := X.length) (fun i : Fin (X.length + 1) =>
        ((v :: y).getD i 0 - (b + dot c (x :: X)[i])) ^ 2)).trans ?_
      simp

theorem exists_least_squares (w : Nat) (X : List Row) (y : List ℝ) (hl : X.length = y.length) :
    ∃ c : Row, c.length = w ∧ ∃ b, ∀ b' (c' : Row), c'.length = w → squaredError X y b c ≤ squaredError X y b' c' := by
  -- the predictions as a linear map
  let f : (ℝ × (Fin w → ℝ)) →ₗ[ℝ] EuclideanSpace ℝ (Fin X.length) :=
    { toFun := fun q => WithLp.toLp 2 fun i => q.1 + dot (List.ofFn q.2) X[i]
      map_add' := by
        intro q q'
        ext i
        simp only [dot_ofFn, Prod.fst_add, Prod.snd_add, Pi.add_apply, PiLp.add_apply, add_mul, Finset.sum_add_distrib]
        ring
      map_smul' := by
        intro a q
        ext i
        simp only [dot_ofFn, Prod.smul_fst, Prod.smul_snd, Pi.smul_apply, PiLp.smul_apply, smul_eq_mul, mul_assoc,
          ← Finset.mul_sum, RingHom.id_apply]
        ring }
  let u : EuclideanSpace ℝ (Fin X.length) := WithLp.toLp 2 fun i => y.getD i 0
  have herr : ∀ b (c : Fin w → ℝ), squaredError X y b (List.ofFn c) = ‖u - f (b, c)‖ ^ 2 := by
    intro b c
    rw [squaredError_eq X y hl, EuclideanSpace.norm_sq_eq]
    refine Finset.sum_congr rfl fun i _ => ?_
    rw [Real.norm_eq_abs, sq_abs]
    rfl
  obtain ⟨v, hv, hmin⟩ := (LinearMap.range f).exists_norm_eq_iInf_of_complete_subspace
    (Submodule.complete_of_finiteDimensional _) u
  obtain ⟨⟨b, c⟩, rfl⟩ := hv
  refine ⟨List.ofFn c, by simp, b, fun b' c' hc' => ?_⟩
  obtain ⟨g, rfl⟩ : ∃ g : Fin w → ℝ, c' = List.ofFn g := by
    refine ⟨fun i => c'[i.1]'(by rw [hc']; exact i.2), ?_⟩
    apply List.ext_getElem
    · simp [hc']
    · intro i h1 h2
      simp
  rw [herr, herr]
  have hle : ‖u - f (b, c)‖ ≤ ‖u - f (b', g)‖ := by
    rw [hmin]
    refine ciInf_le_of_le ⟨0, ?_⟩ ⟨f (b', g), (b', g), rfl⟩ le_rfl
    rintro _ ⟨q, rfl⟩
    exact norm_nonneg _
  exact pow_le_pow_left₀ (norm_nonneg _) hle 2

/-- Least-squares regression exists for every number of features. -/
theorem exists_fits (w : Nat) : ∃ regress, Fits regress w := by
  classical
  refine ⟨fun X y => if hl : X.length = y.length then (exists_least_squares w X y hl).choose else [], ?_⟩
  intro X y _ hl
  simp only [dif_pos hl]
  exact (exists_least_squares w X y hl).choose_spec

/-- A training set with one parameter, twice the single statistic plus one. -/
example : ∃ regress, Fits regress 1 ∧ ∃ b, squaredError [[0], [1], [2]] [1, 3, 5] b (regress [[0], [1], [2]] [1, 3, 5]) = 0 := by
  obtain ⟨regress, h⟩ := exists_fits 1
  refine ⟨regress, h, ?_⟩
  obtain ⟨-, b, hb⟩ := h [[0], [1], [2]] [1, 3, 5] (by simp) rfl
  refine ⟨b, le_antisymm ((hb 1 [2] rfl).trans ?_) ?_⟩
  · norm_num [squaredError, dot]
  · rw [squaredError_eq _ _ rfl]
    exact Finset.sum_nonneg fun i _ => sq_nonneg _

end Verif.Learning
