import Mathlib.LinearAlgebra.Matrix.PosDef
import Mathlib.Data.Real.Basic
/-
Model of the covariance matrices: `calculate_cov` of the kernels (`abcpy/perturbationkernel.py` 246-278, 375-407, 596-602, 714-720), `_compute_accepted_cov_mats` of the samplers (`abcpy/inferences.py`
1059-1083, the same text at 1465-1488, 2008-2031, 2799-2823, 3151-3175, 4046-4069, 4581-4604) and `posterior_cov` (`abcpy/output.py` 418-442). Numbers are real.
-/
namespace Verif.Cov

/-- `numpy.average` with weights. -/
noncomputable def average (w x : List ℝ) : ℝ := (List.zipWith (· * ·) w x).sum / w.sum

/-- `numpy.cov(x, aweights=w, rowvar=False)`, as called in perturbationkernel.py 275 and 277: `x` lists the rows (observations). `none` stands for an exception (numbers of weights and rows differ, negative
weights, weights with sum zero) and for a result that is not finite (numpy replaces a factor that is not positive by zero and divides by it). Simplification: for a single row without weights numpy does
not transpose and returns a number; here it is `none`. -/
noncomputable def npCov {d : Nat} (x : List (Fin d → ℝ)) (w : Option (List ℝ)) : Option (Matrix (Fin d) (Fin d) ℝ) :=
  let u := w.getD (List.replicate x.length 1)
  open Classical in
  if u.length ≠ x.length ∨ (∃ a ∈ u, a < 0) ∨ u.sum = 0 then none
  else
    let fact := match w with
      | none => (x.length : ℝ) - 1
      | some w => w.sum - 1 * (w.map fun a => a * a).sum / w.sum
    if fact ≤ 0 then none
    else
      let centred := fun j => x.map fun v => v j - average u (x.map (· j))
      some (Matrix.of fun i j => 1 / fact * (List.zipWith (· * ·) (centred i) (List.zipWith (· * ·) (centred j) u)).sum)

/-- `calculate_cov`, perturbationkernel.py 262-278 (normal kernel) and 391-407 (Student kernel). `table` is the entry of `kernel_parameters_bds` for the kernel: for every particle the blocks of values of
the models of the kernel, which are concatenated (a number is a block of length one). `weights`: `accepted_weights_bds`. `none` is an exception (blocks of different lengths for different particles) or a
result that is not finite. -/
noncomputable def calculateCov (table : List (List (List ℝ))) (weights : Option (List ℝ)) : Option (Σ d, Matrix (Fin d) (Fin d) ℝ) :=
  match table.map List.flatten with
  | [] => none
  | r :: rows =>
    if rows.all (fun q => q.length = r.length) then
      (npCov ((r :: rows).map fun q (i : Fin r.length) => q.getD i 0) weights).map fun m => ⟨r.length, m⟩
    else none

/-- `calculate_cov` of the random walk kernels, lines 596-602 and 714-720: `np.array([0])`. -/
def discreteCov : Matrix (Fin 1) (Fin 1) ℝ := 0

/-- One matrix of `_compute_accepted_cov_mats`, inferences.py 1076-1082. -/
noncomputable def acceptedCov {d : Nat} (covFactor : ℝ) (m : Matrix (Fin d) (Fin d) ℝ) : Matrix (Fin d) (Fin d) ℝ :=
  if d * d ≠ 1 then covFactor • m + ((1 / 10 ^ 20 : ℝ) * m.trace) • (1 : Matrix (Fin d) (Fin d) ℝ)
  else covFactor • m + (1 / 10 ^ 20 : ℝ) • m

/-- `posterior_cov`, output.py 418-442, for the selected step: `params` is the dictionary of names and values, in order; each entry has one row for each particle, and the rows are put side by side
(`hstack`; an exception if the numbers of rows differ or if there is no parameter). The second result is the order of the names. -/
noncomputable def posteriorCov (params : List (String × List (List ℝ))) (weights : List ℝ) : Option ((Σ d, Matrix (Fin d) (Fin d) ℝ) × List String) :=
  match params with
  | [] => none
  | p :: rest =>
    if rest.all (fun q => q.2.length = p.2.length) then
      let table := (List.range p.2.length).map fun k => (p :: rest).map fun q => q.2.getD k []
      (calculateCov table (some weights)).map fun m => (m, (p :: rest).map (·.1))
    else none

end Verif.Cov
