import Mathlib.LinearAlgebra.Matrix.NonsingularInverse
import Mathlib.Data.Matrix.Mul
import Mathlib.Analysis.SpecialFunctions.Log.Basic
import Mathlib.Data.Real.Basic

/-!
# Synthetic likelihoods (abcpy/approx_lhd.py 125-304)

A two-dimensional array with `d` columns is the list of its rows, functions on `Fin d`. The observed and
simulated statistics are arguments: how they are obtained and cached (76-122) is the same code as for the
distances. Floats are reals; results that are not finite numbers, and exceptions, are `none`.

Parameters, from scipy and scikit-learn: the shrunk covariance matrix (`ledoit_wolf`), the kernel density
estimates of the columns and their distribution functions, and the normal quantile function.
-/

namespace Verif.Likelihood

open Matrix

/-- A row of statistics. -/
abbrev Vec (d : Nat) := Fin d → ℝ

/-- `np.mean(stat_sim, 0)`. -/
noncomputable def mean {d : Nat} (sim : List (Vec d)) : Vec d := fun j => (sim.map fun r => r j).sum / sim.length

/-- `np.einsum('bi,ij,bj->b', diff, P, diff)` for one row. -/
noncomputable def quad {d : Nat} (P : Matrix (Fin d) (Fin d) ℝ) (v : Vec d) : ℝ := ∑ i, ∑ j, v i * P i j * v j

/-- `SynLikelihood.loglikelihood` (148-183) with a given estimate of the covariance; `np.linalg.inv` raises
for a singular matrix, the mean of no rows is not a number, and `slogdet` returns the logarithm of the
absolute value of the determinant, which `Real.log` is on negative numbers. -/
noncomputable def synthetic {d : Nat} (cov : List (Vec d) → Matrix (Fin d) (Fin d) ℝ) (obs sim : List (Vec d)) : Option ℝ :=
  if sim = [] then none
  else if (cov sim).det = 0 then none
  else
    let P := (cov sim)⁻¹
    let logliks := obs.map fun x => -(1 / 2) * quad P (fun i => x i - mean sim i)
    some (logliks.sum + 1 / 2 * obs.length * Real.log P.det)

/-- `rankdata(x)` for the entry `v` of `x` (scipy, `method='average'`): the average of the positions that
the entries equal to `v` take in the sorted array, counted from one. -/
noncomputable def rank (x : List ℝ) (v : ℝ) : ℝ :=
  open Classical in ((x.filter fun u => decide (u < v)).length : ℝ) + (((x.filter fun u => decide (u = v)).length : ℝ) + 1) / 2

/-- Column `j` of the ranks, `norm.ppf(r / (n + 1))` (291-295), for the row `r` of the array. -/
noncomputable def normalScore {d : Nat} (ppf : ℝ → ℝ) (x : List (Vec d)) (r : Vec d) : Vec d := fun j =>
  ppf (rank (x.map fun q => q j) (r j) / ((x.length : ℝ) + 1))

/-- The denominator (299) for `n` rows. -/
noncomputable def denominator (ppf : ℝ → ℝ) (n : Nat) : ℝ :=
  ((List.range n).map fun (i : Nat) => ppf ((i + 1 : ℝ) / ((n : ℝ) + 1)) ^ 2).sum

/-- The dictionary `corr_matrix_denominator`. -/
abbrev Denominators := List (Nat × ℝ)

/-- `_estimate_gaussian_correlation` (276-304): the matrix and the dictionary afterwards. Division by zero gives
a result that is not a number. -/
noncomputable def correlation {d : Nat} (ppf : ℝ → ℝ) (dict : Denominators) (x : List (Vec d)) :
    Option (Matrix (Fin d) (Fin d) ℝ) × Denominators :=
  let dict := match dict.lookup x.length with
    | some _ => dict
    | none => (x.length, denominator ppf x.length) :: dict
  match dict.lookup x.length with
  | none => (none, dict)
  | some den =>
    if den = 0 then (none, dict)
    else (some fun i j => (x.map fun r => normalScore ppf x r i * normalScore ppf x r j).sum / den, dict)

/-- The kernel density estimate of one column of the simulations: logarithm of the density and the
distribution function. -/
structure Marginal where
  logpdf : List ℝ → ℝ → ℝ
  cdf : List ℝ → ℝ → ℝ

/-- `SemiParametricSynLikelihood.loglikelihood` (219-274); fewer than two statistics are refused, a
singular matrix too; the distribution function at zero or one gives an infinite quantile. -/
noncomputable def semiparametric {d : Nat} (ppf : ℝ → ℝ) (kde : Marginal) (dict : Denominators) (obs sim : List (Vec d)) :
    Option ℝ × Denominators :=
  open Classical in
  if d < 2 then (none, dict)
  else
    let u := fun (x : Vec d) (j : Fin d) => kde.cdf (sim.map fun r => r j) (x j)
    if ∃ x ∈ obs, ∃ j, u x j ≤ 0 ∨ 1 ≤ u x j then (none, dict)
    else
      match correlation ppf dict sim with
      | (none, dict) => (none, dict)
      | (some R, dict) =>
        if R.det = 0 then (none, dict)
        else
          let eta := fun (x : Vec d) (j : Fin d) => ppf (u x j)
          let marginals := (obs.map fun x => ∑ j, kde.logpdf (sim.map fun r => r j) (x j)).sum
          let copula := (obs.map fun x => -(1 / 2) * quad (R⁻¹ - 1) (eta x)).sum
          (some (marginals + (copula + 1 / 2 * obs.length * Real.log R⁻¹.det)), dict)

end Verif.Likelihood
