import Verif.Distance.Model

/-!
# Wasserstein distances

`abcpy/utils.py` 19-72 (`wass_dist`), `abcpy/distances.py` 355-616 (`Wasserstein`,
`SlicedWasserstein`) and `abcpy/output.py` 911-950 (`Journal.Wass_convergence_plot`).

The solvers of the POT library (`ot.emd2`, `ot.lp.emd2_1d`) are parameters. `num_iter_max` and further
solver options are not modelled: a solver that stops early is not described by the theorems.
-/

namespace Verif.Wasserstein

open Verif.Distance

/-- A solver for weighted samples with a cost matrix, `ot.emd2(a, b, M)`. -/
abbrev Emd := {n m : Nat} → (Fin n → ℝ) → (Fin m → ℝ) → (Fin n → Fin m → ℝ) → ℝ

/-- A solver for weighted samples on the line, `emd2_1d(x, y, a, b)`, with squared distances. -/
abbrev Emd1 := {n m : Nat} → (Fin n → ℝ) → (Fin m → ℝ) → (Fin n → ℝ) → (Fin m → ℝ) → ℝ

inductive Err
  /-- `RuntimeError` of utils.py 55 and 61. -/
  | length
  /-- The weights sum to zero, their quotients are not numbers. -/
  | notANumber
  /-- `ValueError` of distances.py 584 or of `ot.dist`. -/
  | dimension
  /-- `RuntimeError` of output.py 912 and 917. -/
  | journal
deriving DecidableEq

/-- The weights used for `n` samples (utils.py 51-57, 58-63). -/
noncomputable def weights (n : Nat) : Option (List ℝ) → Except Err (Fin n → ℝ)
  | none => .ok fun _ => 1 / (n : ℝ)
  | some w =>
    if h : w.length = n then
      if w.sum = 0 then .error .notANumber else .ok fun i => w[i.1]'(h ▸ i.2) / w.sum
    else .error .length

/-- `wass_dist` (utils.py 48-72). The loss matrix holds squared distances. -/
noncomputable def wass (emd : Emd) (s1 s2 : Stats) (w1 w2 : Option (List ℝ)) : Except Err ℝ :=
  match weights s1.rows.length w1 with
  | .error e => .error e
  | .ok a => match weights s2.rows.length w2 with
    | .error e => .error e
    | .ok b =>
      if s1.width ≠ s2.width then .error .dimension
      else .ok (Real.sqrt (emd a b fun i j => euclid s1.rows[i] s2.rows[j] ^ 2))

/-- `Wasserstein.distance` after the statistics (distances.py 397). -/
noncomputable def wasserstein (emd : Emd) (s1 s2 : Stats) : Except Err ℝ := wass emd s1 s2 none none

/-- One random direction divided by its length (distances.py 522-524); the length of a normal vector
is not zero. -/
noncomputable def normalise (g : Row) : Row :=
  g.map (· / Real.sqrt (g.map (· ^ 2)).sum)

/-- `np.dot(projections, X.T)` for one projection (distances.py 597-598). -/
noncomputable def project (p : Row) (r : Row) : ℝ := (List.zipWith (· * ·) p r).sum

/-- `sliced_wasserstein_distance` (distances.py 575-616) for given normal vectors. The weights are
uniform (588-591). -/
noncomputable def sliced (emd1 : Emd1) (normals : List Row) (s1 s2 : Stats) : Except Err ℝ :=
  if s1.width ≠ s2.width then .error .dimension
  else if normals = [] then .error .notANumber
  else
    let res := (normals.map fun g => emd1 (fun i : Fin s1.rows.length => project (normalise g) s1.rows[i])
      (fun j : Fin s2.rows.length => project (normalise g) s2.rows[j])
      (fun _ => 1 / (s1.rows.length : ℝ)) (fun _ => 1 / (s2.rows.length : ℝ))).sum
    .ok (Real.sqrt (res / normals.length))

/-- `SlicedWasserstein.distance` (distances.py 443-461): the generator of the object is passed on and
advanced; `draw` returns `n_projections` normal vectors of the given dimension. -/
noncomputable def slicedDistance {W : Type} (emd1 : Emd1) (draw : Nat → W → List Row × W) (s1 s2 : Stats) (w : W) :
    Except Err ℝ × W :=
  if s1.width ≠ s2.width then (.error .dimension, w)
  else
    let (normals, w') := draw s1.width w
    (sliced emd1 normals s1 s2, w')

/-- The distances listed by `Wass_convergence_plot` (output.py 911-950): the stored samples and weights
of consecutive iterations. Samples are already flattened to rows; plotting is not modelled. -/
noncomputable def convergence (emd : Emd) (full : Bool) (iterations : List (Stats × List ℝ)) :
    Except Err (List ℝ) :=
  if full = false then .error .journal
  else if iterations.length = 1 then .error .journal
  else (iterations.zip iterations.tail).mapM fun p => wass emd p.1.1 p.2.1 (some p.1.2) (some p.2.2)

end Verif.Wasserstein
