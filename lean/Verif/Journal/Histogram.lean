import Verif.Chance
/-
Model of `Journal.posterior_histogram` (`abcpy/output.py` 444-468), with `numpy.histogramdd` for a number of bins. Numbers are real: the computed edges are not rounded.
-/
namespace Verif.Journal

/-- `np.linspace(lo, hi, n + 1)` for `n ≥ 1`: the edges of `n` bins. -/
noncomputable def linspace (lo hi : ℝ) (n : Nat) : List ℝ := (List.range (n + 1)).map fun i : Nat => lo + (i : ℝ) * ((hi - lo) / n)

/-- `_get_outer_edges` of numpy for one column of the sample: the smallest and the largest value, moved apart by one half each if they are equal. -/
noncomputable def outerEdges : List ℝ → ℝ × ℝ
  | [] => (0, 1)
  | x :: xs =>
    let lo := xs.foldl min x
    let hi := xs.foldl max x
    if lo = hi then (lo - 1 / 2, hi + 1 / 2) else (lo, hi)

open Classical in
/-- `np.searchsorted(edges, x, side='right')` in sorted edges: how many of them are not larger than `x`. -/
noncomputable def searchRight (edges : List ℝ) (x : ℝ) : Nat := (edges.filter fun e => decide (e ≤ x)).length

open Classical in
/-- The place of a value: 0 is below the first edge, `n + 1` above the last one; a value on the last edge belongs to the last bin. -/
noncomputable def place (edges : List ℝ) (x : ℝ) : Nat :=
  if x = edges.getLastD 0 then searchRight edges x - 1 else searchRight edges x

/-- `np.ravel_multi_index`, last index fastest. -/
def ravel : List Nat → List Nat → Nat
  | i :: is, _ :: ms => i * ms.prod + ravel is ms
  | _, _ => 0

/-- `np.bincount(xy, weights, minlength)`. -/
def bincount {R : Type} [AddMonoid R] (xy : List Nat) (w : List R) (m : Nat) : Option (List R) :=
  if xy.length ≠ w.length then none
  else some ((List.range (xy.foldr (fun a b => max (a + 1) b) m)).map fun b => (((xy.zip w).filter fun p => p.1 == b).map (·.2)).sum)

/-- An array and its shape. -/
structure Hist where
  shape : List Nat
  at_ : List Nat → ℝ
  edges : List (List ℝ)

/-- `np.histogramdd(sample, bins=n, weights=w)` for a sample with rows of length `d`. The bins of values outside the edges are cut off at the end (`slice(1, -1)`). -/
noncomputable def histogramdd (sample : List (List ℝ)) (d n : Nat) (w : List ℝ) : Option Hist :=
  if n = 0 then none
  else
    let edges := (List.range d).map fun j => let o := outerEdges (sample.map fun r => r.getD j 0); linspace o.1 o.2 n
    let nbin := edges.map fun e => e.length + 1
    let xy := sample.map fun r => ravel (List.zipWith place edges r) nbin
    match bincount xy w nbin.prod with
    | none => none
    | some flat =>
      if flat.length ≠ nbin.prod then none
      else some ⟨List.replicate d n, fun idx => flat.getD (ravel (idx.map (· + 1)) nbin) 0, edges⟩

/-- `posterior_histogram`, lines 455-468, for the selected step: `params` is the dictionary of names and values, in order; each entry has one row for each particle, and the rows are put
side by side (`hstack`, an exception if the numbers of rows differ or if there is no parameter; `squeeze(axis=1)` raises if there is no particle). -/
noncomputable def posteriorHistogram (params : List (String × List (List ℝ))) (w : List ℝ) (n : Nat) : Option Hist :=
  match params with
  | [] => none
  | p :: rest =>
    if rest.all (fun q => q.2.length = p.2.length) then
      match (List.range p.2.length).map fun k => ((p :: rest).map fun q => q.2.getD k []).flatten with
      | [] => none
      | row :: rows => if rows.all (fun r => r.length = row.length) then histogramdd (row :: rows) row.length n w else none
    else none

end Verif.Journal
