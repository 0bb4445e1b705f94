import Verif.Distance.Model
import Mathlib.Data.List.ProdSigma
import Mathlib.Data.List.Range

/-!
# Summary statistics (abcpy/statistics.py)

Arrays are `Stats` (width and rows) as in the model of the distances. `none` is an exception or a
result that is not a finite number. Neural networks (`NeuralEmbedding`) are left out.
-/

namespace Verif.Statistics

open Verif.Distance (Stats Row)
open Classical

/-- `np.column_stack((a, b))` of two arrays with the same number of rows. -/
def colStack (a b : Stats) : Stats := ⟨a.width + b.width, List.zipWith (· ++ ·) a.rows b.rows⟩

/-- `np.power(s, p)`. -/
noncomputable def power (s : Stats) (p : Nat) : Stats := ⟨s.width, s.rows.map fun r => r.map (· ^ p)⟩

/-- `s[:, i] * s[:, j]` as one column (indices within the width). -/
noncomputable def product (s : Stats) (i j : Nat) : Stats := ⟨1, s.rows.map fun r => [r.getD i 0 * r.getD j 0]⟩

/-- The loop 133-134 over `range(2, degree + 1)`. -/
noncomputable def powers (degree : Nat) (s : Stats) : Stats :=
  (List.range' 2 (degree + 1 - 2)).foldl (fun r p => colStack r (power s p)) s

/-- The inner loop 140-141 over `range(ind1 + 1, shape[1])`. -/
noncomputable def crossInner (s : Stats) (r : Stats) (i : Nat) : Stats :=
  (List.range' (i + 1) (s.width - (i + 1))).foldl (fun r j => colStack r (product s i j)) r

/-- `Statistics._polynomial_expansion` (statistics.py 108-142). -/
noncomputable def expand (degree : Nat) (cross : Bool) (s : Stats) : Stats :=
  let r := powers degree s
  if cross && decide (s.width > 1) then (List.range s.width).foldl (crossInner s) r else r

/-- `Statistics._rescale` (statistics.py 144-166) with stored standard deviations: `none` when the
widths differ or a standard deviation is zero. -/
noncomputable def rescale (std : Option (List ℝ)) (s : Stats) : Option Stats :=
  match std with
  | none => some s
  | some sd =>
    if s.width ≠ sd.length then none
    else if 0 ∈ sd then none
    else some ⟨s.width, s.rows.map fun r => List.zipWith (· / ·) r sd⟩

/-- `Statistics._check_and_transform_input` (statistics.py 196-220): a list of numbers or of arrays of
one size becomes an array with one row per element (a number is an array of size one); the array of
an empty list has width one. Elements of different sizes are an exception in numpy (since 1.24;
before, an array of objects that no later operation accepts). -/
def toArray : List (List ℝ) → Option Stats
  | [] => some ⟨1, []⟩
  | v :: l => if l.all fun u => u.length == v.length then some ⟨v.length, v :: l⟩ else none

/-- What one statistics object does between `_preprocess` and `_polynomial_expansion`: nothing
(`Identity`, 231-255) or a matrix product (`LinearTransformation`, 304-334), the matrix given by
`coefficients.shape[0]` and its columns. -/
inductive Kind
  | identity
  | linear (inputs : Nat) (columns : List (List ℝ))

/-- One statistics object without its `previous_statistics`. -/
structure Step where
  kind : Kind
  degree : Nat
  cross : Bool
  std : Option (List ℝ)

/-- The transformation of the array (320-325): `np.dot(data, coefficients)`. -/
noncomputable def Kind.apply : Kind → Stats → Option Stats
  | .identity, s => some s
  | .linear n cols, s =>
    if s.width ≠ n then none
    else some ⟨cols.length, s.rows.map fun r => cols.map fun c => (List.zipWith (· * ·) r c).sum⟩

/-- One object on the array made by `_preprocess`. -/
noncomputable def Step.apply (p : Step) (s : Stats) : Option Stats :=
  (p.kind.apply s).bind fun s => rescale p.std (expand p.degree p.cross s)

/-- `statistics(data)` of an object with a chain of `previous_statistics` (168-194, 231-255, 304-334):
the first object in the chain turns the list into an array; then every object is applied in order. -/
noncomputable def statistics (chain : List Step) (data : List (List ℝ)) : Option Stats :=
  (toArray data).bind fun s => chain.foldlM (fun s p => p.apply s) s

/-- `np.std(s, axis=0)`, one number per column; not a number for an array without rows. -/
noncomputable def std (s : Stats) : List ℝ :=
  (List.range s.width).map fun j =>
    let col := s.rows.map fun r => r.getD j 0
    let n : ℝ := col.length
    Real.sqrt ((col.map fun x => (x - col.sum / n) ^ 2).sum / n)

/-- `Statistics.__init__` (statistics.py 62-69): with reference simulations the standard deviations of
their statistics, computed without rescaling, are stored. `chain` are the previous statistics. -/
noncomputable def new (chain : List Step) (kind : Kind) (degree : Nat) (cross : Bool)
    (reference : Option (List (List ℝ))) : Option (List Step) :=
  match reference with
  | none => some (chain ++ [⟨kind, degree, cross, none⟩])
  | some sims =>
    match statistics (chain ++ [⟨kind, degree, cross, none⟩]) sims with
    | none => none
    | some s => if s.rows = [] then none else some (chain ++ [⟨kind, degree, cross, some (std s)⟩])

end Verif.Statistics
