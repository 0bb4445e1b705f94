import Mathlib.Analysis.SpecialFunctions.Exp
import Mathlib.Data.EReal.Operations
import Verif.Collect

/-!
# Combined distances and likelihoods (abcpy/jointdistances.py, abcpy/jointapprox_lhd.py)

Floating point numbers are reals. `none` is a Python exception or a result that is not a number.
-/

namespace Verif.Joint

open Classical

/-- An individual distance: its method `distance` on two data sets (which may raise) and its
`dist_max`, possibly infinite. -/
structure Dist (D : Type) where
  distance : D → D → Option ℝ
  distMax : EReal

/-- `LinearCombination`: the normalised weights and the distances. -/
structure Combination (D : Type) where
  weights : List ℝ
  distances : List (Dist D)

/-- `LinearCombination.__init__` (jointdistances.py 79-102). `none`: a ValueError, or weights that
are not numbers because the sum is zero. -/
noncomputable def new {D : Type} (models : Nat) (distances : List (Dist D)) (weights : Option (List ℝ)) :
    Option (Combination D) :=
  if models ≠ distances.length then none
  else match weights with
    | none => some ⟨List.replicate distances.length (1 / (distances.length : ℝ)), distances⟩
    | some w =>
      if distances.length ≠ w.length then none
      else if w.sum = 0 then none
      else some ⟨w.map (· / w.sum), distances⟩

/-- The loop 119-121: `weights[ind] * distances[ind].distance(d1[ind], d2[ind])` for all `ind`; a
data set missing at the end of `d1` is an IndexError. -/
def terms {D : Type} : List ℝ → List (Dist D) → List D → List D → List (Option ℝ)
  | w :: ws, d :: ds, x :: xs, y :: ys => (d.distance x y).map (w * ·) :: terms ws ds xs ys
  | [], _, _, _ => []
  | _, [], _, _ => []
  | _ :: _, _ :: _, _, _ => [none]

/-- `LinearCombination.distance` (jointdistances.py 104-123). -/
noncomputable def Combination.distance {D : Type} (c : Combination D) (d1 d2 : List D) : Option ℝ :=
  if d1.length ≠ d2.length then none
  else (collect (terms c.weights c.distances d1 d2)).map List.sum

/-- One term of `dist_max` (128): zero times infinity is not a number. -/
noncomputable def maxTerm (w : ℝ) (m : EReal) : Option EReal :=
  if w = 0 ∧ (m = ⊤ ∨ m = ⊥) then none else some (w * m)

/-- `LinearCombination.dist_max` (jointdistances.py 125-129). Infinity minus infinity is not a
number. -/
noncomputable def Combination.distMax {D : Type} (c : Combination D) : Option EReal :=
  match collect (List.zipWith (fun w (d : Dist D) => maxTerm w d.distMax) c.weights c.distances) with
  | none => none
  | some l => if ⊤ ∈ l ∧ ⊥ ∈ l then none else some l.sum

/-! ## Likelihoods -/

/-- An individual approximate likelihood: `loglikelihood` on two data sets; `likelihood` is its
exponential (approx_lhd.py 74). -/
structure Lhd (D : Type) where
  loglikelihood : D → D → Option ℝ

/-- `Approx_likelihood.likelihood` (approx_lhd.py 55-74). -/
noncomputable def Lhd.likelihood {D : Type} (l : Lhd D) (x y : D) : Option ℝ := (l.loglikelihood x y).map Real.exp

/-- The loops 84-86 and 121-123 of jointapprox_lhd.py: the individual values in order; a data set
missing at the end is an IndexError. -/
def values {D : Type} (f : Lhd D → D → D → Option ℝ) : List (Lhd D) → List D → List D → List (Option ℝ)
  | l :: ls, x :: xs, y :: ys => f l x y :: values f ls xs ys
  | [], _, _ => []
  | _ :: _, _, _ => [none]

/-- `ProductCombination.__init__` and `SumCombination.__init__` (61-67, 98-104): the check of the
numbers of models and likelihoods. -/
def accepts {D : Type} (models : Nat) (lhds : List (Lhd D)) : Bool := models == lhds.length

/-- `ProductCombination.likelihood` (jointapprox_lhd.py 69-88). -/
noncomputable def productLikelihood {D : Type} (lhds : List (Lhd D)) (d1 d2 : List D) : Option ℝ :=
  if d1.length ≠ d2.length then none
  else (collect (values Lhd.likelihood lhds d1 d2)).map fun l => l.foldl (· * ·) 1

/-- `SumCombination.loglikelihood` (jointapprox_lhd.py 106-125). -/
noncomputable def sumLoglikelihood {D : Type} (lhds : List (Lhd D)) (d1 d2 : List D) : Option ℝ :=
  if d1.length ≠ d2.length then none
  else (collect (values Lhd.loglikelihood lhds d1 d2)).map fun l => l.foldl (· + ·) 0

/-- `SumCombination.likelihood` (jointapprox_lhd.py 127-128). -/
noncomputable def sumLikelihood {D : Type} (lhds : List (Lhd D)) (d1 d2 : List D) : Option ℝ :=
  (sumLoglikelihood lhds d1 d2).map Real.exp

end Verif.Joint
