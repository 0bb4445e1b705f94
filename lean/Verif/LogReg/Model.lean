import Verif.Distance.Model

/-!
# Classifier based distances and likelihood

`abcpy/distances.py` 205-350 (`PenLogReg`, `LogReg`) and `abcpy/approx_lhd.py` 307-425 (`PenLogReg`).

The classifiers (`glmnet.LogitNet`, `sklearn.linear_model.LogisticRegression`) are not modelled: a
fitted classifier is an arbitrary function from rows to labels, and training is an arbitrary function
from labelled rows to a classifier. Random states are part of an arbitrary state `W`.
-/

namespace Verif.LogReg

open Verif.Distance

/-- `int(np.ceil(n / n_folds))` (distances.py 264, approx_lhd.py 383), with exact arithmetic. -/
def foldSize (n folds : Nat) : Nat := (n + folds - 1) / folds

/-- `np.repeat(np.arange(n_folds), foldSize)[:n]` (distances.py 264-265, approx_lhd.py 383-384). -/
def foldLabels (folds n : Nat) : List Nat :=
  ((List.range folds).flatMap fun g => List.replicate (foldSize n folds) g).take n

/-- The list after `groups += groups` (distances.py 266, approx_lhd.py 385). -/
def groups (folds n : Nat) : List Nat := foldLabels folds n ++ foldLabels folds n

/-- Features and labels of the two data sets (distances.py 259-262, 329-332). -/
def labelled (s1 s2 : List Row) : List (Row × Nat) := (s1.map fun r => (r, 0)) ++ (s2.map fun r => (r, 1))

/-- Fraction of rows with the right predicted label; not a number without rows. -/
noncomputable def accuracy (predict : Row → Nat) (l : List (Row × Nat)) : Option ℝ :=
  if l = [] then none
  else some (((l.filter fun p => predict p.1 == p.2).length : ℝ) / l.length)

/-- `LogReg.distance` (distances.py 310-340): train on all rows, score on all rows. `W` is the random
state; `none` for an exception. -/
noncomputable def logReg {W : Type} (train : List (Row × Nat) → W → (Row → Nat) × W) (s1 s2 : Stats) (w : W) :
    Option ℝ × W :=
  let l := labelled s1.rows s2.rows
  let (predict, w') := train l w
  ((accuracy predict l).map fun score => 2 * (score - 1 / 2), w')

/-- The samples of one fold and the others; the fold of sample `i` is the `i`-th group label. -/
def heldOut (l : List (Row × Nat)) (groups : List Nat) (g : Nat) : List (Row × Nat) :=
  ((l.zip groups).filter fun p => p.2 == g).map Prod.fst

def kept (l : List (Row × Nat)) (groups : List Nat) (g : Nat) : List (Row × Nat) :=
  ((l.zip groups).filter fun p => p.2 != g).map Prod.fst

/-- `PenLogReg.distance` (distances.py 234-271). The score taken is the cross-validation mean of the
accuracy at one value of the penalty; cross-validation trains on the samples outside each fold and
scores on the fold. A fold without samples has no score, then the call fails. -/
noncomputable def penLogReg (folds : Nat) (train : List (Row × Nat) → Row → Nat) (s1 s2 : Stats) : Option ℝ :=
  if s2.rows.length ≠ s1.rows.length then none
  else
    let l := labelled s1.rows s2.rows
    let gs := groups folds s1.rows.length
    match collect ((List.range folds).map fun g => accuracy (train (kept l gs g)) (heldOut l gs g)) with
    | none => none
    | some scores => if scores = [] then none else some (2 * (scores.sum / scores.length - 1 / 2))

/-- `dist_max` of both distances (distances.py 273-280, 342-349). -/
noncomputable def classifierMax : ℝ := 1

/-! ## Reference data of the likelihood -/

/-- The parts of the user's model that matter here: a draw from the prior, which stores the values in
the model; a simulation at the stored values; the statistics of one simulated data set (always of the
same length). -/
structure Problem (W P D : Type) where
  samplePrior : W → P × W
  simulate : P → W → D × W
  stat : D → Row
  width : Nat
  statLength : ∀ d, (stat d).length = width

/-- Arrays after `np.squeeze` (approx_lhd.py 424): the two-dimensional array when no axis has length
one, otherwise fewer axes. -/
inductive Squeezed
  | table (s : Stats)
  | vector (v : List ℝ)
  | scalar (x : ℝ)

/-- `np.squeeze` of an array of shape `(n, 1, width)`. -/
def squeeze (s : Stats) : Squeezed :=
  match s.rows with
  | [r] => match r with
    | [x] => .scalar x
    | r => .vector r
  | rows => if s.width = 1 then .vector (rows.map fun r => r.headD 0) else .table s

/-- The `while` loop (approx_lhd.py 412-423), which fills entry `ind` and stops when the last entry is
filled: `n - ind` more simulations at the stored parameters. -/
def fill {W P D : Type} (pb : Problem W P D) (p : P) : Nat → W → List Row × W
  | 0, w => ([], w)
  | n + 1, w =>
    let (d, w1) := pb.simulate p w
    let (rows, w2) := fill pb p n w1
    (pb.stat d :: rows, w2)

/-- `_simulate_ref_data` (approx_lhd.py 392-425) for a single model: one call of `sample_from_prior`,
then the loop. `none` for the `IndexError` of `[-1]` on an empty list. Not modelled: tables of further
models (filled after the first one, and dropped by `[0]` at 355). -/
def refData {W P D : Type} (pb : Problem W P D) (n : Nat) (w : W) : Option (Squeezed × W) :=
  if n = 0 then none
  else
    let (p, w1) := pb.samplePrior w
    let (rows, w2) := fill pb p n w1
    some (squeeze ⟨pb.width, rows⟩, w2)

/-- The features and groups handed to the classifier by `PenLogReg.loglikelihood` (approx_lhd.py
372-387): simulated rows (label zero), then reference rows (label one). `none` for the two exceptions:
wrong number of simulations (374) and concatenation of a table with an array with fewer axes (381). -/
def trainingSet (folds n : Nat) (ref : Squeezed) (sim : Stats) : Option (List (Row × Nat) × List Nat) :=
  if sim.rows.length ≠ n then none
  else match ref with
    | .table r => if r.width = sim.width then some (labelled sim.rows r.rows, groups folds n) else none
    | _ => none

/-- The value returned by `loglikelihood` (approx_lhd.py 388) for the fitted intercept and
coefficients. -/
noncomputable def linearLoglik (intercept : ℝ) (coef : Row) (obs : Stats) : ℝ :=
  -((obs.rows.map fun r => intercept + (List.zipWith (· * ·) coef r).sum).sum)

end Verif.LogReg
