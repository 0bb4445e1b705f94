import Mathlib.Analysis.SpecialFunctions.Log.Basic
import Verif.Collect
/-
Model of `abcpy/transformers.py`. Floating point numbers are real numbers (so `np.exp` does not overflow). What is kept of numpy: the rounding of the
bounds to single precision (lines 57-59), as an arbitrary function `f32`; arrays of integers, into which only integers can be written (lines 78, 90, 99); and the
shape of an array with one entry after `squeeze` (lines 83, 95).
-/
namespace Verif.Transform

/-- One entry of a parameter vector: numpy makes an array of integers from a list that has only integers. -/
inductive Num
  | int (z : ℤ)
  | real (r : ℝ)

noncomputable def Num.val : Num → ℝ
  | .int z => z
  | .real r => r

def Num.isInt : Num → Bool
  | .int _ => true
  | .real _ => false

/-- What goes wrong. `shape`: lines 45, 47 and boolean masks of the wrong size; `notImplemented`: line 55; `outOfBounds`: lines 69, 72; `index`: line 141 (or 139) for
an array without axes; `notNumber`: no exception, but the result contains `nan` or an infinity. -/
inductive Err
  | shape | notImplemented | outOfBounds | index | notNumber
  deriving DecidableEq

/-- Lower and upper bound of one variable, `none` for `None`. -/
abbrev Bound := Option ℝ × Option ℝ

/-- `BoundedVarTransformer.__init__`, lines 29-59: the two arrays of bounds as one list of pairs. -/
def new (lower upper : List (Option ℝ)) : Except Err (List Bound) :=
  if lower.length ≠ upper.length then .error .shape
  else if (lower.zip upper).any (fun b => b.1.isNone && b.2.isSome) then .error .notImplemented
  else .ok (lower.zip upper)

/-- `logit`, lines 61-63. -/
noncomputable def logit (x : ℝ) : ℝ := Real.log x - Real.log (1 - x)

open Classical in
/-- `_check_data_in_bounds`, lines 65-72, for one entry: `true` if it is refused. The lower bound of a two-sided variable is the one that is not rounded (70). -/
noncomputable def refused (f32 : ℝ → ℝ) (b : Bound) (v : ℝ) : Bool :=
  match b.1, b.2 with
  | some l, none => decide (v ≤ f32 l)
  | some l, some u => decide (v ≤ l) || decide (v ≥ f32 u)
  | none, _ => false

open Classical in
/-- `_apply_nonlinear_transf`, lines 74-83, for one entry; `none` where numpy computes the logarithm of a number that is not positive or divides by zero. -/
noncomputable def fwd (f32 : ℝ → ℝ) (b : Bound) (v : ℝ) : Option ℝ :=
  match b.1, b.2 with
  | some l, none => if 0 < v - f32 l then some (Real.log (v - f32 l)) else none
  | some l, some u =>
    let y := (v - f32 l) / (f32 u - f32 l)
    if f32 u - f32 l ≠ 0 ∧ 0 < y ∧ 0 < 1 - y then some (logit y) else none
  | none, _ => some v

/-- `_apply_inverse_nonlinear_transf`, lines 85-95, for one entry. -/
noncomputable def bwd (f32 : ℝ → ℝ) (b : Bound) (v : ℝ) : ℝ :=
  match b.1, b.2 with
  | some l, none => Real.exp v + f32 l
  | some l, some u => (f32 u - f32 l) * Real.exp v / (1 + Real.exp v) + f32 l
  | none, _ => v

/-- Writing a number into an array: an array of integers keeps the integer part towards zero. -/
noncomputable def store (ints : Bool) (r : ℝ) : Num :=
  if ints then .int (if 0 ≤ r then ⌊r⌋ else ⌈r⌉) else .real r

/-- `_list_from_array` (133-142) of a squeezed array (83, 95): the array made from one entry has no axis left to index. -/
def unsqueeze (l : List Num) : Except Err (List Num) :=
  if l.length = 1 then .error .index else .ok l

/-- `transform`, lines 144-169. Entries of `x` are numbers or arrays of one number. -/
noncomputable def transform (f32 : ℝ → ℝ) (bs : List Bound) (x : List Num) : Except Err (List Num) :=
  if x.length ≠ bs.length then .error .shape
  else if (bs.zip x).any (fun e => refused f32 e.1 e.2.val) then .error .outOfBounds
  else match collect ((bs.zip x).map fun e => fwd f32 e.1 e.2.val) with
    | none => .error .notNumber
    | some ys => unsqueeze (ys.map (store (x.all Num.isInt)))

/-- `inverse_transform`, lines 171-192. -/
noncomputable def inverse (f32 : ℝ → ℝ) (bs : List Bound) (x : List Num) : Except Err (List Num) :=
  if x.length ≠ bs.length then .error .shape
  else unsqueeze ((bs.zip x).map fun e => store (x.all Num.isInt) (bwd f32 e.1 e.2.val))

open Classical in
/-- `_jac_log_det`, lines 97-105, for one entry; `none` as in `fwd`. -/
noncomputable def jacAt (f32 : ℝ → ℝ) (b : Bound) (v : ℝ) : Option ℝ :=
  match b.1, b.2 with
  | some l, none => if 0 < v - f32 l then some (-Real.log (v - f32 l)) else none
  | some l, some u =>
    let d := (v - f32 l) * (f32 u - v)
    if d ≠ 0 ∧ 0 < (f32 u - f32 l) / d then some (Real.log ((f32 u - f32 l) / d)) else none
  | none, _ => some 0

/-- `jac_log_det`, lines 194-209. -/
noncomputable def jac (f32 : ℝ → ℝ) (bs : List Bound) (x : List Num) : Except Err ℝ :=
  if x.length ≠ bs.length then .error .shape
  else if (bs.zip x).any (fun e => refused f32 e.1 e.2.val) then .error .outOfBounds
  else match collect ((bs.zip x).map fun e => jacAt f32 e.1 e.2.val) with
    | none => .error .notNumber
    | some ys => .ok (ys.map fun y => (store (x.all Num.isInt) y).val).sum

open Classical in
/-- `_jac_log_det_inverse_transform`, lines 107-127, for one entry. -/
noncomputable def jacInvAt (f32 : ℝ → ℝ) (b : Bound) (v : ℝ) : ℝ :=
  match b.1, b.2 with
  | some _, none => -v
  | some l, some u =>
    -Real.log (f32 u - f32 l) + (if v < 100 then Real.log (1 + Real.exp v) else v) + (if v > -100 then Real.log (1 + Real.exp (-v)) else -v)
  | none, _ => 0

/-- `jac_log_det_inverse_transform`, lines 211-226. For an array of integers the model is not faithful (there every term is cut to an integer when it is added). -/
noncomputable def jacInv (f32 : ℝ → ℝ) (bs : List Bound) (x : List Num) : Except Err ℝ :=
  if x.length ≠ bs.length then .error .shape
  else .ok ((bs.zip x).map fun e => jacInvAt f32 e.1 e.2.val).sum

/-! ### `BoundedVarScaler`, lines 229-413 -/

/-- `fit`, lines 283-310, for one column: the smallest and the largest transformed value (`MinMaxScaler.fit` of scikit-learn), and from them factor and
offset of the linear map onto `[lo, hi]`; a column without spread has factor `hi - lo`. -/
noncomputable def fitCol (lo hi : ℝ) (dmin dmax : ℝ) : ℝ × ℝ :=
  let scale := (hi - lo) / (if dmax - dmin = 0 then 1 else dmax - dmin)
  (scale, lo - dmin * scale)

/-- `MinMaxScaler.transform` and `MinMaxScaler.inverse_transform` for one entry. -/
noncomputable def scale (s : ℝ × ℝ) (v : ℝ) : ℝ := v * s.1 + s.2
noncomputable def unscale (s : ℝ × ℝ) (v : ℝ) : ℝ := (v - s.2) / s.1

/-- `transform` of the scaler, lines 312-336, for one row; `sc = none` if `rescale_transformed_vars` is false. Rows belong to a two-dimensional array of
floats, so there is no squeezing. -/
noncomputable def rowTransform (f32 : ℝ → ℝ) (bs : List Bound) (sc : Option (List (ℝ × ℝ))) (x : List ℝ) : Except Err (List ℝ) :=
  if x.length ≠ bs.length then .error .shape
  else if (bs.zip x).any (fun e => refused f32 e.1 e.2) then .error .outOfBounds
  else match collect ((bs.zip x).map fun e => fwd f32 e.1 e.2) with
    | none => .error .notNumber
    | some ys => match sc with
      | none => .ok ys
      | some sc => if sc.length ≠ ys.length then .error .shape else .ok (List.zipWith scale sc ys)

/-- `inverse_transform` of the scaler, lines 338-357, for one row. -/
noncomputable def rowInverse (f32 : ℝ → ℝ) (bs : List Bound) (sc : Option (List (ℝ × ℝ))) (y : List ℝ) : Except Err (List ℝ) :=
  if y.length ≠ bs.length then .error .shape
  else match sc with
    | none => .ok (List.zipWith (bwd f32) bs y)
    | some sc => if sc.length ≠ y.length then .error .shape else .ok (List.zipWith (bwd f32) bs (List.zipWith unscale sc y))

/-- `fit`, lines 283-310, for the transformed rows `ts` (not empty), column by column. -/
noncomputable def fit (lo hi : ℝ) (first : List ℝ) (rest : List (List ℝ)) : List (ℝ × ℝ) :=
  (List.range first.length).map fun i =>
    fitCol lo hi ((rest.map fun r => r.getD i 0).foldl min (first.getD i 0)) ((rest.map fun r => r.getD i 0).foldl max (first.getD i 0))

end Verif.Transform
