import Mathlib.Algebra.Order.Field.Rat
import Mathlib.Data.Nat.Choose.Basic
import Mathlib.Data.Real.Basic
/-
Model of `abcpy/probabilisticmodels.py` (input connectors, indexing, arithmetic nodes, storing a drawn value) and of
the built-in distributions in `abcpy/discretemodels.py` and `abcpy/continuousmodels.py` (checks and densities).
A model object is a number (its identity); a stored output, a one-dimensional numpy array, is a list.
-/
namespace Verif.Models

variable {V : Type}

/-! ### Input connectors -/

/-- One entry of an `InputConnector`: the model object and the index into its output. `fixed v` is a `Hyperparameter(v)`
with index 0 (its output is the array `[v]`); the identity of hyperparameters plays no role here. -/
inductive Slot (V : Type)
  | fixed (v : V)
  | comp (model : Nat) (index : Int)

/-- An `InputConnector`, probabilisticmodels.py 7-21: the lists `_models` and `_model_indices` as one list; `none` is an
entry not yet set. -/
abbrev Conn (V : Type) := List (Option (Slot V))

/-- What may stand in the list given to a model: a number, a model, a connector (from `model[i]`), a list, anything else. -/
inductive Item (V : Type)
  | num (v : V)
  | model (id : Nat)
  | conn (c : Conn V)
  | list (l : List (Item V))
  | other

/-- `from_number`, lines 23-41. -/
def fromNumber (v : V) : Conn V := (List.replicate 1 none).set 0 (some (.fixed v))

/-- `from_model`, lines 43-62; `dim` is `get_output_dimension`. -/
def fromModel (dim : Nat → Nat) (id : Nat) : Conn V :=
  (List.range (dim id)).foldl (fun c i => c.set i (some (.comp id i))) (List.replicate (dim id) none)

/-- The second half of `from_list`, lines 105-111: a new connector is filled slot by slot. -/
def fill (parts : List (Conn V)) : Conn V :=
  (parts.foldl (fun (acc : Conn V × Nat) p =>
    p.foldl (fun (acc : Conn V × Nat) s => (acc.1.set acc.2 s, acc.2 + 1)) acc)
    (List.replicate (parts.map List.length).sum none, 0)).1

mutual
/-- Lines 90-98: the connector of one item, `none` is the `TypeError`. -/
def fromItem (dim : Nat → Nat) : Item V → Option (Conn V)
  | .num v => some (fromNumber v)
  | .model id => some (fromModel dim id)
  | .conn c => some c
  | .list l => (collect dim l).map fill
  | .other => none
/-- The first loop of `from_list`, lines 87-101. -/
def collect (dim : Nat → Nat) : List (Item V) → Option (List (Conn V))
  | [] => some []
  | x :: l => match fromItem dim x with
    | none => none
    | some c => match collect dim l with
      | none => none
      | some cs => some (c :: cs)
end

/-- `InputConnector.from_list`, lines 64-113. -/
def fromList (dim : Nat → Nat) (l : List (Item V)) : Option (Conn V) := (collect dim l).map fill

/-- `ProbabilisticModel.__getitem__`, lines 281-301, for an integer; `none` is the `IndexError`. -/
def getComponent (dim : Nat → Nat) (id : Nat) (i : Int) : Option (Conn V) :=
  if i ≥ dim id then none else some ((List.replicate 1 none).set 0 (some (.comp id i)))

/-- Python indexing of a sequence with an integer, negative indices count from the end; `none` is the `IndexError`. -/
def pyIndex (l : List V) (i : Int) : Option V :=
  if 0 ≤ i then l[i.toNat]? else if 0 ≤ i + l.length then l[(i + l.length).toNat]? else none

/-- `InputConnector.__getitem__` with a number, lines 133-141. `stored` gives `get_stored_output_values()`.
Outer `none`: an exception; inner `none`: the value `None`. -/
def slotValue (stored : Nat → Option (List V)) : Option (Slot V) → Option (Option V)
  | none => none
  | some (.fixed v) => some (some v)
  | some (.comp id i) => match stored id with
    | none => some none
    | some out => (pyIndex out i).map some

/-- `InputConnector.get_values`, lines 154-166. -/
def getValues (stored : Nat → Option (List V)) : Conn V → Option (List (Option V))
  | [] => some []
  | s :: c => match slotValue stored s with
    | none => none
    | some v => match getValues stored c with
      | none => none
      | some vs => some (v :: vs)

/-! ### Storing a drawn value -/

/-- Outcome of `set_output_values` and of `_forward_simulate_and_store_output`. -/
inductive Outcome
  | raised
  | ret (b : Bool)
  deriving DecidableEq

/-- `set_output_values`, lines 365-388: `shape0` is `values.shape[0]`; returns the stored value afterwards. -/
def setOutput {A : Type} (dim : Nat) (chkOut : A → Bool) (shape0 : A → Nat) (x : A) (prev : Option A) : Option A × Outcome :=
  if shape0 x ≠ dim then (prev, .raised)
  else if chkOut x then (some x, .ret true) else (prev, .ret false)

/-- `_forward_simulate_and_store_output`, lines 516-538: `inputOk` is the result of `_check_input`, `drawn` the first element of
what `forward_simulate` returned (`none` if it returned `None`). -/
def forwardStore {A : Type} (dim : Nat) (chkOut : A → Bool) (shape0 : A → Nat) (inputOk : Bool) (drawn : Option A)
    (prev : Option A) : Option A × Outcome :=
  if inputOk then
    match drawn with
    | none => (prev, .ret false)
    | some x => match setOutput dim chkOut shape0 x prev with
      | (st, .raised) => (st, .raised)
      | (st, .ret _) => (st, .ret true)
  else (prev, .ret false)

/-! ### Arithmetic nodes -/

inductive BinOp
  | add | sub | mul | div | pow | rpow
  deriving DecidableEq

/-- An operand of an arithmetic expression. -/
inductive Opd (V : Type)
  | num (v : V)
  | model (id : Nat)

/-- The object behind an operand: every number gets a new `Hyperparameter`, so it is identified by its position. -/
inductive Key
  | hyper (pos : Nat)
  | model (id : Nat)
  deriving DecidableEq

/-- Output dimension of an operand, lines 831-838. -/
def opdDim (dim : Nat → Nat) : Opd V → Nat
  | .num _ => 1
  | .model id => dim id

/-- The models of the input connector, one entry per output component: `InputConnector.from_list([a, b])`. -/
def opdKeys (dim : Nat → Nat) (pos : Nat) : Opd V → List Key
  | .num _ => [.hyper pos]
  | .model id => List.replicate (dim id) (.model id)

/-- Construction of an arithmetic node, lines 819-846, 1107-1122, 1171-1185: the input models, or `none` for a `ValueError`. -/
def opNode (dim : Nat → Nat) (op : BinOp) (a b : Opd V) : Option (List Key) :=
  if (op = .pow ∨ op = .rpow) ∧ opdDim dim b ≠ 1 then none
  else if opdDim dim a ≠ opdDim dim b then none
  else some (opdKeys dim 0 a ++ opdKeys dim 1 b)

/-- The middle loop of `sample_from_input_models`, lines 905-914. `draw n key` is what the `n`-th call of
`forward_simulate`, on the model `key`, returns: a list of `k` samples, each an array. `none`: invalid inputs, an
exception. The `visited` flags of the inputs are a local list here: they are saved before and restored after the loop. -/
def sampleInputs {A : Type} (draw : Nat → Key → Option A) : List Key → Nat → List (Key × A) → Option (List (Key × A))
  | [], _, dict => some dict
  | key :: keys, n, dict =>
    if dict.any (fun e => e.1 = key) then sampleInputs draw keys n dict
    else match draw n key with
      | none => none
      | some a => sampleInputs draw keys (n + 1) (dict ++ [(key, a)])

/-- A numpy array returned by `forward_simulate`: its first extent and its contents in order. -/
structure Arr (V : Type) where
  shape0 : Nat
  flat : List V

/-- Elementwise operation of two one-dimensional numpy arrays with broadcasting; `none` is the `ValueError`. -/
def npBin (f : V → V → V) (x y : List V) : Option (List V) :=
  if x.length = y.length then some (List.zipWith f x y)
  else match x, y with
    | [a], _ => some (y.map (f a))
    | _, [b] => some (x.map fun a => f a b)
    | _, _ => none

/-- Lines 954-957: `parameter_values` for sample number `i`. -/
def paramValues (dict : List (Key × List (List V))) (keys : List Key) (i : Nat) : Option (List (List V)) :=
  keys.foldr (fun key acc => match dict.lookup key with
    | none => none
    | some samples => match samples[i]?, acc with
      | some x, some l => some (x :: l)
      | _, _ => none) (some [])

/-- One sample: lines 960-965 (and the same lines of the other classes). `_dimension` is always 1 (line 844), so the loop over
the output dimension runs once, for `j = 0`. -/
def opSample (f : V → V → V) (op : BinOp) (pv : List (List V)) : Option (List V) :=
  match op with
  | .add | .sub | .mul | .div => match pv[0]?, pv[1]? with
    | some x, some y => npBin f x y
    | _, _ => none
  | .pow => match pv[0]?, pv.getLast? with
    | some x, some p => npBin f x p
    | _, _ => none
  | .rpow => match pv[0]?, pv[0]? with
    | some x, some p => npBin f x p
    | _, _ => none

/-- The samples number `0 .. k-1`. -/
def opSamples (f : V → V → V) (op : BinOp) (dict : List (Key × List (List V))) (keys : List Key) :
    List Nat → Option (List (List V))
  | [] => some []
  | i :: is => match paramValues dict keys i with
    | none => none
    | some pv => match opSample f op pv with
      | none => none
      | some x => match opSamples f op dict keys is with
        | none => none
        | some xs => some (x :: xs)

/-- `forward_simulate` of the arithmetic nodes, lines 926-967, 973-1013, 1019-1058, 1064-1101, 1127-1165, 1190-1228. `f` is
the arithmetic operation on numbers. A power is wrapped in one more array (1163); `k ** X` puts all samples into one
array (1226-1228). -/
def opForward (f : V → V → V) (op : BinOp) (keys : List Key) (k : Nat) (draw : Nat → Key → Option (List (List V))) :
    Option (List (Arr V)) :=
  match sampleInputs draw keys 0 [] with
  | none => none
  | some dict => match opSamples f op dict keys (List.range k) with
    | none => none
    | some xs => match op with
      | .pow => some (xs.map fun x => ⟨1, x⟩)
      | .rpow => some [⟨k, xs.flatten⟩]
      | _ => some (xs.map fun x => ⟨x.length, x⟩)

/-- Drawing and storing an arithmetic node: `_forward_simulate_and_store_output` with `_check_input` and `_check_output` both
true (851-856) and output dimension 1. -/
def opStore (f : V → V → V) (op : BinOp) (keys : List Key) (draw : Nat → Key → Option (List (List V)))
    (prev : Option (Arr V)) : Option (Arr V) × Outcome :=
  match opForward f op keys 1 draw with
  | none => (prev, .raised)
  | some [] => (prev, .raised)
  | some (x :: _) => forwardStore 1 (fun _ => true) Arr.shape0 true (some x) prev

/-! ### Distributions -/

/-- `Uniform._check_input`, continuousmodels.py 40-51; `dim` is the output dimension. `none` is an `IndexError`. -/
def uniformCheckInput (dim : Nat) (input : List ℝ) : Prop :=
  input.length % 2 = 0 ∧ ∀ j < dim, ∃ l u, input[j]? = some l ∧ input[j + dim]? = some u ∧ l ≤ u

/-- `Uniform._check_output`, continuousmodels.py 53-64, for bounds `lo`, `hi` (the first and second half of the input values). -/
noncomputable def uniformCheckOutput (lo hi x : List ℝ) : Bool :=
  ((List.zip lo hi).zip x).all fun e => !decide (e.2 < e.1.1 ∨ e.2 > e.1.2)

/-- `Uniform.pdf`, continuousmodels.py 93-119, for bounds `lo`, `hi` and a point of the same length. -/
noncomputable def uniformPdf (lo hi x : List ℝ) : ℝ :=
  if (((List.zip x lo).map fun e => if e.1 ≥ e.2 then (1 : ℝ) else 0).zipWith (· * ·)
      ((List.zip x hi).map fun e => if e.1 ≤ e.2 then (1 : ℝ) else 0)).prod ≠ 0
  then 1 / (List.zipWith (· - ·) hi lo).prod
  else 0

/-- `DiscreteUniform._check_input`, discretemodels.py 318-330, for integers. -/
def duCheckInput (lo hi : Int) : Bool := !decide (lo ≥ hi)

/-- `DiscreteUniform.forward_simulate`, 358: the values `rng.randint(lo, hi + 1)` can return. -/
def duRange (lo hi : Int) : List Int := (List.range ((hi + 1) - lo).toNat).map fun (i : Nat) => lo + i

/-- `DiscreteUniform.pmf`, discretemodels.py 364-385. -/
noncomputable def duPmf (lo hi x : Int) : ℝ := if x ≥ lo ∧ x ≤ hi then 1 / ((hi : ℝ) - lo + 1) else 0

/-- `scipy.special.comb(n, x)` for integers: zero outside `0 ≤ x ≤ n`. -/
def comb (n : Nat) (x : Int) : Nat := if 0 ≤ x then n.choose x.toNat else 0

/-- `pow(p, x)` for an integer exponent; `none` is the `ZeroDivisionError`. -/
noncomputable def pyPow (p : ℝ) (x : Int) : Option ℝ :=
  if p = 0 ∧ x < 0 then none else some (p ^ x)

/-- `Binomial.pmf`, discretemodels.py 178-204, at an integer. -/
noncomputable def binomialPmf (n : Nat) (p : ℝ) (x : Int) : Option ℝ :=
  if x > n then some 0
  else match pyPow p x, pyPow (1 - p) (n - x) with
    | some a, some b => some (comb n x * a * b)
    | _, _ => none

/-- `scipy.stats.bernoulli(p).pmf(x)` (trusted description), used by `Bernoulli.pmf`, discretemodels.py 77-95. -/
noncomputable def bernoulliPmf (p : ℝ) (x : Int) : ℝ := if x = 1 then p else if x = 0 then 1 - p else 0

/-- `StudentT.pdf`, continuousmodels.py 290-312: the contents of the array `x` afterwards (line 309 subtracts in place) and the
density; `t df y` is the formula of line 310. -/
def studentPdf (t : ℚ → ℚ → ℚ) (mean df : ℚ) (x : ℚ) : ℚ × ℚ := (x - mean, t df (x - mean))

/-- `pdf_of_prior` for a graph whose free parameters are independent Student-t variables with fixed parameters
(graphtools.py 90-187): each entry of the parameter list is an array handed to `pdf`, in the order of the mapping.
Returns the caller's list afterwards and the product. -/
def studentPrior (t : ℚ → ℚ → ℚ) : List (ℚ × ℚ) → List ℚ → List ℚ × ℚ
  | (mean, df) :: ms, x :: xs =>
    let (x', d) := studentPdf t mean df x
    let (xs', r) := studentPrior t ms xs
    (x' :: xs', d * r)
  | _, xs => (xs, 1)

end Verif.Models
