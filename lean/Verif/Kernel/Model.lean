import Verif.Graph.Model
import Mathlib.Algebra.Order.Field.Rat
/-
Model of `abcpy/perturbationkernel.py` and of `perturb` (`abcpy/inferences.py` 85-129).

A node of the graph is a number, as in `Verif.Graph`. The value of one model (a scalar or an array) is one element of
`α`. The random generator is a parameter: what a kernel draws is an argument of the functions below.
-/
namespace Verif.Kernel

open Verif.Graph

variable {α M : Type}

/-- What matters of a kernel object inside a joint kernel: its models, its `update` (from the row of current values of its
models and a source of randomness to the drawn values) and its `pdf(mean, x)`. -/
structure Kern (α Ω M : Type) where
  models : List Nat
  update : List (Option α) → Ω → List α
  pdf : List α → List α → M

/-- `_check_kernels`, perturbationkernel.py 147-163: `false` when it raises. Models are compared by identity. -/
def checkKernels {Ω : Type} (kernels : List (Kern α Ω M)) : Bool :=
  (kernels.foldl (fun (acc : List Nat × Bool) k =>
    k.models.foldl (fun acc m => if acc.1.any (· == m) then (acc.1, false) else (acc.1 ++ [m], acc.2)) acc) ([], true)).2

/-- The inner loop of `update`, lines 195-201, for one kernel; `none` is the `IndexError` of
`perturbed_values[kernel_index][index]`. -/
def pairUp (models : List Nat) (drawn : List α) : Nat → Option (List (Nat × List α))
  | i => match models with
    | [] => some []
    | m :: ms => match drawn[i]?, pairUp ms drawn (i + 1) with
      | some x, some rest => some ((m, [x]) :: rest)
      | _, _ => none

/-- `JointPerturbationKernel.update`, lines 165-203. `tables` is `kernel_parameters_bds.value()`: for every kernel the rows
of current values of its models; `ω i` is the randomness used by kernel number `i`. -/
def jointUpdate {Ω : Type} (tables : List (List (List (Option α)))) (row : Nat) (ω : Nat → Ω) :
    List (Kern α Ω M) → Nat → Option (List (Nat × List α))
  | [], _ => some []
  | k :: ks, i =>
    match tables[i]? with
    | none => none
    | some t => match t[row]? with
      | none => none
      | some current => match pairUp k.models (k.update current (ω i)) 0, jointUpdate tables row ω ks (i + 1) with
        | some a, some b => some (a ++ b)
        | _, _ => none

/-- The loops of lines 229-234: the entries of `v` that the mapping gives to the models, in the order of the models;
`none` is an `IndexError`. -/
def pick (mapping : List (Nat × Nat)) (v : List α) (models : List Nat) : Option (List α) :=
  (models.flatMap fun m => (mapping.filter fun e => m == e.1).map fun e => v[e.2]?).foldr
    (fun x acc => match x, acc with
      | some x, some l => some (x :: l)
      | _, _ => none) (some [])

/-- `JointPerturbationKernel.pdf`, lines 205-237. -/
def jointPdf {Ω : Type} [Mul M] [One M] (mapping : List (Nat × Nat)) (mean x : List α) (kernels : List (Kern α Ω M)) :
    Option M :=
  kernels.foldl (fun acc k => match acc, pick mapping mean k.models, pick mapping x k.models with
    | some r, some mk, some th => some (r * k.pdf mk th)
    | _, _, _ => none) (some 1)

/-- `np.split(v, idx)`: the slices between consecutive indices, then the rest. -/
def npSplit {β : Type} (v : List β) : Nat → List Nat → List (List β)
  | prev, [] => [v.drop prev]
  | prev, i :: is => ((v.take i).drop prev) :: npSplit v i is

/-- `np.cumsum`. -/
def cumsum : Nat → List Nat → List Nat
  | _, [] => []
  | a, n :: ns => (a + n) :: cumsum (a + n) ns

/-- The array branch of `update` of the normal, Student and random walk kernels, lines 315-326, 451-471, 577-592: `sizes` are
the lengths of the current arrays, `drawn` the vector that was drawn. -/
def splitBlocks {β : Type} (sizes : List Nat) (drawn : List β) : List (List β) :=
  (npSplit drawn 0 (cumsum 0 sizes)).dropLast

/-- All results of the loop of lines 571-574 (`rng.randint(lo, hi)` can return every integer `lo ≤ k < hi` and nothing
else, all with the same probability). -/
def rwOutcomes (jump : Nat) : List Int → List (List Int)
  | [] => [[]]
  | v :: vs => (List.range ((v + jump + 1) - (v - jump)).toNat).flatMap fun (i : Nat) =>
      (rwOutcomes jump vs).map fun ys => (v - jump + i) :: ys

/-- `RandomWalkKernel.pmf`, lines 604-628, on the scalar values of its models; `none` is an `IndexError`. -/
def rwPmf (jump : Nat) (mean x : List Int) : Option ℚ :=
  match mean.head?, x.head? with
  | some m, some y => if |m - y| > jump then some 0 else some (1 / (2 * jump + 1))
  | _, _ => none

/-- `DefaultKernel.__init__`, lines 773-799: the models of the sub-kernels; `true` marks the normal kernel, `false` the random
walk. -/
def defaultKernel (kind : Nat → Kind) (models : List Nat) : List (Bool × List Nat) :=
  let cont := models.foldl (fun acc m => if kind m = .cont then acc ++ [m] else acc) []
  let disc := models.foldl (fun acc m => if kind m = .cont then acc else acc ++ [m]) []
  if cont = [] then [(false, disc)]
  else if disc = [] then [(true, cont)]
  else [(true, cont), (false, disc)]

/-- Result of `perturb`: an exception, `[False]`, or `[True, parameters]`. -/
inductive Perturbed (α : Type)
  | raised
  | no
  | yes (ps : List α)
  deriving DecidableEq

/-- The `while` loop of `perturb`, inferences.py 110-124: `fuel` is `epochs - current_epoch`, `propose e` what
`self.kernel.update` returns at epoch `e` (`none` if it raises), `last` the variable `correctly_ordered_parameters`.
Returns the node state and, unless an exception was raised, the final epoch and `last`. -/
def perturbLoop (g : G) (chk : (Nat → Option α) → Nat → α → Verdict) (roots : List Nat)
    (propose : Nat → Option (List (Nat × List α))) : Nat → Nat → Option (List α) → St α →
    St α × Option (Nat × Option (List α))
  | 0, epoch, last, s => (s, some (epoch, last))
  | fuel + 1, epoch, last, s =>
    match propose epoch with
    | none => (s, none)
    | some pairs =>
      let (s, ps) := correctOrdering g roots pairs (resetFlags g roots s)
      match setParameters g chk roots ps s with
      | (s, .ok _) => (s, some (epoch, some ps))
      | (s, .error (.rejected _)) => perturbLoop g chk roots propose fuel (epoch + 1) (some ps) s
      | (s, .error .raised) => (s, none)

/-- `perturb`, inferences.py 85-129. -/
def perturb (g : G) (chk : (Nat → Option α) → Nat → α → Verdict) (roots : List Nat)
    (propose : Nat → Option (List (Nat × List α))) (epochs : Nat) (s : St α) : St α × Perturbed α :=
  match perturbLoop g chk roots propose epochs 0 none s with
  | (s, none) => (s, .raised)
  | (s, some (epoch, last)) =>
    if epoch = 10 then (s, .no)
    else match last with
      | none => (s, .raised)
      | some ps => (s, .yes ps)

end Verif.Kernel
