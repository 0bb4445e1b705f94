import Verif.Models.Model
import Verif.Models.Simulate
import Verif.Collect
/-
Model of `abcpy/output.py`: `Journal` (not its plots and files) and `GenerateFromJournal`.
Floating point numbers are real numbers.
-/
namespace Verif.Journal

/-! ### Histories -/

/-- The lists a journal keeps (output.py 52-58). -/
inductive Field
  | user | params | sims | covs | weights | distances | ess
  deriving DecidableEq

/-- A journal: its type and its lists. Values of all kinds are elements of one type `α`; the conversions `dict(...)` (109, 111) and
the effective sample size (206-209) are applied by the caller of `add`. -/
structure J (α : Type) where
  type : Int
  data : Field → List α

/-- `Journal.__init__`, lines 41-66; `none` is the `ValueError`. -/
def J.new {α : Type} (type : Int) : Option (J α) :=
  if type = 0 ∨ type = 1 then some ⟨type, fun _ => []⟩ else none

/-- `add_user_parameters`, `add_accepted_parameters`, ..., `add_ESS_estimate`, lines 97-215: all of the same form. -/
def J.add {α : Type} (j : J α) (f : Field) (x : α) : J α :=
  if j.type = 0 then { j with data := fun f' => if f' = f then [x] else j.data f' }
  else if j.type = 1 then { j with data := fun f' => if f' = f then j.data f ++ [x] else j.data f' }
  else j

/-- What a getter returns. -/
inductive Got (α : Type)
  | value (x : α)
  | noneValue
  | indexError
  deriving DecidableEq

def Got.ofOption {α : Type} : Option α → Got α
  | some x => .value x
  | none => .indexError

/-- The getters, lines 230-382, `none` for `iteration=None`. `get_parameters`, `get_weights`, `get_distances` index with `len - 1`; the others
with `-1`; simulations and covariances return `None` for an empty journal. -/
def J.get {α : Type} (j : J α) (f : Field) : Option Int → Got α
  | some i => Got.ofOption (Models.pyIndex (j.data f) i)
  | none => match f with
    | .user | .weights | .distances => Got.ofOption (Models.pyIndex (j.data f) ((j.data f).length - 1))
    | .params | .ess => Got.ofOption (Models.pyIndex (j.data f) (-1))
    | .sims | .covs => if (j.data f).length = 0 then .noneValue else Got.ofOption (Models.pyIndex (j.data f) (-1))

/-! ### Weights -/

/-- The number computed by `add_ESS_estimate`, lines 206-209, for weights in an `(n, 1)` array. -/
noncomputable def essOf (w : List ℝ) : ℝ := 1 / ((w.map fun x => x / w.sum).map fun x => x ^ 2).sum

/-- `np.average(x, weights=w)`: `ValueError` for different lengths, `ZeroDivisionError` if the weights sum to zero. -/
noncomputable def npAverage (x w : List ℝ) : Option ℝ :=
  if x.length ≠ w.length ∨ w.sum = 0 then none else some ((List.zipWith (· * ·) x w).sum / w.sum)

/-- What is left of an array by `squeeze()`: a number, a vector or a matrix. -/
inductive Arr where
  | number (x : ℝ)
  | vector (x : List ℝ)
  | matrix (rows : List (List ℝ))

/-- `np.array(params[keyind]).squeeze()`, line 413, where the parameter has one list of components per particle, all of one length: every
dimension of size one is removed, that of the components as well as that of the particles. -/
noncomputable def squeeze : List (List ℝ) → Arr
  | [[x]] => .number x
  | [v] => .vector v
  | rows => if rows.all fun r => r.length = 1 then .vector (rows.map fun r => r.headD 0) else .matrix rows

/-- `np.average(a, weights=w, axis=0)`, lines 413-414. A number has no axis 0 (`AxisError`, a `ValueError`); a vector or the rows of a
matrix must be as many as the weights. The mean of a vector is given as a list with one entry. -/
noncomputable def averageRows (w : List ℝ) : Arr → Option (List ℝ)
  | .number _ => none
  | .vector x => (npAverage x w).map fun m => [m]
  | .matrix rows => collect ((List.range (rows.headD []).length).map fun j => npAverage (rows.map fun r => r.getD j 0) w)

/-- `posterior_mean`, lines 384-416: `params` and `weights` are the two histories, where `params` has for every name one list of components
per particle. The result lists the components of the mean of every name. -/
noncomputable def posteriorMean (params : List (List (String × List (List ℝ)))) (weights : List (List ℝ)) (iteration : Option Int) :
    Option (List (String × List ℝ)) :=
  let i := iteration.getD ((params.length : Int) - 1)
  match Models.pyIndex params i, Models.pyIndex weights i with
  | some p, some w => collect (p.map fun e => (averageRows w (squeeze e.2)).map fun m => (e.1, m))
  | _, _ => none

/-! ### Bootstrap -/

/-- `dict(pairs)` as the list of its items: a repeated name keeps its first place and its last value. -/
def pyDict {β : Type} (pairs : List (String × β)) : List (String × β) :=
  pairs.foldl (fun d e => if d.any (fun x => x.1 = e.1) then d.map (fun x => if x.1 = e.1 then e else x) else d ++ [e]) []

/-- `add_user_parameters(_get_names_and_parameters())` (graphtools.py 233-250): under the name of each free parameter the list of its values in all
particles, each wrapped in a list of length one. -/
def namedColumns {α : Type} (names : List String) (particles : List (List α)) : List (String × List (List α)) :=
  names.zipIdx.map fun e => (e.1, particles.map fun p => (p.drop e.2).take 1)

/-- What `resample` raises. -/
inductive ResampleError
  | keyError | runtimeError | valueError | indexError
  deriving DecidableEq

structure Resampled (α : Type) where
  particles : List (List α)
  weights : List Nat
  named : List (String × List (List α))

/-- Lines 1102-1111: slices of the particles under the names of the old journal. -/
def renameSlices {α : Type} (boot : List (List α)) : List (String × List (List α)) → Nat → Option (List (String × List (List α)))
  | [], _ => some []
  | (name, col) :: rest, start => match col.head? with
    | none => none
    | some v => match renameSlices boot rest (start + v.length) with
      | none => none
      | some l => some ((name, boot.map fun p => (p.drop start).take v.length) :: l)

/-- `Journal.resample`, lines 1014-1118. `cfgModel`, `cfgN` are the entries of the configuration; `particles`, `weights` and `named` the last stored
ones; `indices` what `rng.choice` returns. `rng.choice` raises if the weights are not one per index. -/
def resample {α : Type} (cfgModel : Bool) (cfgN : Option Nat) (particles : List (List α)) (nWeights : Nat)
    (named : List (String × List (List α))) (nSamples : Option Nat) (replace : Bool) (indices : List Nat) :
    Except ResampleError (Resampled α) :=
  match cfgN with
  | none => .error .keyError
  | some nOld =>
    let n := nSamples.getD nOld
    if n > nOld ∧ replace = false then .error .runtimeError
    else if nWeights ≠ nOld then .error .valueError
    else match collect (indices.map fun i => particles[i]?) with
      | none => .error .indexError
      | some boot =>
        if cfgModel = false then .error .keyError
        else match renameSlices boot named 0 with
          | none => .error .indexError
          | some l => .ok ⟨boot, List.replicate n 1, pyDict l⟩

/-! ### Generating from a journal -/

open Verif.Graph

/-- `GenerateFromJournal._sample_parameter`, lines 1227-1260, in a process whose nodes are in state `s`; `tooLarge` is the test for infinities. The
warning at 1256 uses an attribute that does not exist: `none` is that exception (or that of `set_parameters`, or an index
error). The verdict of `set_parameters` is not looked at. -/
def genOne {α R : Type} (g : G) (chk : (Nat → Option α) → Nat → α → Verdict) (roots : List Nat) (check : Nat → List (Option α) → Bool)
    (sim : Nat → Nat → List (Option α) → R) (discard : Bool) (tooLarge : Option (List R) → Bool) (params : List (List α)) (i : Nat)
    (s : St α) : Option (Option (List R)) :=
  match params[i]? with
  | none => none
  | some p => match setParameters g chk roots p s with
    | (_, .error .raised) => none
    | (s, _) =>
      let y := Models.simulate g check sim s roots 0
      if discard && tooLarge y then none else some y

/-- The data of a particle if the graph has one root. -/
def single {R : Type} : Option (List R) → Option R
  | some [r] => some r
  | _ => none

/-- Lines 1220 and 1223: `simulations` has one entry per particle, a list with the data of every root, and is made an array of shape
`(particles, roots, simulations, dimension)`, which is reshaped to `(particles, simulations, dimension)`. That raises for a particle with `None`
for its data, for particles with different shapes, for another number of roots than one, and if there are no particles. `shape r` is the number of
simulations of a result and their dimension, both taken to be positive. -/
def stack {R : Type} (shape : R → Nat × Nat) (ys : List (Option (List R))) : Option (List R) :=
  match collect (ys.map single) with
  | some (r :: rs) => if rs.all fun r' => shape r' = shape r then some (r :: rs) else none
  | _ => none

/-- `GenerateFromJournal.generate`, lines 1157-1225, for scalar parameters: `state i` is the state of the process that runs task `i` when it starts it,
`sim i` its simulator with its own random generator. Returns parameters, simulations and normalised weights. -/
noncomputable def generate {α R : Type} (g : G) (chk : (Nat → Option α) → Nat → α → Verdict) (roots : List Nat)
    (check : Nat → List (Option α) → Bool) (sim : Nat → Nat → Nat → List (Option α) → R) (shape : R → Nat × Nat) (discard : Bool)
    (tooLarge : Option (List R) → Bool) (journalModel ownModel : List String) (params : List (List α)) (weights : List ℝ)
    (state : Nat → St α) : Option (List (List α) × List R × List ℝ) :=
  if journalModel ≠ ownModel then none
  else match collect ((List.range weights.length).map fun i =>
      genOne g chk roots check (sim i) discard tooLarge params i (state i)) with
    | none => none
    | some ys => (stack shape ys).map fun rs => (params, rs, weights.map fun w => w / weights.sum)

end Verif.Journal
