import Verif.Statistics.Model

/-!
# Model selection with random forests (abcpy/modelselections.py 91-258)

The classifier and the regression forest (scikit-learn) are not modelled: the result of a call is what
the classifier is trained on. Model objects are compared with `==`, which for objects of these classes is
identity (no class defines `__eq__`), so an object is its address.

A data set is a list of rows: `y_sim[0].tolist()` (255) of a vector is a list of numbers, and
`statistics` makes one row out of each number. An exception is `none`.
-/

namespace Verif.Selection

open Verif.Distance (Stats Row)
open Verif.Statistics

/-- What the selector is created with, and its environment. `models` are the addresses of the model objects;
`hot seed` is the draw of `rng.multinomial(1, ...)` (250); `attempt seed i k` is the `k`-th call of
`forward_simulate` for the model of index `i` with parameters drawn from its prior (251-254), `none` when
the simulator refuses. `transfer j a` is the address of the `j`-th collected object whose address on the
worker is `a`: the same address in one process, a new object when results travel between processes. -/
structure Setup where
  models : List Nat
  chain : List Step
  hot : Nat → List Nat
  attempt : Nat → Nat → Nat → Option (List Row)
  transfer : Nat → Nat → Nat

/-- `int(sum(np.linspace(0, k - 1, k) * rng.multinomial(1, ...)))` (249-250). -/
def drawn (k : Nat) (hot : List Nat) : Nat := (List.zipWith (· * ·) (List.range k) hot).sum

/-- The loop 252-254, with at most `fuel` further attempts. -/
def simulate (attempt : Nat → Option (List Row)) : Nat → Nat → Option (List Row)
  | 0, _ => none
  | fuel + 1, k => match attempt k with
    | some y => some y
    | none => simulate attempt fuel (k + 1)

/-- A row of the reference table: model object, data, statistics. -/
structure Entry where
  model : Nat
  data : List Row
  stats : Stats

/-- `_simulate_model_data` (231-258). -/
noncomputable def simulateModelData (S : Setup) (fuel seed : Nat) : Option Entry :=
  let i := drawn S.models.length (S.hot seed)
  match S.models[i]? with
  | none => none
  | some m => (simulate (S.attempt seed i) fuel 0).bind fun y => (statistics S.chain y).map fun s => ⟨m, y, s⟩

/-- Lines 148-157 and 193-202: the reference table. `randint(1, 1)` raises for one sample, unpacking
`zip(*[])` for none; `np.concatenate` raises for different widths. -/
noncomputable def makeTable (S : Setup) (fuel : Nat) (seeds : List Nat) : Option (List Entry) :=
  if seeds.length < 2 then none
  else
    match collect (seeds.map (simulateModelData S fuel)) with
    | none => none
    | some l =>
      if (l.all fun e => l.all fun e' => e.stats.width == e'.stats.width) then
        some (l.zipIdx.map fun p => { p.1 with model := S.transfer p.2 p.1.model })
      else none

/-- The label of one entry (160-164): the loop leaves the last index whose model equals the entry's, or zero. -/
def label (models : List Nat) (m : Nat) : Nat :=
  (List.range models.length).foldl (fun l i => if models[i]? = some m then i else l) 0

/-- One call of `select_model` (126-173) or `posterior_probability` (175-229) up to training the classifier:
the table is made when there is none yet; `seeds n` are the seeds drawn for `n` samples. The result is the
new table and the training set, the rows of statistics with their labels; `fit` raises when their numbers
differ. -/
noncomputable def call (S : Setup) (fuel : Nat) (seeds : Nat → List Nat) (table : Option (List Entry)) (n : Nat) :
    Option (List Entry × List (Row × Nat)) :=
  let t := match table with
    | some t => some t
    | none => makeTable S fuel (seeds n)
  t.bind fun t =>
    let rows := t.flatMap fun e => e.stats.rows
    let labels := t.map fun e => label S.models e.model
    if rows.length = labels.length then some (t, rows.zip labels) else none

/-- Several calls on one selector, each with its number of samples: the training sets. -/
noncomputable def calls (S : Setup) (fuel : Nat) (seeds : Nat → List Nat) : Option (List Entry) → List Nat → Option (List (List (Row × Nat)))
  | _, [] => some []
  | table, n :: ns => (call S fuel seeds table n).bind fun r => (calls S fuel seeds (some r.1) ns).map fun l => r.2 :: l

end Verif.Selection
