import Verif.Journal.Model
import Mathlib.Data.List.Sort
import Mathlib.Order.Basic
import Mathlib.Order.Defs.LinearOrder
/-
Model of `DrawFromPrior` and `RejectionABC` (`abcpy/inferences.py` 154-707).
A worker process is a state of an arbitrary type `W` (its copy of the graph and its random generator); sampling and simulating are
arbitrary functions on it. Distances are elements of a linear order, so a distance is never NaN.
-/
namespace Verif.Rejection

/-! ### DrawFromPrior -/

/-- Lines 217-223 (and 260-269): the loop over chunks. `draw` is the method `_sample`, which changes the state of the sampler. `fuel` bounds the number of rounds,
`none` means that it is used up; the list of results has one entry for each round. -/
def chunkLoop {S R : Type} (draw : Nat → S → S × R) (chunk : Nat) : Nat → Int → S → Option (S × List R)
  | 0, _, _ => none
  | fuel + 1, left, s =>
    if left > 0 then
      let r := draw (min left chunk).toNat s
      match chunkLoop draw chunk fuel (left - chunk) r.1 with
      | none => none
      | some (s', l) => some (s', r.2 :: l)
    else some (s, [])

/-- `DrawFromPrior.sample`, lines 217-226: the parameters and weights put in the journal. -/
def priorSample {S Θ : Type} (draw : Nat → S → S × List Θ) (chunk n fuel : Nat) (s : S) : Option (List Θ × List Nat) :=
  match chunkLoop draw chunk fuel n s with
  | none => none
  | some (_, l) => some (l.flatten, List.replicate n 1)

/-- What `sample_par_sim_pairs` does. -/
inductive Pairs (Θ Y : Type)
  | running
  | valueError
  | ok (params : List Θ) (sims : List Y)

/-- `DrawFromPrior.sample_par_sim_pairs`, lines 260-272. `np.concatenate` refuses an empty list of arrays. -/
def priorPairs {S Θ Y : Type} (draw : Nat → S → S × List (Θ × Y)) (chunk n fuel : Nat) (s : S) : Pairs Θ Y :=
  match chunkLoop draw chunk fuel n s with
  | none => .running
  | some (_, []) => .valueError
  | some (_, l) => .ok (l.map (·.map Prod.fst)).flatten (l.map (·.map Prod.snd)).flatten

/-- Lines 368-371 on the sorted seeds: an entry equal to the next one is increased by one. All comparisons use the values before. -/
def bump : List Nat → List Nat
  | [] => []
  | [a] => [a]
  | a :: b :: l => (if a = b then a + 1 else a) :: bump (b :: l)

/-- The seeds of the workers, lines 365-371, for the array `seeds` drawn by the random generator. -/
def workerSeeds (seeds : List Nat) : List Nat := bump (seeds.insertionSort (· ≤ ·))

/-! ### RejectionABC -/

/-- The checks of lines 515-524; `true` if no exception is raised. -/
def argsOk {N D Q : Type} (nSamples budget : Option N) (epsilon : Option D) (quantile : Option Q) : Bool :=
  if nSamples.isNone = budget.isNone then false
  else if nSamples.isSome && quantile.isSome then false
  else if nSamples.isSome && epsilon.isNone then false
  else if budget.isSome && (quantile.isNone == epsilon.isNone) then false
  else true

/-- The call of `sample` (472-473): outer `none` is an omitted argument; defaults are 100 for `n_samples` and `None` for the others. -/
def callOk {D Q : Type} (nSamples budget : Option (Option Nat)) (epsilon : Option (Option D)) (quantile : Option (Option Q)) : Bool :=
  argsOk (nSamples.getD (some 100)) (budget.getD none) (epsilon.getD none) (quantile.getD none)

/-- How a worker's task ends. -/
inductive Task (A : Type)
  | running
  | unbound
  | done (a : A)

/-- The result of a task, if there is one. -/
def Task.result {A : Type} : Task A → Option A
  | .done a => some a
  | _ => none

/-- Lines 692-703: `trial` draws parameters from the prior and simulates (`none` if the simulator refuses). Returns the last parameters, the
distance, the number of trials and the state; `none` if `fuel` trials do not suffice. -/
def rejectLoop {W Θ Y D : Type} [LinearOrder D] (trial : W → W × Θ × Option Y) (dist : Y → D) (distMax eps : D) :
    Nat → W → Option Θ → D → Nat → Task (Θ × D × Nat × W)
  | 0, _, _, _, _ => .running
  | fuel + 1, w, θ, d, c =>
    if d > eps then
      let r := trial w
      rejectLoop trial dist distMax eps fuel r.1 (some r.2.1) (r.2.2.elim distMax dist) (c + 1)
    else match θ with
      | none => .unbound
      | some θ => .done (θ, d, c, w)

/-- `_sample_parameter`, lines 667-707. -/
def rejectTask {W Θ Y D : Type} [LinearOrder D] (trial : W → W × Θ × Option Y) (dist : Y → D) (distMax eps : D) (fuel : Nat) (w : W) :
    Task (Θ × D × Nat × W) :=
  rejectLoop trial dist distMax eps fuel w none distMax 0

/-- What a round of `RejectionABC` gives. -/
structure Round (Θ D : Type) where
  params : List Θ
  distances : List D
  weights : List Nat
  counter : Nat

/-- `_sample_n_samples_epsilon`, lines 566-603: `start` lists the states in which the workers find themselves at the start of the tasks. `none`: a
task does not end or raises. `randint(1, n * n, dtype=np.int32)` (580) raises unless `1 < n * n ≤ 2 ^ 31`. -/
def rejectRound {W Θ Y D : Type} [LinearOrder D] (trial : W → W × Θ × Option Y) (dist : Y → D) (distMax eps : D) (fuel : Nat)
    (counter : Nat) (start : List W) : Option (Round Θ D) :=
  if 1 < start.length * start.length ∧ start.length * start.length ≤ 2 ^ 31 then
    match collect (start.map fun w => (rejectTask trial dist distMax eps fuel w).result) with
    | none => none
    | some l => some ⟨l.map (·.1), l.map (·.2.1), List.replicate start.length 1, counter + (l.map (·.2.2.1)).sum⟩
  else none

/-- What is cleaned: particles, distances and named columns of the journal. -/
structure Kept (Θ V D : Type) where
  params : List Θ
  distances : List D
  weights : List Nat
  named : List (String × List V)
  config : List String

/-- The entries selected by a mask (`a[mask]`). -/
def select {A : Type} (mask : List Bool) (l : List A) : List A := ((l.zip mask).filter (·.2)).map (·.1)

/-- `_journal_cleanup`, lines 605-665; `cutoff` is the threshold or the quantile of the distances; `none` is the `RuntimeError`. -/
def cleanup {Θ V D : Type} [LinearOrder D] (params : List Θ) (distances : List D) (named : List (String × List V)) (cutoff : D) :
    Option (Kept Θ V D) :=
  let mask := distances.map fun d => decide (d < cutoff)
  let n := mask.count true
  if n = 0 then none
  else some ⟨select mask params, select mask distances, List.replicate n 1, named.map fun e => (e.1, select mask e.2),
    ["n_samples", "n_samples_per_param", "epsilon"]⟩

end Verif.Rejection
