import Verif.Graph.Model
import Mathlib.Data.Real.Basic
import Mathlib.Logic.Function.Basic
/-
Tasks that change the object they run on, and parallel maps of such tasks: `map` of the MPI backend (`abcpy/backends/mpi.py` 423-442, 616-645: every process unpickles its own copy of the mapped function, and
with it of the sampler, once for each call) and of the sequential backend (`abcpy/backends/base.py` 153-175: all tasks use the one sampler). `Verif.Mpi` describes the messages; here a schedule is what is
left of them: which process runs which task, in the order of time.
-/
namespace Verif.Schedule

variable {T S O : Type}

/-- The tasks of a schedule, each run by a process on its own copy of the object; the results carry the positions of the tasks. -/
def execute (run : T → S → S × O) (tasks : Nat → T) : List (Nat × Nat) → (Nat → S) → List (Nat × O)
  | [], _ => []
  | (p, i) :: l, objects =>
    let r := run (tasks i) (objects p)
    (i, r.2) :: execute run tasks l (Function.update objects p r.1)

/-- A map of `n` tasks with the MPI backend: all copies start equal; `collect` orders the results by position (mpi.py 307-331). `none` for a task that did not run. -/
def mapMpi (run : T → S → S × O) (tasks : Nat → T) (n : Nat) (schedule : List (Nat × Nat)) (object : S) : List (Option O) :=
  let results := execute run tasks schedule fun _ => object
  (List.range n).map fun i => (results.find? fun r => r.1 == i).map (·.2)

/-- A map of `n` tasks with the sequential backend: the object is changed by every task. -/
def mapSequential (run : T → S → S × O) (tasks : Nat → T) (n : Nat) (object : S) : S × List O :=
  (List.range n).foldl (fun r i => let q := run (tasks i) r.1; (q.1, r.2 ++ [q.2])) (object, [])

/-! ### The tasks of RejectionABC -/

open Graph

/-- What the task of `RejectionABC` works with. A random generator with seed `k` is a stream of numbers: `prior k` draws from it, `simulate k vals clock` runs the simulator at the values `vals` with the stream
from position `clock` on, and returns the new position and the data (`none` if it refuses). `order` is the order of the free parameters, `dist` the distance to the observations: it may change the distance
object (`D`), and `none` is an exception. -/
structure Setup (α D Y : Type) where
  g : G
  roots : List Nat
  order : List Nat
  prior : Nat → Sim α
  simulate : Nat → (Nat → Option α) → Nat → Nat × Option Y
  dist : D → Y → D × Option ℝ
  distMax : ℝ

variable {α D Y : Type}

/-- Lines 692-707 of inferences.py. `none` is an exception or a loop that does not end with this fuel. -/
noncomputable def rejectLoop (p : Setup α D Y) (eps : ℝ) (seed : Nat) : Nat → Smp α → D → Option (List (Option α)) → ℝ → Nat → Option ((Smp α × D) × List (Option α) × ℝ × Nat)
  | 0, _, _, _, _, _ => none
  | fuel + 1, s, d, θ, x, c =>
    if x > eps then
      match sampleFromPrior p.g (p.prior seed) p.roots fuel s with
      | none => none
      | some s =>
        let y := p.simulate seed s.st.value s.clock
        match y.2 with
        | none => rejectLoop p eps seed fuel { s with clock := y.1 } d (some (p.order.map s.st.value)) p.distMax (c + 1)
        | some y' =>
          match p.dist d y' with
          | (_, none) => none
          | (d, some x) => rejectLoop p eps seed fuel { s with clock := y.1 } d (some (p.order.map s.st.value)) x (c + 1)
    else θ.map fun θ => ((s, d), θ, x, c)

/-- `_sample_parameter`, lines 667-707, with a fresh generator for the seed. If it raises, the object is not used again. -/
noncomputable def rejectTask (p : Setup α D Y) (eps : ℝ) (fuel : Nat) (seed : Nat) (object : Smp α × D) : (Smp α × D) × Option (List (Option α) × ℝ × Nat) :=
  match rejectLoop p eps seed fuel { object.1 with clock := 0 } object.2 none p.distMax 0 with
  | none => (object, none)
  | some r => (r.1, some r.2)

end Verif.Schedule
