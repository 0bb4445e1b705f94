import Verif.Graph.Replay
import Verif.Rejection.Model
/-
Model of one trial of `RejectionABC` on a graph with arithmetic expressions: `sample_from_prior`, `get_parameters`, `simulate` (`abcpy/inferences.py` 692-697), with random numbers.
-/
namespace Verif.Expr

open Graph

/-- A graph of models with random numbers of type `U`: the constants, `forward_simulate` of the random variables at given inputs, the arithmetic of the expressions, and the simulators, which get the values of their inputs
and random numbers of their own (`none`: the inputs of one of them are refused, `abcpy/graphtools.py` 409-421). `part u i` are the random numbers that the `i`-th model called from within a call with numbers `u` uses.
Simplifications: a model always returns a value and accepts it; a call has random numbers of its own, not a part of one stream; as each node is simulated once in an attempt (C04), they are named by the node. -/
structure Net (U α Y : Type) where
  g : G
  roots : List Nat
  const : Nat → α
  draw : Nat → List (Option α) → U → α
  arith : Nat → List α → α
  part : U → Nat → U
  simulate : List (List (Option α) × U) → Option Y

variable {U α Y : Type} (N : Net U α Y)

/-- `forward_simulate` of a node (`abcpy/probabilisticmodels.py` 879-918 and 926-967, the same at 973-1240 for the other operations; 804-805 for constants): a random variable is drawn at the stored values of its inputs; an expression draws from its
input models, each of them once, instead of using their stored values. -/
def call (v : Nat) (vals : Nat → Option α) (u : U) : α :=
  match N.g.kind v with
  | .hyper => N.const v
  | .op => N.arith v ((N.g.parents v).attach.map fun p => call p.1 vals (N.part u ((N.g.parents v).idxOf p.1)))
  | _ => N.draw v ((N.g.parents v).map vals) u
termination_by v
decreasing_by exact N.g.lt_of_parent p.2

/-- `_forward_simulate_and_store_output` (`abcpy/probabilisticmodels.py` 516-538) of the nodes with the random numbers `ω`, as used by `sample_from_prior` (`abcpy/graphtools.py` 62). -/
def sims (ω : Nat → U) : Sim α := ⟨fun vals v _ => some (call N v vals (ω v)), fun _ _ _ => true⟩

/-- A graph that was not used yet (`abcpy/probabilisticmodels.py` 275-279 and 759-762: only constants have a value). -/
def start : St α := ⟨fun _ => false, fun _ => false, fun v => if N.g.kind v = .hyper then some (N.const v) else none⟩

/-- `sample_from_prior` (`abcpy/graphtools.py` 9-67) on a graph in state `st`. As no model refuses, the first attempt succeeds. -/
def sampled (st : St α) (ω : Nat → U) : St α := match sampleFromPrior N.g (sims N ω) N.roots 1 ⟨st, 0, []⟩ with
  | some s => s.st
  | none => st

/-- One round of the loop in `_sample_parameter` (inferences.py 694-696), for a worker whose graph is in state `st`, with the random numbers `s k` for the round `k`. -/
def graphTrial (w : St α × (Nat → Nat → U)) : (St α × (Nat → Nat → U)) × List (Option α) × Option Y :=
  let st := sampled N w.1 (w.2 0)
  let r := getParameters N.g N.roots st
  ((r.1, fun k => w.2 (k + 1)), r.2, N.simulate (N.roots.map fun v => ((N.g.parents v).map r.1.value, w.2 0 v)))

/-! ### Specification -/

/-- What the values of the nodes should be: an expression has the value computed from the values of its inputs. -/
def truth (ω : Nat → U) (v : Nat) : α :=
  match N.g.kind v with
  | .hyper => N.const v
  | .op => N.arith v ((N.g.parents v).attach.map fun p => truth ω p.1)
  | _ => N.draw v ((N.g.parents v).attach.map fun p => some (truth ω p.1)) (ω v)
termination_by v
decreasing_by all_goals exact N.g.lt_of_parent p.2

/-- The parameters and the data of a trial, as they should be. -/
def trueParams (ω : Nat → U) : List (Option α) := (order N.g N.roots).map fun v => some (truth N ω v)

def trueData (ω : Nat → U) : Option Y := N.simulate (N.roots.map fun v => ((N.g.parents v).map fun p => some (truth N ω p), ω v))

/-- A parameter that the model uses in expressions only, and whose own inputs are constants. -/
structure Hidden (v : Nat) : Prop where
  free : (N.g.kind v).isFree = true
  inputs : ∀ p ∈ N.g.parents v, N.g.kind p = .hyper
  uses : ∀ w, v ∈ N.g.parents w → N.g.kind w = .op

open Classical in
/-- The entries of a list of parameters that belong to hidden parameters. -/
noncomputable def hiddenPart (θ : List (Option α)) : List (Option α) := (((order N.g N.roots).zip θ).filter fun x => Hidden N x.1).map Prod.snd

/-- A task of `RejectionABC` that starts with an unused graph and the random numbers `s` ends and returns `θ`. -/
def Returns (dist : Y → ℝ) (distMax eps : ℝ) (s : Nat → Nat → U) (θ : List (Option α)) : Prop :=
  ∃ fuel d c w, Rejection.rejectTask (graphTrial N) dist distMax eps fuel (start N, s) = .done (θ, d, c, w)

end Verif.Expr
