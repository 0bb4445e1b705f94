import Verif.Collect
import Verif.Kernel.Model
import Mathlib.Data.Real.Basic
/-
Model of `NetworkRandomWalkKernel` (`abcpy/perturbationkernel.py` 631-770). Nodes of the network are integers. Randomness is modelled by lists of outcomes with their probabilities.
-/
namespace Verif.Network

/-- What the kernel uses of the `networkx` graph: `network.neighbors(u)` as a list, and `network[u][v][name_weight]` (`none`: a `KeyError`). -/
structure Net where
  nbrs : Int → List Int
  weight : Int → Int → Option ℝ

/-- `weight / sum(weight)`, lines 686, 706, 751, 765. -/
noncomputable def normalise (w : List ℝ) : List ℝ := w.map (· / w.sum)

open Classical in
/-- `np.random.choice(nodes, 1, p=weight/sum(weight))[0]`, lines 682-687 and 702-707: the outcomes with their probabilities. `src` is the node whose edges the weights are taken from. `none` is an exception:
a missing edge, an empty list, weights with sum zero or negative probabilities. -/
noncomputable def moves (net : Net) (src v : Int) : Option (List (Int × ℝ)) :=
  match collect ((net.nbrs v).map (net.weight src)) with
  | none => none
  | some w => if w = [] ∨ w.sum = 0 ∨ ∃ p ∈ normalise w, p < 0 then none else some ((net.nbrs v).zip (normalise w))

/-- Independent draws one after the other: the joint outcomes with the products of the probabilities. -/
noncomputable def joint : List (List (Int × ℝ)) → List (List Int × ℝ)
  | [] => [([], 1)]
  | d :: ds => d.flatMap fun p => (joint ds).map fun q => (p.1 :: q.1, p.2 * q.2)

/-- `update` for a kernel whose current values are numbers, lines 673-688: the weights are those of the edges of node 1 (line 685). -/
noncomputable def updateNumbers (net : Net) (values : List Int) : Option (List (List Int × ℝ)) :=
  (collect (values.map (moves net 1))).map joint

/-- `update` for a kernel whose current values are arrays, lines 689-710: the blocks are concatenated, every entry moves, and the result is cut into blocks of the old sizes. -/
noncomputable def updateArrays (net : Net) (blocks : List (List Int)) : Option (List (List (List Int) × ℝ)) :=
  (collect (blocks.flatten.map fun v => moves net v v)).map fun ds => (joint ds).map fun p => (Kernel.splitBlocks (blocks.map List.length) p.1, p.2)

/-- One factor of `pmf`, lines 746-755 and 760-769. `none` is an exception (a missing edge) or not a number (weights with sum zero). -/
noncomputable def factor (net : Net) (v x : Int) : Option ℝ :=
  match collect ((net.nbrs v).map (net.weight v)) with
  | none => none
  | some w =>
    if x ∈ net.nbrs v then
      if w.sum = 0 then none else (normalise w)[(net.nbrs v).idxOf x]?
    else some 0

/-- `pmf` for numbers, lines 741-756: `x` may be longer than `mean`; `none` is an `IndexError` if it is shorter. -/
noncomputable def pmfNumbers (net : Net) : List Int → List Int → Option ℝ
  | [], _ => some 1
  | _ :: _, [] => none
  | v :: mean, x :: xs => match factor net v x, pmfNumbers net mean xs with
    | some a, some b => some (a * b)
    | _, _ => none

/-- An array `x[ind1]` in lines 766-767: of length one it is compared like a number, otherwise `in` raises an exception (simplification: also for nodes without neighbours). -/
def single : List Int → Option Int
  | [v] => some v
  | _ => none

/-- `pmf` for arrays, lines 757-770: `mean` is concatenated, `x` is not. -/
noncomputable def pmfArrays (net : Net) (mean x : List (List Int)) : Option ℝ :=
  match collect ((x.take mean.flatten.length).map single) with
  | none => none
  | some xs => pmfNumbers net mean.flatten xs

end Verif.Network
