import Verif.Distance.Model
import Verif.Pmc.Percentile
import Mathlib.Data.List.ProdSigma

/-!
# Utilities for training networks (abcpy/NN_utilities)

Similarity matrices (utilities.py 15-46), data sets of pairs and triplets (datasets.py 38-127), the
training loop (trainer.py 7-64) and the data-loader options (algorithms.py 46-60, 120-136, 192-208).

Networks, losses and optimisers are parameters. An exception, and a loop that does not end within the
given number of rounds, is `none`.
-/

namespace Verif.Nn

open Verif.Distance (Row)
open Verif.Pmc (percentile)
open Classical

/-! ## Similarity matrices -/

/-- `dist2` (utilities.py 15-17). -/
noncomputable def dist2 (x y : Row) : ℝ := ((List.zipWith (· - ·) x y).map fun d => d * d).sum

/-- A square matrix of truth values: its size and its entries. -/
structure Matrix where
  size : Nat
  entry : Nat → Nat → Bool

/-- All pairs of indices. -/
def pairs (n : Nat) : List (Nat × Nat) := List.range n ×ˢ List.range n

/-- `np.sum(similarity_set)`. -/
def Matrix.count (m : Matrix) : Nat := ((pairs m.size).filter fun p => m.entry p.1 p.2).length

/-- `compute_similarity_matrix` (utilities.py 20-46); `target` is a list of rows of one length. -/
noncomputable def similarity (target : List Row) (quantile : ℝ) : Option Matrix :=
  let n := target.length
  let distance := fun i j => dist2 (target.getD i []) (target.getD j [])
  match percentile (((pairs n).filter fun p => p.1 ≠ p.2).map fun p => distance p.1 p.2) (quantile * 100) with
  | none => none
  | some q =>
    let m : Matrix := ⟨n, fun i j => decide (distance i j < q)⟩
    if ((m.count : ℝ) - n) / (n : ℝ) ^ 2 = 0 then none else some m

/-! ## Data sets of pairs and triplets -/

/-- numpy's global random generator with state `W`: `np.random.choice` on a list that is not empty, and
`np.random.uniform`. -/
structure Random (W : Type) where
  choice : List Nat → W → Nat × W
  mem : ∀ l w, l ≠ [] → (choice l w).1 ∈ l
  uniform : W → ℝ × W

/-- `torch.sum(self.similarity_matrix[index])`. -/
def Matrix.rowSum (m : Matrix) (i : Nat) : Nat := ((List.range m.size).filter fun j => m.entry i j).length

/-- `np.where(self.similarity_matrix[index])[0]` and the same for the entries that are false. -/
def Matrix.row (m : Matrix) (i : Nat) (b : Bool) : List Nat := (List.range m.size).filter fun j => m.entry i j == b

/-- The loops 62-63, 73-74, 80-81, 116-118 and 124-125: draw from `l` until the result is not `index`.
`choice` from an empty list raises. -/
def another {W : Type} (R : Random W) (l : List Nat) (index : Nat) : Nat → W → Option (Nat × W)
  | 0, _ => none
  | fuel + 1, w =>
    if l = [] then none
    else
      let r := R.choice l w
      if r.1 = index then another R l index fuel r.2 else some r

/-- The loop 107-113. -/
def newAnchor {W : Type} (R : Random W) (m : Matrix) (index : Nat) : Nat → W → Option (Nat × W)
  | 0, _ => none
  | fuel + 1, w =>
    if m.size = 0 then none
    else
      let r := R.choice (List.range m.size) w
      let anchor := if m.rowSum r.1 < 2 then index else r.1
      if anchor = index then newAnchor R m index fuel r.2 else some (anchor, r.2)

/-- `TripletSimilarities.__getitem__` (datasets.py 100-127), as the indices of anchor, positive and
negative sample. -/
def triplet {W : Type} (R : Random W) (m : Matrix) (fuel index : Nat) (w : W) : Option ((Nat × Nat × Nat) × W) :=
  let start := if m.rowSum index < 2 then newAnchor R m index fuel w else some (index, w)
  start.bind fun a =>
    (another R (m.row a.1 true) a.1 fuel a.2).bind fun p =>
      (another R (m.row a.1 false) a.1 fuel p.2).map fun n => ((a.1, p.1, n.1), n.2)

/-- `SiameseSimilarities.__getitem__` (datasets.py 54-83), as the index of the second sample and the target. -/
noncomputable def pair {W : Type} (R : Random W) (m : Matrix) (positiveWeight : Option ℝ) (fuel index : Nat) (w : W) :
    Option ((Nat × Bool) × W) :=
  match positiveWeight with
  | none => (another R (List.range m.size) index fuel w).map fun r => ((r.1, m.entry index r.1), r.2)
  | some p =>
    if m.rowSum index < 2 then
      (another R (List.range m.size) index fuel w).map fun r => ((r.1, m.entry index r.1), r.2)
    else
      let u := R.uniform w
      if u.1 < p then (another R (m.row index true) index fuel u.2).map fun r => ((r.1, true), r.2)
      else (another R (m.row index false) index fuel u.2).map fun r => ((r.1, false), r.2)

/-! ## The training loop -/

/-- The tensors in memory, by address. The network owns the tensor at address 0. -/
structure Memory (T : Type) where
  cells : List T

/-- `model.state_dict()`: the tensors of the network themselves, not copies. -/
def stateDict : Nat := 0

/-- `model.load_state_dict(d)`: copies the values of the tensors of `d` into those of the network. -/
def Memory.load {T : Type} (mem : Memory T) (d : Nat) : Memory T :=
  match mem.cells[d]? with
  | none => mem
  | some t => ⟨mem.cells.set 0 t⟩

/-- What the training and validation loops do in epoch `e` to the weights of the network: new weights
(written in place) and average losses. -/
structure Epochs (T : Type) where
  train : Nat → T → T × ℝ
  test : Nat → T → ℝ

/-- State of `fit`: memory, both lists of losses, the losses at the checks, the saved dictionary. -/
structure Fit (T : Type) where
  mem : Memory T
  trainLosses : List ℝ
  testLosses : List ℝ
  checked : List ℝ
  saved : Option Nat
  stopped : Option Nat

/-- `early_stopping_loss_list[-1] > early_stopping_loss_list[-2]`, if there are two losses (53-54). -/
noncomputable def exceeds (before : Option ℝ) (v : ℝ) : Bool :=
  match before with
  | none => false
  | some b => decide (v > b)

/-- One round of the loop 34-62 with a validation loader. -/
noncomputable def Fit.epoch {T : Type} (E : Epochs T) (early : Bool) (interval start : Nat) (s : Fit T) (e : Nat) : Fit T :=
  match s.stopped, s.mem.cells with
  | some _, _ => s
  | none, [] => s
  | none, t :: rest =>
    let r := E.train e t
    let v := E.test e r.1
    let s := { s with mem := ⟨r.1 :: rest⟩, trainLosses := s.trainLosses ++ [r.2], testLosses := s.testLosses ++ [v] }
    if early && (e + 1) % interval == 0 then
      let before := s.checked.getLast?
      let s := { s with checked := s.checked ++ [v] }
      if decide (e + 1 ≥ start) && exceeds before v then
        { s with mem := match s.saved with
                  | none => s.mem
                  | some d => s.mem.load d,
                 stopped := some e }
      else { s with saved := some stateDict }
    else s

/-- `fit` (trainer.py 7-64) with a validation loader, from epoch `from_` up to `n`; an interval of zero
raises with early stopping. -/
noncomputable def fit {T : Type} (E : Epochs T) (early : Bool) (interval start from_ n : Nat) (weights : T) : Option (Fit T) :=
  if early && interval == 0 && decide (from_ < n) then none
  else some ((List.range' from_ (n - from_)).foldl (Fit.epoch E early interval start) ⟨⟨[weights]⟩, [], [], [], none, none⟩)

/-! ## Data-loader options -/

/-- The options of a loader that the training functions touch, and one more. -/
inductive Key
  | numWorkers
  | pinMemory
  | dropLast
  deriving DecidableEq

/-- A dictionary of options. -/
abbrev Options := Key → Option Nat

/-- `d.update(e)`. -/
def update (d e : Options) : Options := fun k => match e k with
  | some v => some v
  | none => d k

/-- A call of a training function: whether it runs on a GPU, whether all data are loaded there, and the
dictionary passed as `loader_kwargs`, if any. -/
structure Call where
  cuda : Bool
  loadAll : Bool
  options : Option Options

/-- `loader_kwargs_2` (46-52). -/
def cudaOptions (cuda loadAll : Bool) : Options := fun k =>
  if cuda then
    match k with
    | .numWorkers => some (if loadAll then 0 else 1)
    | .pinMemory => some (if loadAll then 0 else 1)
    | .dropLast => none
  else none

/-- One call (46-60). `default` is the dictionary that is the default value of the parameter
`loader_kwargs`: one object for all calls of the function, changed in place by `update` (54). The
result is the dictionary given to the loaders, the dictionary of the caller afterwards and the default
value afterwards. -/
def train (default : Options) (c : Call) : Options × Option Options × Options :=
  match c.options with
  | none =>
    let d := update default (cudaOptions c.cuda c.loadAll)
    (d, none, d)
  | some o =>
    let d := update o (cudaOptions c.cuda c.loadAll)
    (d, some d, default)

/-- The options used by each call of a program that calls one training function several times. -/
def program : Options → List Call → List Options
  | _, [] => []
  | default, c :: l => (train default c).1 :: program (train default c).2.2 l

end Verif.Nn
