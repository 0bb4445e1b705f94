import Verif.Deriv.Train
import Verif.Nn.Model
/-
Training of `ExponentialFamilyScoreMatching` (`abcpy/statisticslearning.py` 1540-1751): batch normalisation of the embedding of the parameters (`abcpy/NN_utilities/networks.py` 80-160), and early stopping.
-/
namespace Verif.Deriv

/-! ### Batch normalisation -/

/-- Whether the default network of the parameters normalises its output, networks.py 131-132, 141-151: the layer is made if `batch_norm_last_layer`, but a network without hidden layers returns before it. -/
def normalises (hidden : Option (List Nat)) (batchNorm : Bool) : Bool :=
  match hidden with
  | some [] => false
  | _ => batchNorm

/-- Mean of a column of `n` rows. -/
noncomputable def colMean (n : Nat) (x : Batch) (k : Nat) : ℝ := (∑ b ∈ Finset.range n, x b k) / n

/-- Mean of the squared deviations of a column. -/
noncomputable def colVar (n : Nat) (x : Batch) (k : Nat) : ℝ := (∑ b ∈ Finset.range n, (x b k - colMean n x k) ^ 2) / n

/-- The running mean and variance of the layer. -/
structure Running where
  mean : Nat → ℝ
  var : Nat → ℝ

/-- `BatchNorm1d(affine=False)` in training mode on `n` rows: normalisation with the statistics of the batch, and an update of the running ones (with the unbiased variance). `none`: PyTorch raises for a single row. -/
noncomputable def bnTrain (eps momentum : ℝ) (n : Nat) (x : Batch) (r : Running) : Option (Batch × Running) :=
  if n = 1 then none
  else some (fun b k => (x b k - colMean n x k) / Real.sqrt (colVar n x k + eps),
    ⟨fun k => (1 - momentum) * r.mean k + momentum * colMean n x k, fun k => (1 - momentum) * r.var k + momentum * (colVar n x k * (n / (n - 1)))⟩)

/-- The layer in evaluation mode. -/
noncomputable def bnEval (eps : ℝ) (r : Running) (x : Batch) : Batch := fun b k => (x b k - r.mean k) / Real.sqrt (r.var k + eps)

/-- The output of the default network of the parameters in training mode, networks.py 134-151; `x` is the output of its last linear layer. -/
noncomputable def embed (hidden : Option (List Nat)) (batchNorm : Bool) (eps momentum : ℝ) (n : Nat) (x : Batch) (r : Running) : Option (Batch × Running) :=
  if normalises hidden batchNorm then bnTrain eps momentum n x r else some (x, r)

/-! ### Epochs with a layer that raises -/

/-- A step that raises for a batch of one sample if the network of the parameters normalises (1656-1682). After an exception (`none`) nothing happens. -/
noncomputable def guarded {T A : Type} (norm : Bool) (step : T → List A → T × ℝ) (t : Option T) (b : List A) : Option T × ℝ :=
  match t with
  | none => (none, 0)
  | some t => if norm && b.length == 1 then (none, 0) else let r := step t b; (some r.1, r.2)

/-- The epochs 1637-1686 for the permutations that are drawn; outer `none`: the loops do not end with this fuel; inner `none`: an exception. -/
noncomputable def epochs {T A : Type} (norm : Bool) (step : T → List A → T × ℝ) (batchSize fuel : Nat) : List (List A) → Option T → Option (Option T)
  | [], t => some t
  | indices :: l, t => match epoch (guarded norm step) batchSize fuel indices t with
    | none => none
    | some (t, _) => epochs norm step batchSize fuel l t

/-! ### Early stopping -/

open Verif.Nn (Epochs Memory stateDict)

/-- `l[-j]`; `none` is an `IndexError`. -/
def fromEnd (l : List ℝ) (j : Nat) : Option ℝ := if j ≤ l.length then l[l.length - j]? else none

/-- State of `_train` with a validation set: the two networks (one tensor in memory), the validation losses, the saved dictionaries, the epoch of the stop. -/
structure Train (T : Type) where
  mem : Memory T
  losses : List ℝ
  saved : Option Nat
  stopped : Option Nat

/-- One epoch of `_train` with early stopping, 1637-1737. `none` is an exception. -/
noncomputable def Train.epoch {T : Type} (E : Epochs T) (interval before : Nat) (s : Train T) (e : Nat) : Option (Train T) :=
  match s.stopped, s.mem.cells with
  | some _, _ => some s
  | none, [] => some s
  | none, t :: rest =>
    let r := E.train e t
    let v := E.test e r.1
    let s := { s with mem := ⟨r.1 :: rest⟩, losses := s.losses ++ [v] }
    if interval = 0 then none
    else if (e + 1) % interval = 0 then
      match s.saved with
      | some d =>
        if e + 1 > before then
          match fromEnd s.losses 1, fromEnd s.losses (1 + interval) with
          | some a, some b => if a > b then some { s with mem := s.mem.load d, stopped := some e } else some { s with saved := some stateDict }
          | _, _ => none
        else some { s with saved := some stateDict }
      | none => some { s with saved := some stateDict }
    else some s

/-- `_train` from epoch `from_` up to `n`. -/
noncomputable def train {T : Type} (E : Epochs T) (interval before from_ n : Nat) (weights : T) : Option (Train T) :=
  (List.range' from_ (n - from_)).foldl (fun s e => s.bind fun s => s.epoch E interval before e) (some ⟨⟨[weights]⟩, [], none, none⟩)

end Verif.Deriv
