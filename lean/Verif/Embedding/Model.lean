import Verif.Statistics.Model
import Mathlib.Analysis.SpecialFunctions.Log.Basic

/-!
# Statistics computed by a neural network, saved to and read from files

`abcpy/statistics.py` 345-563 (`NeuralEmbedding`), `abcpy/NN_utilities/networks.py` 46-156 and 189-234
(`ScalerAndNet`, `DiscardLastOutputNet`, the two default networks), `abcpy/NN_utilities/utilities.py` 49-58
(`save_net`, `load_net`).

Numbers are reals: the conversion to 32-bit floats (statistics.py 541, networks.py 58) is left out, and so are
devices (GPU or CPU). Data of more than two dimensions are left out.
-/

namespace Verif.Embedding

open Verif.Distance (Stats Row)
open Verif.Statistics

/-! ## Networks -/

/-- A tensor of weights: a matrix (with its number of columns) or a vector. -/
inductive Tensor
  | matrix (width : Nat) (rows : List Row)
  | vector (v : Row)

/-- `tensor.shape`. -/
def Tensor.shape : Tensor → List Nat
  | .matrix w rows => [rows.length, w]
  | .vector v => [v.length]

/-- A part of a name: an attribute or an index of a list of modules. -/
inductive Part
  | attr (s : String)
  | index (i : Nat)
deriving DecidableEq

/-- The name of an entry of a state dictionary, split at the dots: `fc_hidden.0.weight` is
`[attr "fc_hidden", index 0, attr "weight"]`. -/
abbrev Name := List Part

/-- `net.state_dict()`: names and tensors, in the order in which the entries were registered. -/
abbrev Dict := List (Name × Tensor)

/-- The entry with a given name. -/
def Dict.get (d : Dict) (k : Name) : Option Tensor := (d.find? fun e => e.1 = k).map Prod.snd

/-- `net.train()` or `net.eval()`. In training mode a network may draw random numbers (dropout) or change its
own buffers (batch normalisation): its `call`-th evaluation may be any function of `call`. -/
inductive Mode
  | train
  | eval

/-- A network class with its arguments fixed, so that `network_class()` makes a network: names and shapes of the
parameters and buffers, and what the network does to an array. `none` is an exception. In evaluation mode the
number of the call is not available to the network. -/
structure Class where
  entries : List (Name × List Nat)
  evaluate : Dict → Stats → Option Stats
  training : Nat → Dict → Stats → Option Stats

/-- `load_state_dict(d)` into a network of the class (strict): every parameter is in `d` with its shape, and `d`
has no other names; otherwise `RuntimeError`. -/
def Class.load (c : Class) (d : Dict) : Option Dict :=
  if d.all fun e => decide (e.1 ∈ c.entries.map Prod.fst) then
    collect (c.entries.map fun e => match d.get e.1 with
      | none => none
      | some t => if t.shape = e.2 then some (e.1, t) else none)
  else none

/-- `nn.Linear`: the layer `name` with the weights of `d`. -/
def linear (d : Dict) (name : Name) (s : Stats) : Option Stats :=
  match d.get (name ++ [.attr "weight"]), d.get (name ++ [.attr "bias"]) with
  | some (.matrix w rows), some (.vector b) =>
    if s.width ≠ w then none
    else some ⟨rows.length, s.rows.map fun x => List.zipWith (· + ·) (rows.map fun r => (List.zipWith (· * ·) x r).sum) b⟩
  | _, _ => none

/-- A function of one number applied to every component. -/
def onAll (f : ℝ → ℝ) (s : Stats) : Stats := ⟨s.width, s.rows.map fun r => r.map f⟩

/-- The sizes of the hidden layers when they are not given (networks.py 115-117 and 200-202). -/
def defaultHidden (input output : Nat) : List Nat := [input * 3 / 2, (input * 3 + output * 12) / 4, output * 5]

/-- The two entries of a layer `nn.Linear(m, n)`. -/
def layerEntries (name : Name) (m n : Nat) : List (Name × List Nat) :=
  [(name ++ [.attr "weight"], [n, m]), (name ++ [.attr "bias"], [n])]

/-- The layers `fc_hidden.i`, from the `i`-th on, for the sizes `m :: hs`. -/
def hiddenEntries : Nat → Nat → List Nat → List (Name × List Nat)
  | _, _, [] => []
  | i, m, n :: hs => layerEntries [.attr "fc_hidden", .index i] m n ++ hiddenEntries (i + 1) n hs

/-- The entries of the default networks (networks.py 108-128, 195-217) without batch normalisation. -/
def defaultEntries (input output : Nat) (hidden : List Nat) : List (Name × List Nat) :=
  match hidden with
  | [] => layerEntries [.attr "fc_in"] input output
  | h :: hs => layerEntries [.attr "fc_in"] input h ++ hiddenEntries 0 h hs ++ layerEntries [.attr "fc_out"] ((h :: hs).getLast (by simp)) output

/-- The loop over the hidden layers (networks.py 146-147, 228-230). -/
def hiddenLoop (act : ℝ → ℝ) (d : Dict) (n : Nat) (s : Stats) : Option Stats :=
  (List.range n).foldlM (fun s i => (linear d [.attr "fc_hidden", .index i] s).map (onAll act)) s

/-- `forward` of both default networks (networks.py 134-154, 219-234) without batch normalisation: linear if there
are no hidden layers. -/
def defaultForward (act : ℝ → ℝ) (hidden : List Nat) (d : Dict) (s : Stats) : Option Stats :=
  match hidden with
  | [] => linear d [.attr "fc_in"] s
  | _ :: hs =>
    (((linear d [.attr "fc_in"] s).map (onAll act)).bind (hiddenLoop act d hs.length)).bind (linear d [.attr "fc_out"])

/-- `createDefaultNN` and `createDefaultNNWithDerivatives` (networks.py 80-156, 159-234): same parameters, a
nonlinearity. These networks do not depend on the mode. -/
def defaultNet (act : ℝ → ℝ) (input output : Nat) (hidden : Option (List Nat)) : Class :=
  let hs := hidden.getD (defaultHidden input output)
  ⟨defaultEntries input output hs, defaultForward act hs, fun _ => defaultForward act hs⟩

/-- `F.relu`, the default of `createDefaultNN` (networks.py 136-137). -/
noncomputable def relu (x : ℝ) : ℝ := max x 0

/-- `torch.nn.Softplus`, the default of `ExponentialFamilyScoreMatching` (statisticslearning.py 1378). -/
noncomputable def softplus (x : ℝ) : ℝ := Real.log (1 + Real.exp x)

/-- `x[:, 0:-1]` (networks.py 74-75). -/
def dropLast (s : Stats) : Stats := ⟨s.width - 1, s.rows.map List.dropLast⟩

/-- The entries of the network inside of a wrapper, in the dictionary of the wrapper. -/
def unwrap (d : Dict) : Dict := d.filterMap fun e => match e.1 with
  | .attr "net" :: k => some (k, e.2)
  | _ => none

/-- `DiscardLastOutputNet` (networks.py 62-77): its parameters are those of the attribute `net`. -/
def discard (c : Class) : Class :=
  ⟨c.entries.map fun e => (.attr "net" :: e.1, e.2), fun d s => (c.evaluate (unwrap d) s).map dropLast,
    fun n d s => (c.training n (unwrap d) s).map dropLast⟩

/-- A fitted scaler: `scaler.transform`. -/
abbrev Scaler := Stats → Option Stats

/-- A network: the class, the parameters, the mode; `scaler` is set for `ScalerAndNet` (networks.py 46-59), which
transforms the data first. -/
structure Net where
  cls : Class
  state : Dict
  mode : Mode
  scaler : Option Scaler

/-- The `call`-th evaluation of a network. -/
def Net.apply (net : Net) (call : Nat) (s : Stats) : Option Stats :=
  (match net.scaler with
    | none => some s
    | some f => f s).bind fun s => match net.mode with
      | .eval => net.cls.evaluate net.state s
      | .train => net.cls.training call net.state s

/-! ## The statistics -/

/-- An object `NeuralEmbedding`; `previous` are the objects of the chain of `previous_statistics`. -/
structure Neural where
  net : Net
  degree : Nat
  cross : Bool
  std : Option (List ℝ)
  previous : List Step

/-- `statistics(data)` (statistics.py 525-563), when the network is called for the `call`-th time. -/
noncomputable def Neural.statistics (e : Neural) (call : Nat) (data : List (List ℝ)) : Option Stats :=
  (Statistics.statistics e.previous data).bind fun s =>
    (e.net.apply call s).bind fun s => rescale e.std (expand e.degree e.cross s)

/-- `NeuralEmbedding(net, degree, cross, reference_simulations, previous_statistics)` (statistics.py 354-397 and
62-69). The network is called for the reference simulations first. -/
noncomputable def Neural.new (net : Net) (degree : Nat) (cross : Bool) (reference : Option (List (List ℝ)))
    (previous : List Step) : Option Neural :=
  match reference with
  | none => some ⟨net, degree, cross, none, previous⟩
  | some sims =>
    (Neural.statistics ⟨net, degree, cross, none, previous⟩ 0 sims).bind fun s =>
      if s.rows = [] then none else some ⟨net, degree, cross, some (Verif.Statistics.std s), previous⟩

/-- `ExponentialFamilyScoreMatching.get_statistics` (statisticslearning.py 1428-1477): `samples` are the statistics
`previous` of the reference simulations; the chain is set after the standard deviations have been computed. -/
noncomputable def scoreStatistics (net : Net) (rescale : Bool) (samples : List Row) (previous : List Step) : Option Neural :=
  if rescale then (Neural.new net 1 false (some samples) []).map fun e => ⟨e.net, e.degree, e.cross, e.std, previous⟩
  else Neural.new net 1 false none previous

/-- The mode of the network after one epoch of `fit` (trainer.py 33-61, 71, 109): `train_epoch`, then `test_epoch` if
there is a validation set. The early stop comes after the latter. -/
def fitEpoch (validation : Bool) : Mode → Mode := fun _ => if validation then .eval else .train

/-- The mode after `fit` with the given number of epochs, at most one of which is cut short. -/
def fitMode (validation : Bool) (epochs : Nat) (start : Mode) : Mode :=
  (List.range epochs).foldl (fun m _ => fitEpoch validation m) start

/-- The mode after `ExponentialFamilyScoreMatching._train` (statisticslearning.py 1640-1641, 1703-1704, 1745-1746). -/
def scoreMode (validation : Bool) (epochs : Nat) (start : Mode) : Mode :=
  let _ := fitMode validation epochs start
  .eval

/-! ## Files -/

/-- The content of a file. `broken` is what an interrupted write leaves. -/
inductive Content
  | dict (d : Dict)
  | scaler (f : Scaler)
  | broken

/-- The files, by path. -/
abbrev Files := String → Option Content

def Files.write (fs : Files) (p : String) (c : Content) : Files := fun q => if q = p then some c else fs q

/-- Kinds of exceptions: `RuntimeError`, and others (a missing file, a file that cannot be unpickled or is not a
dictionary, a scaler or a network that raises). -/
inductive Err
  | runtime
  | other
deriving DecidableEq

/-- `NeuralEmbedding.save_net` (statistics.py 493-523) with `save_net` of utilities.py 49-51: the contents of the
files after every step; the last one is the result. -/
def Neural.save (e : Neural) (path : String) (pathScaler : Option String) (fs : Files) : Except Err (List Files) :=
  match e.net.scaler, pathScaler with
  | none, _ =>
    let fs1 := fs.write path .broken
    .ok [fs1, fs1.write path (.dict e.net.state)]
  | some _, none => .error .runtime
  | some f, some p =>
    let fs1 := fs.write path .broken
    let fs2 := fs1.write path (.dict e.net.state)
    let fs3 := fs2.write p .broken
    .ok [fs1, fs2, fs3, fs3.write p (.scaler f)]

/-- `load_net` (utilities.py 54-58). -/
def loadNet (fs : Files) (path : String) (c : Class) : Except Err Net :=
  match fs path with
  | some (.dict d) => match c.load d with
    | some state => .ok ⟨c, state, .eval, none⟩
    | none => .error .runtime
  | _ => .error .other

/-- The arguments of `fromFile` that describe the network. -/
structure Spec where
  cls : Option Class
  input : Option Nat
  output : Option Nat
  hidden : Option (List Nat)

/-- The checks and the choice of the class (statistics.py 459-472). -/
noncomputable def Spec.choose : Spec → Except Err Class
  | ⟨none, some i, some o, hidden⟩ => .ok (defaultNet relu i o hidden)
  | ⟨none, _, _, _⟩ => .error .runtime
  | ⟨some c, none, none, none⟩ => .ok c
  | ⟨some _, _, _, _⟩ => .error .runtime

/-- `try: ... except RuntimeError: ...` (statistics.py 477-480). -/
def retry {α : Type} (first second : Except Err α) : Except Err α :=
  match first with
  | .error .runtime => second
  | .error .other => .error .other
  | .ok a => .ok a

/-- Lines 482-486: the scaler. -/
def addScaler (fs : Files) (pathScaler : Option String) (n : Net) : Except Err Net :=
  match pathScaler with
  | none => .ok n
  | some p => match fs p with
    | some (.scaler f) => .ok ⟨n.cls, n.state, n.mode, some f⟩
    | _ => .error .other

/-- The network of `fromFile` (statistics.py 474-487): with and without the wrapper; then the scaler. -/
def loadEither (fs : Files) (path : String) (pathScaler : Option String) (c : Class) : Except Err Net :=
  (retry (loadNet fs path c) (loadNet fs path (discard c))).bind (addScaler fs pathScaler)

/-- `NeuralEmbedding.fromFile` (statistics.py 399-491). -/
noncomputable def fromFile (fs : Files) (path : String) (spec : Spec) (pathScaler : Option String) (degree : Nat)
    (cross : Bool) (reference : Option (List (List ℝ))) (previous : List Step) : Except Err Neural :=
  match spec.choose with
  | .error e => .error e
  | .ok c => match loadEither fs path pathScaler c with
    | .error e => .error e
    | .ok net => match Neural.new net degree cross reference previous with
      | none => .error .other
      | some e => .ok e

end Verif.Embedding
