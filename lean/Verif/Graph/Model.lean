/-
Model of the model graph and of the traversals in `abcpy/graphtools.py`,
`abcpy/acceptedparametersmanager.py` and the node operations of
`abcpy/probabilisticmodels.py` they call.

Simplifications (all definitions below):
* Python objects are numbered by construction order, so the inputs of a node have smaller numbers
  (`InputConnector` objects can only be built from already existing models, probabilisticmodels.py 248-279).
* numeric arrays are elements of an arbitrary type `α`; `np.array(...).reshape(-1,)` is the identity.
* `_check_output` is an arbitrary function of the stored values; raising is a third outcome.
-/
namespace Verif.Graph

/-- The classes a traversal distinguishes by `isinstance`: `ModelResultingFromOperation`
(probabilisticmodels.py 815), `Hyperparameter` (744), and every other `ProbabilisticModel`;
the latter are split in continuous and discrete because `pdf` of a discrete model does not
store `calculated_pdf` (discretemodels.py 87-104 stores `calculated_pmf` instead). -/
inductive Kind | cont | disc | op | hyper
  deriving DecidableEq, Repr

/-- A model graph: kind and input models (`get_input_models`, probabilisticmodels.py 316-326, one entry per
input component, so repetitions are allowed) of every node. -/
structure G where
  kind : Nat → Kind
  parents : Nat → List Nat
  lt_of_parent : ∀ {v p}, p ∈ parents v → p < v
  hyper_leaf : ∀ {v}, kind v = .hyper → parents v = []

/-- Mutable attributes of all nodes: `visited`, `calculated_pdf` (only whether it is set, see `Pdf`)
and `_fixed_values` (probabilisticmodels.py 275-279). -/
structure St (α : Type) where
  visited : Nat → Bool
  memo : Nat → Bool
  value : Nat → Option α

/-- A free random variable: neither a hyperparameter nor an arithmetic node
(the `isinstance` tests of graphtools.py 145, 214, 279, 323). -/
def Kind.isFree : Kind → Bool
  | .cont | .disc => true
  | .op | .hyper => false

/-- `for p in l: s = f(p, s)` where the body may use that `p` is an element of `l`
(needed for termination only). -/
def forMem {σ : Type} : (l : List Nat) → ((p : Nat) → p ∈ l → σ → σ) → σ → σ
  | [], _, s => s
  | p :: l, f, s => forMem l (fun q h => f q (List.mem_cons_of_mem _ h)) (f p List.mem_cons_self s)

/-- The same loop with early exit (Python `return` from inside the loop, or an exception). -/
def forMemE {σ ε : Type} : (l : List Nat) → ((p : Nat) → p ∈ l → σ → Except ε σ) → σ → Except ε σ
  | [], _, s => .ok s
  | p :: l, f, s =>
    match f p List.mem_cons_self s with
    | .error e => .error e
    | .ok s => forMemE l (fun q h => f q (List.mem_cons_of_mem _ h)) s

def mark {α} (s : St α) (v : Nat) : St α :=
  { s with visited := fun y => y == v || s.visited y }

def store {α} (s : St α) (v : Nat) (x : α) : St α :=
  { s with value := fun y => if y = v then some x else s.value y }

def setMemo {α} (s : St α) (v : Nat) : St α :=
  { s with memo := fun y => y == v || s.memo y }

def clear {α} (s : St α) (v : Nat) : St α :=
  { s with visited := fun y => !(y == v) && s.visited y, memo := fun y => !(y == v) && s.memo y }

variable {α : Type} (g : G)

/-! ### `_reset_flags`, graphtools.py 69-88 -/

/-- The recursive call `_reset_flags([v])`. -/
def resetNode (v : Nat) (s : St α) : St α :=
  clear (forMem (g.parents v) (fun p _ s => resetNode p s) s) v
termination_by v
decreasing_by exact g.lt_of_parent (by assumption)

/-- `_reset_flags()` on the roots. -/
def resetFlags (roots : List Nat) (s : St α) : St α :=
  forMem roots (fun r _ s => resetNode g r s) s

/-! ### `get_parameters`, graphtools.py 252-293 -/

/-- The recursive call `get_parameters([v], is_root=False)`; the second component is the returned list.
`None` is returned by Python for a node without a stored value, hence `Option`. -/
def getNode (v : Nat) (s : St α) : St α × List (Option α) :=
  let s0 : St α × List (Option α) :=
    if (g.kind v).isFree then (mark s v, [s.value v]) else (s, [])
  forMem (g.parents v) (fun p _ (s, out) =>
    if s.visited p then (s, out)
    else let (s', o) := getNode p s; (mark s' p, out ++ o)) s0
termination_by v
decreasing_by exact g.lt_of_parent (by assumption)

/-- The body of the loop for one root (nothing is read at a root, the root is not marked). -/
def getRoot (r : Nat) (s : St α) (out : List (Option α)) : St α × List (Option α) :=
  forMem (g.parents r) (fun p _ (s, out) =>
    if s.visited p then (s, out)
    else let (s', o) := getNode g p s; (mark s' p, out ++ o)) (s, out)

/-- `get_parameters()`. -/
def getParameters (roots : List Nat) (s : St α) : St α × List (Option α) :=
  let (s, out) := forMem roots (fun r _ (s, out) => getRoot g r s out) (s, [])
  (resetFlags g roots s, out)

/-! ### `set_parameters`, graphtools.py 295-346, and `set_output_values`, probabilisticmodels.py 365-388 -/

/-- Outcome of `_check_output` or of the checks before it (`IndexError` for a wrong dimension). -/
inductive Verdict | accept | reject | raise
  deriving DecidableEq, Repr

/-- How `set_parameters` ends when it does not succeed: the returned `[False, index]` or an exception. -/
inductive SetFail | rejected (index : Nat) | raised
  deriving DecidableEq, Repr

/-- The recursive call `set_parameters(ps, [v], idx, is_root=False)`. `chk vals v x` is the outcome of
`model.set_output_values(x)` when the stored values are `vals`. `ps[idx]` raises `IndexError` past the end. -/
def setNode (chk : (Nat → Option α) → Nat → α → Verdict) (ps : List α) (v : Nat) (s : St α) (idx : Nat) :
    Except (SetFail × St α) (St α × Nat) :=
  let first : Except (SetFail × St α) (St α × Nat) :=
    if g.kind v = .op then .ok (s, idx)
    else match ps[idx]? with
      | none => .error (.raised, s)
      | some x => match chk s.value v x with
        | .raise => .error (.raised, s)
        | .reject => .error (.rejected idx, s)
        | .accept => .ok (mark (store s v x) v, idx + 1)
  match first with
  | .error e => .error e
  | .ok s0 =>
    match forMemE (g.parents v) (fun p _ (s, idx) =>
      if s.visited p || g.kind p = .hyper then .ok (s, idx)
      else setNode chk ps p s idx) s0 with
    | .error e => .error e
    | .ok (s, idx) => .ok (mark s v, idx)
termination_by v
decreasing_by exact g.lt_of_parent (by assumption)

/-- The body of the loop for one root. -/
def setRoot (chk : (Nat → Option α) → Nat → α → Verdict) (ps : List α) (r : Nat) (s : St α) (idx : Nat) :
    Except (SetFail × St α) (St α × Nat) :=
  match forMemE (g.parents r) (fun p _ (s, idx) =>
      if s.visited p || g.kind p = .hyper then .ok (s, idx)
      else setNode g chk ps p s idx) (s, idx) with
  | .error e => .error e
  | .ok (s, idx) => .ok (mark s r, idx)

/-- `set_parameters(ps)`: the flags are reset on success and on rejection (graphtools.py 337-344), but not
when an exception leaves the function. `Except.ok k` is `[True, k]`. -/
def setParameters (chk : (Nat → Option α) → Nat → α → Verdict) (roots : List Nat) (ps : List α) (s : St α) :
    St α × Except SetFail Nat :=
  match forMemE (ε := SetFail × St α) roots (fun r _ ((s, idx) : St α × Nat) => setRoot g chk ps r s idx) (s, 0) with
  | .ok (s, idx) => (resetFlags g roots s, .ok idx)
  | .error (.rejected i, s) => (resetFlags g roots s, .error (.rejected i))
  | .error (.raised, s) => (s, .error .raised)

/-! ### `_get_mapping`, graphtools.py 189-231 -/

/-- The recursive call `_get_mapping([v], idx, is_not_root=True)`: returns the mapping and the next index. -/
def mapNode (v : Nat) (s : St α) (idx : Nat) : St α × List (Nat × Nat) × Nat :=
  let s0 : St α × List (Nat × Nat) × Nat :=
    if !s.visited v && (g.kind v).isFree then (s, [(v, idx)], idx + 1) else (s, [], idx)
  let (s, m, idx) := forMem (g.parents v) (fun p _ (s, m, idx) =>
    let (s', m', idx') := mapNode p s idx
    (mark s' p, m ++ m', idx')) s0
  (mark s v, m, idx)
termination_by v
decreasing_by exact g.lt_of_parent (by assumption)

/-- The body of the loop for one root. -/
def mapRoot (r : Nat) (s : St α) (m : List (Nat × Nat)) (idx : Nat) : St α × List (Nat × Nat) × Nat :=
  let (s, m, idx) := forMem (g.parents r) (fun p _ (s, m, idx) =>
    let (s', m', idx') := mapNode g p s idx
    (mark s' p, m ++ m', idx')) (s, m, idx)
  (mark s r, m, idx)

/-- `_get_mapping()`. -/
def getMapping (roots : List Nat) (s : St α) : St α × List (Nat × Nat) × Nat :=
  let (s, m, idx) := forMem roots (fun r _ (s, m, idx) => mapRoot g r s m idx) (s, [], 0)
  (resetFlags g roots s, m, idx)

/-! ### `AcceptedParametersManager.get_mapping` and `_reset_flags`,
acceptedparametersmanager.py 81-123 and 156-172 -/

/-- The recursive call `get_mapping([v], is_root=False, idx)`. -/
def mmapNode (v : Nat) (s : St α) (idx : Nat) : St α × List (Nat × Nat) × Nat :=
  if s.visited v || g.kind v = .hyper then (s, [], idx)
  else
    let s := mark s v
    let s0 : St α × List (Nat × Nat) × Nat :=
      if g.kind v = .op then (s, [], idx) else (s, [(v, idx)], idx + 1)
    forMem (g.parents v) (fun p _ (s, m, idx) =>
      let (s', m', idx') := mmapNode p s idx
      (s', m ++ m', idx')) s0
termination_by v
decreasing_by exact g.lt_of_parent (by assumption)

/-- The body of the loop for one root. -/
def mmapRoot (r : Nat) (s : St α) (m : List (Nat × Nat)) (idx : Nat) : St α × List (Nat × Nat) × Nat :=
  if s.visited r || g.kind r = .hyper then (s, m, idx)
  else
    forMem (g.parents r) (fun p _ (s, m, idx) =>
      let (s', m', idx') := mmapNode g p s idx
      (s', m ++ m', idx')) (mark s r, m, idx)

/-- The recursive call `_reset_flags([v])` of the manager: only visited inputs are entered,
`calculated_pdf` is not touched. -/
def mresetNode (v : Nat) (s : St α) : St α :=
  let s := forMem (g.parents v) (fun p _ s => if s.visited p then mresetNode p s else s) s
  { s with visited := fun y => !(y == v) && s.visited y }
termination_by v
decreasing_by exact g.lt_of_parent (by assumption)

/-- `_reset_flags()` of the manager. -/
def mresetFlags (roots : List Nat) (s : St α) : St α :=
  forMem roots (fun r _ s => mresetNode g r s) s

/-- `get_mapping(self.model)`. -/
def mgetMapping (roots : List Nat) (s : St α) : St α × List (Nat × Nat) × Nat :=
  let (s, m, idx) := forMem roots (fun r _ (s, m, idx) => mmapRoot g r s m idx) (s, [], 0)
  (mresetFlags g roots s, m, idx)

/-- `get_accepted_parameters_bds_values(models)`, acceptedparametersmanager.py 125-154: for every requested
model and every mapping entry of that model append the column. `row[index]` raising `IndexError`
(a row shorter than the mapping) is `none`. -/
def acceptedValues (roots : List Nat) (s : St α) (models : List Nat) (rows : List (List α)) :
    St α × List (List (Option α)) :=
  let (s, m, _) := mgetMapping g roots s
  (s, rows.map fun row => models.flatMap fun v =>
    (m.filter fun e => e.1 == v).map fun e => row[e.2]?)

/-! ### `get_correct_ordering`, graphtools.py 348-394 -/

/-- `for m, p in pairs: if m == v: append all of p; break`. -/
def firstParams (pairs : List (Nat × List α)) (v : Nat) : List α :=
  match pairs with
  | [] => []
  | (m, p) :: rest => if m = v then p else firstParams rest v

/-- The call `get_correct_ordering(pairs, [v], is_root=False)`. -/
def ordNode (pairs : List (Nat × List α)) (v : Nat) (s : St α) : St α × List α :=
  if s.visited v then (s, [])
  else
    forMem (g.parents v) (fun p _ (s, out) =>
      if s.visited p then (s, out)
      else let (s', o) := ordNode pairs p s; (s', out ++ o)) (mark s v, firstParams pairs v)
termination_by v
decreasing_by exact g.lt_of_parent (by assumption)

/-- `get_correct_ordering(pairs)`; the loop body is the same at the root. -/
def correctOrdering (roots : List Nat) (pairs : List (Nat × List α)) (s : St α) : St α × List α :=
  let (s, out) := forMem roots (fun r _ (s, out) =>
    let (s', o) := ordNode g pairs r s; (s', out ++ o)) (s, [])
  (resetFlags g roots s, out)

/-! ### `sample_from_prior`, graphtools.py 9-67, and `_forward_simulate_and_store_output`,
probabilisticmodels.py 516-538 and 756-758 -/

/-- State during prior sampling: node state, number of draws so far (position in the random stream) and
the log of the nodes on which `_forward_simulate_and_store_output` was called with their success. -/
structure Smp (α : Type) where
  st : St α
  clock : Nat
  log : List (Nat × Bool)

/-- Parameters of a draw: `sim vals v t` is the result of `_check_input` and `forward_simulate` at stored values
`vals` and random-stream position `t` (`none`: input check failed or no result); `okOut` is `_check_output`. -/
structure Sim (α : Type) where
  sim : (Nat → Option α) → Nat → Nat → Option α
  okOut : (Nat → Option α) → Nat → α → Bool

/-- `_forward_simulate_and_store_output`. The return value of `set_output_values` is ignored by Python (line 535):
a draw outside the declared support is not stored but still reported as success.
For a hyperparameter: mark and succeed (probabilisticmodels.py 756-758). -/
def drawNode (sm : Sim α) (v : Nat) (s : Smp α) : Smp α × Bool :=
  if g.kind v = .hyper then ({ s with st := mark s.st v, log := s.log ++ [(v, true)] }, true)
  else match sm.sim s.st.value v s.clock with
    | none => ({ s with clock := s.clock + 1, log := s.log ++ [(v, false)] }, false)
    | some x =>
      ({ st := if sm.okOut s.st.value v x then store s.st v x else s.st,
         clock := s.clock + 1, log := s.log ++ [(v, true)] }, true)

/-- The recursive call `_sample_from_prior([v], is_not_root=True)`; `Except.error` is the return value `False`. -/
def sampleNode (sm : Sim α) (v : Nat) (s : Smp α) : Except (Smp α) (Smp α) :=
  match forMemE (g.parents v) (fun p _ s =>
      if s.st.visited p then .ok s
      else sampleNode sm p { s with st := mark s.st p }) s with
  | .error s => .error s
  | .ok s =>
    match drawNode g sm v s with
    | (s, false) => .error s
    | (s, true) => .ok { s with st := mark s.st v }
termination_by v
decreasing_by exact g.lt_of_parent (by assumption)

/-- The body of the loop for one root (roots are not simulated). -/
def sampleRoot (sm : Sim α) (r : Nat) (s : Smp α) : Except (Smp α) (Smp α) :=
  match forMemE (g.parents r) (fun p _ s =>
      if s.st.visited p then .ok s
      else sampleNode g sm p { s with st := mark s.st p }) s with
  | .error s => .error s
  | .ok s => .ok { s with st := mark s.st r }

/-- One attempt `_sample_from_prior(roots)`. -/
def sampleAttempt (sm : Sim α) (roots : List Nat) (s : Smp α) : Except (Smp α) (Smp α) :=
  forMemE roots (fun r _ s => sampleRoot g sm r s) s

/-- `sample_from_prior`: retry until an attempt succeeds (graphtools.py 24-28). The loop need not terminate, so
at most `n` attempts are made; `none` means that all of them failed. The log is cleared at the start of an
attempt only so that the theorems can talk about one attempt; it has no counterpart in Python. -/
def sampleFromPrior (sm : Sim α) (roots : List Nat) : Nat → Smp α → Option (Smp α)
  | 0, _ => none
  | n + 1, s =>
    match sampleAttempt g sm roots { s with log := [] } with
    | .ok s => some { s with st := resetFlags g roots s.st }
    | .error s => sampleFromPrior sm roots n { s with st := resetFlags g roots s.st }

/-! ### `pdf_of_prior`, graphtools.py 90-187 -/

/-- Index of the first mapping entry of `v` (the `for ... break` loop, graphtools.py 149-155). -/
def mapIndex (m : List (Nat × Nat)) (v : Nat) : Option Nat :=
  match m with
  | [] => none
  | (w, i) :: rest => if w = v then some i else mapIndex rest v

/-- The recursive call `_recursion_pdf_of_prior([v], is_root=False)`. `dens vals v x` is `model.pdf(inputs, x)` where
`x = none` stands for the empty parameter array handed to nodes that have no mapping entry.
`pdf` of a continuous model stores `calculated_pdf` (continuousmodels.py 117), of a discrete model it does not;
arithmetic nodes and hyperparameters return 1 and store nothing (probabilisticmodels.py 807-812, 859-877).
The de-duplication at lines 164-173 compares a connector with a model, is never true, and is left out. -/
def pdfNode {M : Type} [Mul M] [One M] (dens : (Nat → Option α) → Nat → Option α → M) (m : List (Nat × Nat)) (ps : List α) (v : Nat)
    (s : St α) : St α × M :=
  let (s, r) := forMem (g.parents v) (fun p _ (s, r) =>
    let (s', d) := pdfNode dens m ps p s
    (s', r * d)) (s, (1 : M))
  if s.memo v then (s, r * 1)
  else match g.kind v with
    | .op | .hyper => (s, r * 1)
    | .cont => (setMemo s v, r * dens s.value v ((mapIndex m v).bind fun i => ps[i]?))
    | .disc => (s, r * dens s.value v ((mapIndex m v).bind fun i => ps[i]?))
termination_by v
decreasing_by exact g.lt_of_parent (by assumption)

/-- The factor of one root. -/
def pdfRoot {M : Type} [Mul M] [One M] (dens : (Nat → Option α) → Nat → Option α → M) (m : List (Nat × Nat))
    (ps : List α) (r : Nat) (s : St α) : St α × M :=
  forMem (g.parents r) (fun p _ (s, r) =>
    let (s', d) := pdfNode g dens m ps p s
    (s', r * d)) (s, (1 : M))

/-- `pdf_of_prior(self.model, ps)`: `set_parameters(ps)` (its result is ignored; an exception is not), then the
mapping, then the recursion over the roots. `none`: an exception was raised. -/
def pdfOfPrior {M : Type} [Mul M] [One M] (chk : (Nat → Option α) → Nat → α → Verdict)
    (dens : (Nat → Option α) → Nat → Option α → M) (roots : List Nat)
    (ps : List α) (s : St α) : St α × Option M :=
  match setParameters g chk roots ps s with
  | (s, .error .raised) => (s, none)
  | (s, _) =>
    let (s, m, _) := getMapping g roots s
    let (s, r) := forMem roots (fun r _ (s, acc) =>
      let (s', d) := pdfRoot g dens m ps r s
      (s', acc * d)) (s, (1 : M))
    (s, some r)

end Verif.Graph
