import Verif.Statistics.Model

/-!
# Training data for learned statistics

`abcpy/statisticslearning.py` 95-221 (`StatisticsLearning.__init__`, `_sample_parameter_statistics`) and
266-328 (`Semiautomatic`), for a single root model whose data sets all have the same size.

Parallel maps are replaced by maps over the seeds (C17); what happens for one seed is a `Draw`. An
exception is `none`. Checks of types and numbers of axes (161-166, 179-184) are not modelled: provided
arrays are lists of rows.
-/

namespace Verif.Learning

open Verif.Distance (Stats Row)
open Verif.Statistics

/-- What `_sample_parameter_statistics` (212-221) obtains for one seed: the parameters drawn from the
prior (flattened) and the `n_samples_per_param` simulated data sets. -/
structure Draw where
  param : Row
  sims : List Row

/-- `statistics_calc.statistics(y_sim)` (220). `y_sim` is the result of `simulate`, a list with one entry
per model; the entry of the only model is the list of its data sets, and `np.concatenate(data)` followed
by `reshape(len(data), -1)` (statistics.py 216) turns it into a single row. -/
noncomputable def drawStatistics (chain : List Step) (d : Draw) : Option Stats :=
  statistics chain [d.sims.flatten]

/-- `a.reshape(m, -1)` of an array given by its rows. -/
def reshape (m : Nat) (rows : List Row) : Option Stats :=
  if m = 0 ∨ rows.flatten.length % m ≠ 0 then none
  else
    let w := rows.flatten.length / m
    some ⟨w, (List.range m).map fun i => (rows.flatten.drop (i * w)).take w⟩

/-- A pair of arrays with aligned rows: parameters and statistics. -/
structure Pairs where
  params : List Row
  stats : Stats

/-- The training and the validation set; `none` when the attribute is not set at all. -/
structure Sets where
  train : Option Pairs
  val : Option Pairs

/-- `a[i:j]` of a pair of arrays. -/
def Pairs.slice (p : Pairs) (i j : Nat) : Pairs :=
  ⟨(p.params.take j).drop i, ⟨p.stats.width, (p.stats.rows.take j).drop i⟩⟩

/-- `n_samples_to_generate` (108). -/
def toGenerate (n nVal : Nat) (train val : Option (List Row × List Row)) : Nat :=
  (if train = none then n else 0) + (if val = none then nVal else 0)

/-- Lines 118-143: parameters and statistics of all draws, the parameters repeated. -/
noncomputable def generate (chain : List Step) (perParam : Nat) (draws : List Draw) : Option Pairs :=
  match collect (draws.map (drawStatistics chain)) with
  | none => none
  | some l =>
    match reshape (draws.length * perParam) (l.flatMap Stats.rows) with
    | none => none
    | some s => some ⟨draws.flatMap fun d => List.replicate perParam d.param, s⟩

/-- Lines 159-173 and 177-191: provided arrays. -/
noncomputable def provided (chain : List Step) (p : List Row × List Row) : Option Pairs :=
  if p.2.length ≠ p.1.length then none
  else (statistics chain p.2).map fun s => ⟨p.1, s⟩

/-- Lines 108-157: generated sets. Nothing is set when nothing has to be generated. For a single
sample `randint(1, 1)` raises (120). `draw i` is the result for the `i`-th seed. -/
noncomputable def generatedSets (chain : List Step) (n nVal perParam : Nat) (train val : Option (List Row × List Row))
    (draw : Nat → Draw) : Option Sets :=
  let k := toGenerate n nVal train val
  if k = 0 then some ⟨none, none⟩
  else if k = 1 then none
  else
    let c := n * perParam * (if train = none then 1 else 0)
    (generate chain perParam ((List.range k).map draw)).map fun g =>
      ⟨some (g.slice 0 c), some (g.slice c g.stats.rows.length)⟩

/-- `StatisticsLearning.__init__` (95-193). -/
noncomputable def learn (chain : List Step) (n nVal perParam : Nat) (train val : Option (List Row × List Row))
    (draw : Nat → Draw) : Option Sets :=
  match generatedSets chain n nVal perParam train val draw with
  | none => none
  | some g =>
    match train with
    | none => match val with
      | none => some g
      | some v => (provided chain v).map fun q => ⟨g.train, some q⟩
    | some t => match provided chain t with
      | none => none
      | some p => match val with
        | none => some ⟨some p, g.val⟩
        | some v => (provided chain v).map fun q => ⟨some p, some q⟩

/-- `Semiautomatic.__init__` and `get_statistics` (304-328): one linear regression for each parameter;
`regress X y` are the fitted coefficients. The new statistics apply the transposed matrix of the
coefficients after the given ones. -/
noncomputable def semiautomatic (regress : List Row → List ℝ → Row) (chain : List Step) (p : Pairs) (params : Nat) :
    List Step :=
  let coefficients := (List.range params).map fun j => regress p.stats.rows (p.params.map fun r => r.getD j 0)
  chain ++ [⟨.linear p.stats.width coefficients, 1, false, none⟩]

end Verif.Learning
