import Verif.Learning.Props
import Verif.Embedding.Model
import Verif.Transform.Scaler

/-!
# What a network is trained on, and what it sees later

`abcpy/statisticslearning.py` 458-536 (`StatisticsLearningNN.__init__` after the data have been made, `get_statistics`) and 1316-1352, 1460-1477
(`ExponentialFamilyScoreMatching`). The training routine is any function of the data it is given; it returns a network. Devices, data types of tensors and the choice of
the network (486-499, 1364-1396) are left out.
-/

namespace Verif.Learning

open Verif.Distance (Stats Row)
open Verif.Statistics
open Verif.Embedding (Scaler Net Neural Class discard)

/-- `MinMaxScaler().fit(a)`, then `transform`: an exception for an array without rows or columns, and for data with another number of columns. -/
noncomputable def minMax (a : Stats) : Option Scaler :=
  match a.rows with
  | [] => none
  | first :: rest =>
    if a.width = 0 then none
    else some fun s => if s.width ≠ a.width then none else some ⟨s.width, s.rows.map fun x => List.zipWith Transform.scale (Transform.fit 0 1 first rest) x⟩

/-- `BoundedVarScaler(lower, upper, rescale_transformed_vars=rescale).fit(a)` (transformers.py 283-310), then `transform` (312-336). -/
noncomputable def boundedScaler (f32 : ℝ → ℝ) (bs : List Transform.Bound) (rescale : Bool) (a : Stats) : Option Scaler :=
  match collect (a.rows.map fun x => (Transform.rowTransform f32 bs none x).toOption) with
  | none => none
  | some ts =>
    let with_ (sc : Option (List (ℝ × ℝ))) : Scaler := fun s =>
      (collect (s.rows.map fun x => (Transform.rowTransform f32 bs sc x).toOption)).map fun rows => ⟨s.width, rows⟩
    if rescale then match ts with
      | [] => none
      | first :: rest => some (with_ (some (Transform.fit 0 1 first rest)))
    else some (with_ none)

/-- The data handed to the training routine. -/
structure Job where
  sims : Stats
  target : Stats
  val : Option (Stats × Stats)

/-- Lines 459 and 1317: the validation set, if there is one and it is not empty. -/
def validation (sets : Sets) : Option Pairs :=
  match sets.val with
  | none => none
  | some p => if p.params.length > 0 then some p else none

/-- A two-dimensional array of parameters. -/
def table (rows : List Row) : Stats := ⟨(rows.headD []).length, rows⟩

/-- Lines 479-484 and 1327-1352: fit on the training set, apply to both sets. No `fit`: the arrays are left as they are. -/
def scaleBoth (fit : Option (Stats → Option Scaler)) (train : Stats) (val : Option Stats) : Option (Option Scaler × Stats × Option Stats) :=
  match fit with
  | none => some (none, train, val)
  | some fit => match fit train with
    | none => none
    | some f => match f train with
      | none => none
      | some t => match val with
        | none => some (some f, t, none)
        | some v => (f v).map fun v => (some f, t, some v)

/-- Lines 458-484 (`fitParams := none`) and 1316-1352. An exception if there is no training set. -/
def prepare (fit fitParams : Option (Stats → Option Scaler)) (sets : Sets) : Option (Option Scaler × Job) :=
  match sets.train with
  | none => none
  | some p =>
    let v := validation sets
    match scaleBoth fit p.stats (v.map (·.stats)) with
    | none => none
    | some (sc, s, sv) => match scaleBoth fitParams (table p.params) (v.map fun q => table q.params) with
      | none => none
      | some (_, t, tv) => some (sc, ⟨s, t, match sv, tv with
        | some a, some b => some (a, b)
        | _, _ => none⟩)

/-- `StatisticsLearningNN`: lines 458-536. `train` is the training routine with the network it starts from. -/
noncomputable def learnNN (scaleSamples : Bool) (train : Job → Net) (chain : List Step) (sets : Sets) : Option (Job × Neural) :=
  (prepare (if scaleSamples then some minMax else none) none sets).map fun r =>
    let net := train r.2
    (r.2, ⟨⟨net.cls, net.state, net.mode, r.1⟩, 1, false, none, chain⟩)

/-- `ExponentialFamilyScoreMatching`: lines 1316-1477, with `get_statistics(rescale_statistics=rescale)`. `bounds` is none if neither bounds nor `scale_samples` are given; otherwise one pair
of bounds (possibly none) for each variable. -/
noncomputable def learnScore (f32 : ℝ → ℝ) (bounds : Option (List Transform.Bound)) (scaleSamples scaleParameters rescale : Bool) (train : Job → Net) (chain : List Step) (sets : Sets) :
    Option (Job × Neural) :=
  match prepare (bounds.map fun bs => boundedScaler f32 bs scaleSamples) (if scaleParameters then some minMax else none) sets with
  | none => none
  | some r =>
    let net := train r.2
    let wrapped : Net := ⟨discard net.cls, net.state.map fun e => (.attr "net" :: e.1, e.2), net.mode, r.1⟩
    let reference := match validation sets with
      | some q => q.stats.rows
      | none => match sets.train with
        | some p => p.stats.rows
        | none => []
    (Embedding.scoreStatistics wrapped rescale reference chain).map fun e => (r.2, e)

end Verif.Learning
