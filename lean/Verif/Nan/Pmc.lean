import Verif.Nan.Percentile
import Verif.Pmc.Model
/-
`PMCABC` with distances that may be NaN or infinite: C192 for `PMCABC`. The worker, the prior, the kernel, the choice of particles and the weights are those of `Verif.Pmc`; distances and thresholds are numbers of
floating-point arithmetic.
-/
namespace Verif.Nan

open Pmc (Env Pop)

variable {W Θ Y : Type}

/-- `np.max([a, b])`: NaN if one of them is. -/
noncomputable def maxN : Num → Num → Num
  | .nan, _ => .nan
  | _, .nan => .nan
  | .num x, .num y => .num (max x y)
  | .inf, _ => .inf
  | _, .inf => .inf
  | .negInf, b => b
  | a, .negInf => a

open Classical in
/-- The loop of `_resample_parameter`, inferences.py 998-1020, as `Pmc.resampleLoop`. -/
noncomputable def resampleLoop (env : Env W Θ Y) (dist : Y → Num) (eps : Num) (pop : Option (Pop Θ)) : Nat → W → Θ → Num → Nat → Option (Θ × Num × Nat)
  | 0, _, _, _, _ => none
  | fuel + 1, w, θ, d, c =>
    if d.gt eps then
      match pop with
      | none =>
        let q := env.prior w
        let r := env.sim q.2 q.1
        resampleLoop env dist eps pop fuel r.1 q.2 (dist r.2) (c + 1)
      | some p =>
        let i := env.choose p.weights w
        match Pmc.proposeLoop env p i.2 fuel i.1 with
        | none => none
        | some (w, θ) =>
          let r := env.sim θ w
          resampleLoop env dist eps pop fuel r.1 θ (dist r.2) (c + 1)
    else some (θ, d, c)

/-- `_resample_parameter`, inferences.py 967-1026: it starts with the parameters that the model holds and the maximal distance. `none`: it does not end with this fuel. -/
noncomputable def resampleTask (env : Env W Θ Y) (dist : Y → Num) (distMax eps : Num) (pop : Option (Pop Θ)) (fuel : Nat) (w : W) : Option (Θ × Num × Nat) :=
  resampleLoop env dist eps pop fuel w (env.held w) distMax 0

/-- One population of the run; `counts` are the numbers of simulations of the tasks. -/
structure Rec (Θ : Type) where
  eps : Num
  params : List Θ
  distances : List Num
  counts : List Nat
  weights : List ℝ

structure State (Θ : Type) where
  epsArr : List (Option Num)
  pop : Option (Pop Θ)
  hist : List (Rec Θ)

/-- The threshold of the next step, inferences.py 902-907. -/
noncomputable def nextEps (steps t : Nat) (pct : ℝ) (distances : List Num) (epsArr : List (Option Num)) : Option (List (Option Num)) :=
  if t + 1 < steps then
    match percentile distances pct, epsArr[t + 1]? with
    | some q, some none => some (epsArr.set (t + 1) (some q))
    | some q, some (some e) => some (epsArr.set (t + 1) (some (maxN q e)))
    | _, _ => none
  else some epsArr

/-- Iteration `t`, inferences.py 875-941, as `Pmc.pmcStep`. -/
noncomputable def pmcStep (env : Env W Θ Y) (dist : Y → Num) (distMax : Num) (steps : Nat) (pct : ℝ) (fuel t : Nat) (start : List W) (s : State Θ) : Option (State Θ) :=
  match s.epsArr[t]? with
  | some (some eps) =>
    if s.pop.all fun p => p.weights.length = start.length ∧ p.params.length = start.length then
      match collect (start.map (resampleTask env dist distMax eps s.pop fuel)) with
      | none => none
      | some res =>
        let params := res.map (·.1)
        let distances := res.map (·.2.1)
        match nextEps steps t pct distances s.epsArr with
        | none => none
        | some epsArr =>
          let weights := Pmc.normalise (params.map (Pmc.rawWeight env start.length s.pop))
          some ⟨epsArr, some ⟨params, weights⟩, s.hist ++ [⟨eps, params, distances, res.map (·.2.2), weights⟩]⟩
    else none
  | _ => none

/-- The loop of inferences.py 847-963, iterations `t` to `t + k - 1`. -/
noncomputable def pmcLoop (env : Env W Θ Y) (dist : Y → Num) (distMax : Num) (steps : Nat) (pct : ℝ) (fuel : Nat) (start : Nat → List W) : Nat → Nat → State Θ → Option (State Θ)
  | 0, _, s => some s
  | k + 1, t, s => match pmcStep env dist distMax steps pct fuel t (start t) s with
    | none => none
    | some s => pmcLoop env dist distMax steps pct fuel start k (t + 1) s

/-- `PMCABC.sample` without a journal file, inferences.py 810-965, as `Pmc.pmcRun`: the populations of the run. -/
noncomputable def pmcRun (env : Env W Θ Y) (dist : Y → Num) (distMax : Num) (steps : Nat) (epsInit : List ℝ) (pct : ℝ) (fuel : Nat) (start : Nat → List W) (before : Option (Pop Θ)) : Option (List (Rec Θ)) :=
  match Pmc.initEps epsInit steps with
  | none => none
  | some arr => (pmcLoop env dist distMax steps pct fuel start steps 0 ⟨arr.map (·.map .num), before, []⟩).map (·.hist)

end Verif.Nan
