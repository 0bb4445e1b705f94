import Verif.Smc.Model
import Mathlib.Data.List.Sort
/-
Model of `ABCsubsim` (`abcpy/inferences.py` 2034-2443). Workers are as in `Verif.Smc`.
-/
namespace Verif.Subsim

open Verif.Pmc (Pop)
open Verif.Smc (propose)

/-- What the sampler works with. As in `Verif.Smc.Env`; `M` are covariance matrices. `kernel covs a b` is the density of proposing `b` from `a` with these matrices, one for each kernel, and
`perturb covs a` proposes. `cov` are the matrices that the kernels compute from a population (2231), `scale k` multiplies a matrix by `2 ^ (-2 k)` (2405). -/
structure Env (W Θ Y M : Type) where
  dist : Y → ℝ
  pdf : Θ → ℝ
  kernel : List M → Θ → Θ → ℝ
  prior : W → W × Θ
  perturb : List M → Θ → W → W × Option Θ
  sim : Θ → W → W × Y
  bern : ℝ → W → W × Bool
  cov : Pop Θ → List M
  scale : Nat → M → M

variable {W Θ Y M : Type}

/-- The acceptance probability, lines 2361-2370 and 2427-2434. -/
noncomputable def prob (env : Env W Θ Y M) (covs : List M) (anneal : ℝ) (θ θ' : Θ) (d : ℝ) : ℝ :=
  min 1 (env.pdf θ' / env.pdf θ * (env.kernel covs θ' θ / env.kernel covs θ θ')) * (if d < anneal then 1 else 0)

/-- The loop of lines 2352-2380: `θ` and `d` are the current value and distance; all proposals are perturbations of `base`. Returns the values and the distances of the rest of the
chain. -/
noncomputable def chain (env : Env W Θ Y M) (fuel : Nat) (covs : List M) (anneal : ℝ) (base : Θ) : Nat → W → Θ → ℝ → Option (List Θ × List ℝ)
  | 0, _, _, _ => some ([], [])
  | k + 1, w, θ, d =>
    match propose env.pdf (env.perturb covs base) fuel w with
    | none => none
    | some (w, θ') =>
      let b := env.sim θ' w
      let d' := env.dist b.2
      let u := env.bern (prob env covs anneal θ θ' d') b.1
      if u.2 then (chain env fuel covs anneal base k u.1 θ' d').map fun r => (θ' :: r.1, d' :: r.2)
      else (chain env fuel covs anneal base k u.1 θ d).map fun r => (θ :: r.1, d :: r.2)

/-- `_accept_parameter`, lines 2307-2381, for worker number `i` in a step after the first: `pop` are the accepted parameters; `base` are the values that `perturb` starts from (`kernel_parameters_bds`, see
`update` of the kernels, perturbationkernel.py 302, 432, 563), which are set in the first step only (2230). Before the chain starts the particle gets
a new data set (2346-2351). -/
noncomputable def accept (env : Env W Θ Y M) (fuel length : Nat) (covs : List M) (anneal : ℝ) (base pop : List Θ) (i : Nat) (w : W) : Option (List Θ × List ℝ) :=
  (pop[i]?).bind fun θ => (base[i]?).bind fun θ0 =>
    let b := env.sim θ w
    let d := env.dist b.2
    (chain env fuel covs anneal θ0 (length - 1) b.1 θ d).map fun r => (θ :: r.1, d :: r.2)

/-- `_accept_parameter` in the first step, lines 2338-2343. -/
def first (env : Env W Θ Y M) (w : W) : List Θ × List ℝ :=
  let a := env.prior w
  ([a.2], [env.dist (env.sim a.2 a.1).2])

/-- The loop of `_update_cov_mat`, lines 2415-2437: the number of accepted proposals. -/
noncomputable def trials (env : Env W Θ Y M) (fuel : Nat) (covs : List M) (anneal : ℝ) (base : Θ) : Nat → W → Θ → Option Nat
  | 0, _, _ => some 0
  | k + 1, w, θ =>
    match propose env.pdf (env.perturb covs base) fuel w with
    | none => none
    | some (w, θ') =>
      let b := env.sim θ' w
      let u := env.bern (prob env covs anneal θ θ' (env.dist b.2)) b.1
      if u.2 then (trials env fuel covs anneal base k u.1 θ').map (· + 1) else trials env fuel covs anneal base k u.1 θ

/-- `_update_cov_mat`, lines 2383-2443, for worker number `i`: the matrices that are proposed, and whether the number of accepted proposals is between three and five tenths of ten. The proposals are made
with the matrices that have been broadcast, not with the proposed ones. -/
noncomputable def tune (env : Env W Θ Y M) (fuel length : Nat) (covs : List M) (anneal : ℝ) (base pop : List Θ) (i : Nat) (w : W) : Option (List M × Bool) :=
  (pop[0]?).bind fun θ => (base[0]?).bind fun θ0 =>
    (trials env fuel covs anneal θ0 length w θ).map fun (k : Nat) => (covs.map (env.scale i), decide ((k : ℝ) / 10 ≤ 5 / 10 ∧ 3 / 10 ≤ (k : ℝ) / 10))

structure Config where
  n : Nat
  steps : Nat
  length : Nat
  cutoff : ℝ
  full : Bool

/-- A population in the journal, with the covariance matrices and the number of simulations. -/
structure Rec (Θ M : Type) where
  params : List Θ
  distances : List ℝ
  weights : List ℝ
  covs : List M
  counter : Nat

/-- `hist` are the populations of all steps with the annealing parameters computed from them, `base` the values from which proposals are made. -/
structure State (Θ M : Type) where
  hist : List (Rec Θ M × ℝ)
  journal : List (Rec Θ M)
  base : List Θ
  stopped : Bool

/-- Lines 2208-2210. -/
noncomputable def sorted (params : List Θ) (distances : List ℝ) : List (ℝ × Θ) := (distances.zip params).insertionSort fun a b => a.1 ≤ b.1

/-- Iteration `t`, lines 2162-2282; `start` and `tuneStart` list the states in which the workers start their tasks in the two maps. `none`: an exception, or a loop that does not end with this fuel.
In the first step the matrices are computed from the new population; later the list of matrices is repeated (2233 multiplies a list by 2). Of ten proposals for the matrices the first acceptable one is
taken (2252-2255). While they are computed the accepted parameters are those of the previous step (2182), but those of this step in the first step (2224).
An annealing parameter of zero (division by zero in 2274) is not modelled. -/
noncomputable def step (env : Env W Θ Y M) (c : Config) (fuel t : Nat) (start tuneStart : List W) (s : State Θ M) : Option (State Θ M) :=
  if start.length ≠ (if t = 0 then c.n else c.n / c.length) ∨ start = [] ∨ c.length = 0 ∨ tuneStart.length ≠ 10 then none
  else
    let old := s.hist.getLast?
    match (match old with
      | none => some (start.map (first env))
      | some o => collect (start.zipIdx.map fun (e : W × Nat) => accept env fuel c.length o.1.covs o.2 s.base o.1.params e.2 e.1)) with
    | none => none
    | some out =>
      let l := sorted (out.map Prod.fst).flatten (out.map Prod.snd).flatten
      let params := l.map Prod.snd
      let distances := l.map Prod.fst
      let weights := List.replicate c.n (1 : ℝ)
      match distances[c.n / c.length]?, distances[c.n / c.length + 1]? with
      | some a, some b =>
        let anneal := (1 / 2) * (a + b)
        let base := match old with | none => params | some _ => s.base
        let covs := match old with | none => env.cov ⟨params, weights⟩ | some o => o.1.covs ++ o.1.covs
        match collect (tuneStart.zipIdx.map fun (e : W × Nat) => tune env fuel c.length covs anneal base (match old with | none => params | some o => o.1.params) e.2 e.1) with
        | none => none
        | some tuned =>
          let covs' := match tuned.find? Prod.snd with | some m => m.1 | none => covs
          let counter := (match old with | none => c.n | some o => o.1.counter + c.n / c.length * c.length) + 10 * c.length
          let r : Rec Θ M := ⟨params, distances, weights, covs', counter⟩
          if anneal = 0 then none
          else some ⟨s.hist ++ [(r, anneal)], if c.full then s.journal ++ [r] else s.journal, base,
            100 * |(old.map Prod.snd).getD 0 - anneal| / |anneal| < c.cutoff⟩
      | _, _ => none

noncomputable def loop (env : Env W Θ Y M) (c : Config) (fuel : Nat) (start tuneStart : Nat → List W) : Nat → Nat → State Θ M → Option (State Θ M)
  | 0, _, s => some s
  | k + 1, t, s => if s.stopped then some s else match step env c fuel t (start t) (tuneStart t) s with
    | none => none
    | some s => loop env c fuel start tuneStart k (t + 1) s

/-- `ABCsubsim.sample` without a journal file, on a sampler that has not been used before, with the saving of the final population (2286-2296). -/
noncomputable def run (env : Env W Θ Y M) (c : Config) (fuel : Nat) (start tuneStart : Nat → List W) : Option (State Θ M) :=
  (loop env c fuel start tuneStart c.steps 0 ⟨[], [], [], false⟩).map fun s =>
    { s with journal := if c.full then s.journal else (s.hist.getLast?.map Prod.fst).toList }

end Verif.Subsim
