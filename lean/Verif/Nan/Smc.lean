import Verif.Nan.Num
import Verif.Smc.Model
/-
`SMCABC` with distances that may be NaN or infinite: C195. Definitions are those of `Verif.Smc` with distances that are numbers of floating-point arithmetic; thresholds and weights are real. What does not depend on
distances (proposals, resampling, the choice of the kernel's arguments) is that of `Verif.Smc`.
-/
namespace Verif.Nan.Smc

open Verif.Pmc (Pop normalise)
open Verif.Smc (Env Config Draws bisection ess propose hitLoop hits ratio equalWeights resampled)

variable {W Θ Y : Type}

/-- The distances of simulated data sets, as in `Smc.Env`, whose fields `dist` and `dists` are not used here. -/
structure Distances (Y : Type) where
  dist : Y → Num
  dists : Y → List Num

open Classical in
/-- `d < eps` of Python. -/
noncomputable def near (eps : ℝ) (d : Num) : Bool := decide (d.lt (.num eps))

/-- `np.sum(row < eps)` for one row of the distance matrix. -/
noncomputable def below (eps : ℝ) (row : List Num) : ℝ := (row.countP fun d => near eps d : Nat)

/-- Lines 3478-3485 and 3649-3654: the unnormalised weights of Del Moral et al. -/
noncomputable def dmWeights (old : List ℝ) (rows : List (List Num)) (epsOld epsNew : ℝ) : List ℝ :=
  List.zipWith (fun w row => if below epsOld row = 0 then 0 else w * (below epsNew row / below epsOld row)) old rows

/-- Line 3476: the unnormalised weights of Bernton et al. -/
noncomputable def berntonWeights (distances : List Num) (epsNew : ℝ) : List ℝ :=
  distances.map fun d => if near epsNew d then 1 else 0

/-- `_def_compute_epsilon`, lines 3596-3664: the function whose zero is the next threshold. -/
noncomputable def dmFun (old : List ℝ) (rows : List (List Num)) (epsOld alpha : ℝ) (x : ℝ) : ℝ :=
  if (dmWeights old rows epsOld x).sum = 0 then alpha * ess old
  else alpha * ess old - ess (normalise (dmWeights old rows epsOld x))

/-- `_def_compute_epsilon_divergence_unique_particles`, lines 3666-3703. `unique w` is the number of different indices in
`RandomState(1).choice(n, n, replace=True, p=w)`. -/
noncomputable def berntonFun (unique : List ℝ → Nat) (distances : List Num) (alpha : ℝ) (x : ℝ) : ℝ :=
  if (berntonWeights distances x).sum ≠ 0 then (unique (normalise (berntonWeights distances x)) : ℝ) / distances.length - alpha
  else -alpha

/-! ### MCMC kernels -/

/-- What a worker returns: parameters, simulation, distance, number of simulations. -/
structure Out (Θ Y : Type) where
  θ : Θ
  y : Y
  d : Num
  count : Nat

/-- A particle that stays as it is: lines 3801-3808, 3899-3907, 4035-4043. -/
def stay (D : Distances Y) (θ : Θ) (y : Y) (c : Nat) : Out Θ Y := ⟨θ, y, D.dist y, c⟩

/-- Lines 3785-3788 and 3798. -/
noncomputable def prob0 (env : Env W Θ Y) (D : Distances Y) (eps : ℝ) (p : Pop Θ) (θ : Θ) (y : Y) (θ' : Θ) (y' : Y) : ℝ :=
  min 1 ((if below eps (D.dists y) = 0 then 1 else below eps (D.dists y') / below eps (D.dists y)) * ratio env p θ θ')

/-- `_accept_parameter`, lines 3765-3808, for a particle `θ` with simulation `y` and weight `wt`. Prior densities and kernel densities that are
divided by are taken not to be zero. -/
noncomputable def accept0 (env : Env W Θ Y) (D : Distances Y) (fuel : Nat) (eps : ℝ) (p : Pop Θ) (i : Nat) (θ : Θ) (wt : ℝ) (y : Y) (w : W) : Option (Out Θ Y) :=
  if 0 < wt then
    match propose env.pdf (env.perturb p i) fuel w with
    | none => none
    | some (w, θ') =>
      let r := env.sim θ' w
      if (env.bern (prob0 env D eps p θ y θ' r.2) r.1).2 then some ⟨θ', r.2, D.dist r.2, 1⟩ else some (stay D θ y 1)
  else some (stay D θ y 0)

/-- `_accept_parameter_r_hit_kernel`, lines 3846-3908. -/
noncomputable def accept1 (env : Env W Θ Y) (D : Distances Y) (r fuel : Nat) (eps : ℝ) (p : Pop Θ) (i : Nat) (θ : Θ) (wt : ℝ) (y : Y) (w : W) : Option (Out Θ Y) :=
  if 0 < wt then
    match hitLoop (fun w => some (env.sim θ w)) (fun y => near eps (D.dist y)) (r - 1) fuel w [] with
    | none => none
    | some (w, old) =>
      match propose env.pdf (env.perturb p i) fuel w with
      | none => none
      | some (w, θ') =>
        match hitLoop (fun w => some (env.sim θ' w)) (fun y => near eps (D.dist y)) r fuel w [] with
        | none => none
        | some (w, new) =>
          if new.length = 1 then none
          else
            let a := min 1 ((old.length : ℝ) / (new.length - 1) * ratio env p θ θ')
            let b := env.bern a w
            if b.2 then
              match (hits (fun y => near eps (D.dist y)) new).dropLast with
              | [] => none
              | first => match new[(env.pick first b.1).2]? with
                | none => none
                | some y' => some ⟨θ', y', D.dist y', old.length + new.length⟩
            else some (stay D θ y (old.length + new.length))
  else some (stay D θ y 0)

/-- `_accept_parameter_r_hit_kernel_version_2`, lines 3946-4044. -/
noncomputable def accept2 (env : Env W Θ Y) (D : Distances Y) (r fuel : Nat) (eps : ℝ) (p : Pop Θ) (i : Nat) (θ : Θ) (wt : ℝ) (y : Y) (w : W) : Option (Out Θ Y) :=
  if 0 < wt then
    match hitLoop (fun w => (propose env.pdf (env.perturb p i) fuel w).map fun e => ((env.sim e.2 e.1).1, e.2, (env.sim e.2 e.1).2))
        (fun a => near eps (D.dist a.2)) r fuel w [] with
    | none => none
    | some (w, prime) =>
      match (hits (fun a : Θ × Y => near eps (D.dist a.2)) prime).dropLast with
      | [] => none
      | first =>
        let l := env.pick first w
        match prime[l.2]? with
        | none => none
        | some (θ', y') =>
          match hitLoop (fun w => (propose env.pdf (env.around p θ') fuel w).map fun e => env.sim e.2 e.1)
              (fun y => near eps (D.dist y)) (r - 1) fuel l.1 [] with
          | none => none
          | some (w, back) =>
            let a := min 1 ((back.length : ℝ) / (prime.length - 1) * ratio env p θ θ')
            if (env.bern a w).2 then some ⟨θ', y', D.dist y', prime.length + back.length⟩
            else some (stay D θ y (prime.length + back.length))
  else some (stay D θ y 0)

/-- The choice of lines 3539-3544; `none` for `r` is the default. -/
noncomputable def mcmc (env : Env W Θ Y) (D : Distances Y) (which : Nat) (r : Option Nat) (fuel : Nat) (eps : ℝ) (p : Pop Θ) (i : Nat) (θ : Θ) (wt : ℝ) (y : Y) (w : W) :
    Option (Out Θ Y) :=
  if which = 0 then accept0 env D fuel eps p i θ wt y w
  else if which = 1 then accept1 env D (r.getD 3) fuel eps p i θ wt y w
  else if which = 2 then accept2 env D (r.getD 2) fuel eps p i θ wt y w
  else none

/-- The first population, lines 3761-3764, 3840-3845, 3940-3945. -/
def initial (env : Env W Θ Y) (D : Distances Y) (w : W) : Out Θ Y :=
  let a := env.prior w
  let b := env.sim a.2 a.1
  ⟨a.2, b.2, D.dist b.2, 1⟩

/-! ### The run -/

/-- A population as it is put in the journal. -/
structure Rec (Θ Y : Type) where
  params : List Θ
  sims : List Y
  distances : List Num
  weights : List ℝ

/-- `past ++ [cur]` is the list `epsilon`; `last` the population of the last step carried out; `done` the number of steps carried out. -/
structure State (Θ Y : Type) where
  past : List ℝ
  cur : ℝ
  last : Option (Rec Θ Y)
  journal : List (Rec Θ Y)
  done : Nat
  counter : Nat

/-- Lines 3445-3469 for a population: the new threshold. -/
noncomputable def newEps (D : Distances Y) (c : Config) (dr : Draws) (fuel : Nat) (cur : ℝ) (p : Rec Θ Y) : Option ℝ :=
  (bisection (if c.bernton then berntonFun dr.unique p.distances c.alpha else dmFun p.weights (p.sims.map D.dists) cur c.alpha) 0.001 fuel
    c.final cur).map fun e => if e < c.final then c.final else e

/-- Lines 3475-3487: the new weights, before resampling. `none` stands for a sum of weights equal to zero; in the code all weights are NaN then. -/
noncomputable def newWeights (D : Distances Y) (c : Config) (old new : ℝ) (p : Rec Θ Y) : Option (List ℝ) :=
  let raw := if c.bernton then berntonWeights p.distances new else dmWeights p.weights (p.sims.map D.dists) old new
  if raw.sum = 0 then none else some (normalise raw)

/-- The tasks of the workers, lines 3537-3547: `start` lists the states in which the workers start them. -/
noncomputable def moved (env : Env W Θ Y) (D : Distances Y) (c : Config) (fuel : Nat) (eps : ℝ) (p : Pop Θ) (ys : List Y) (start : List W) : Option (List (Out Θ Y)) :=
  collect (start.zipIdx.map fun e =>
    (p.params[e.2]?).bind fun θ => (p.weights[e.2]?).bind fun wt => (ys[e.2]?).bind fun y => mcmc env D c.which c.r fuel eps p e.2 θ wt y e.1)

def outRec (weights : List ℝ) (l : List (Out Θ Y)) : Rec Θ Y := ⟨l.map Out.θ, l.map Out.y, l.map Out.d, weights⟩

/-- Lines 3552-3568: what is kept and saved at the end of step `t`. -/
def save (c : Config) (t : Nat) (s : State Θ Y) (past : List ℝ) (cur : ℝ) (weights : List ℝ) (l : List (Out Θ Y)) : State Θ Y :=
  ⟨past, cur, some (outRec weights l),
    if (c.full = true ∧ t ≤ c.steps - 1) ∨ (c.full = false ∧ t = c.steps - 1) then
      (if c.full then s.journal ++ [outRec weights l] else [outRec weights l]) else s.journal,
    s.done + 1, s.counter + (l.map Out.count).sum⟩

/-- Iteration `t` after the test of line 3438. `none`: an exception, or a loop that does not end with this fuel. -/
noncomputable def smcStep (env : Env W Θ Y) (D : Distances Y) (c : Config) (dr : Draws) (fuel t : Nat) (start : List W) (s : State Θ Y) : Option (State Θ Y) :=
  match s.last with
  | none => some (save c t s s.past s.cur (equalWeights c.n) (start.map (initial env D)))
  | some p =>
    match newEps D c dr fuel s.cur p with
    | none => none
    | some eps => match newWeights D c s.cur eps p with
      | none => none
      | some wts => match resampled c dr t p.params wts with
        | none => none
        | some q => match moved env D c fuel eps q p.sims start with
          | none => none
          | some l => some (save c t s (s.past ++ [s.cur]) eps q.weights l)

/-- The loop of lines 3406-3574. -/
noncomputable def smcLoop (env : Env W Θ Y) (D : Distances Y) (c : Config) (dr : Draws) (fuel : Nat) (start : Nat → List W) : Nat → Nat → State Θ Y → Option (State Θ Y)
  | 0, _, s => some s
  | k + 1, t, s =>
    if s.cur ≤ c.final then some s
    else match smcStep env D c dr fuel t (start t) s with
      | none => none
      | some s => smcLoop env D c dr fuel start k (t + 1) s

open Classical in
/-- `SMCABC.sample` without a journal file, on a sampler that has not been used before. `distMax` is `dist_max()`, `none` if infinite (3385-3388). Lines 3390-3401
check the kernel; `n` workers tasks are started in every step. -/
noncomputable def smcRun (env : Env W Θ Y) (D : Distances Y) (c : Config) (dr : Draws) (distMax : Option ℝ) (fuel : Nat) (start : Nat → List W) : Option (State Θ Y) :=
  if c.which ≤ 2 ∧ ¬ (c.bernton = true ∧ c.which = 0) ∧ ∀ t, (start t).length = c.n then
    smcLoop env D c dr fuel start c.steps 0 ⟨[], distMax.getD (10 ^ 5), none, [], 0, 0⟩
  else none

end Verif.Nan.Smc
