import Verif.Collect
import Verif.Pmc.Percentile
import Mathlib.Analysis.SpecialFunctions.Log.Basic
/-
Model of `PMCABC` and of the weights of `PMC` (`abcpy/inferences.py` 710-1488).
Workers are states of an arbitrary type `W`, as in `Verif.Rejection`. Numbers are real; the maximal distance may be infinite.
-/
namespace Verif.Pmc

/-- A population: particles and weights. -/
structure Pop (Θ : Type) where
  params : List Θ
  weights : List ℝ

/-- What the sampler works with. The covariance matrices used by the kernel are computed from the population (862-873, 925-936), so `kernel` and `perturb` depend on
it. `prior` is `sample_from_prior` and `get_parameters`; `held` is `get_parameters`; `sim θ` is `simulate` while the model holds the values `θ`: `perturb` (85-129) sets the
values that it returns, unless it gives up after 100 refusals (modelled in `Verif.Kernel`, not here). -/
structure Env (W Θ Y : Type) where
  distMax : Option ℝ
  dist : Y → ℝ
  pdf : Θ → ℝ
  kernel : Pop Θ → Θ → Θ → ℝ
  held : W → Θ
  prior : W → W × Θ
  choose : List ℝ → W → W × Nat
  perturb : Pop Θ → Nat → W → W × Option Θ
  sim : Θ → W → W × Y

/-- `distance > epsilon` for a distance that may be infinite (`none`). -/
noncomputable def above (d : Option ℝ) (eps : ℝ) : Bool := d.elim true fun x => decide (eps < x)

open Classical in
/-- Lines 1010-1014 (and 1297-1301): perturb until the graph accepts the values and the prior density is not zero. `none` if `fuel` attempts do not
suffice. -/
noncomputable def proposeLoop {W Θ Y : Type} (env : Env W Θ Y) (p : Pop Θ) (i : Nat) : Nat → W → Option (W × Θ)
  | 0, _ => none
  | fuel + 1, w => match env.perturb p i w with
    | (w, none) => proposeLoop env p i fuel w
    | (w, some θ) => if env.pdf θ ≠ 0 then some (w, θ) else proposeLoop env p i fuel w

/-- Lines 998-1020. `pop` is `none` as long as there are no accepted parameters. -/
noncomputable def resampleLoop {W Θ Y : Type} (env : Env W Θ Y) (eps : ℝ) (pop : Option (Pop Θ)) :
    Nat → W → Θ → Option ℝ → Nat → Option (Θ × Option ℝ × Nat)
  | 0, _, _, _, _ => none
  | fuel + 1, w, θ, d, c =>
    if above d eps then
      match pop with
      | none =>
        let q := env.prior w
        let r := env.sim q.2 q.1
        resampleLoop env eps pop fuel r.1 q.2 (some (env.dist r.2)) (c + 1)
      | some p =>
        let i := env.choose p.weights w
        match proposeLoop env p i.2 fuel i.1 with
        | none => none
        | some (w, θ) =>
          let r := env.sim θ w
          resampleLoop env eps pop fuel r.1 θ (some (env.dist r.2)) (c + 1)
    else some (θ, d, c)

/-- `_resample_parameter`, lines 967-1026. `none`: it does not end with this fuel. -/
noncomputable def resampleTask {W Θ Y : Type} (env : Env W Θ Y) (eps : ℝ) (pop : Option (Pop Θ)) (fuel : Nat) (w : W) :
    Option (Θ × ℝ × Nat) :=
  match resampleLoop env eps pop fuel w (env.held w) env.distMax 0 with
  | some (θ, some d, c) => some (θ, d, c)
  | _ => none

/-- The denominator of lines 1052-1055: the mixture of kernels around the old particles. -/
noncomputable def mixture {W Θ Y : Type} (env : Env W Θ Y) (p : Pop Θ) (θ : Θ) : ℝ :=
  (List.zipWith (fun w a => w * env.kernel p a θ) p.weights p.params).sum

/-- `_calculate_weight`, lines 1028-1057. -/
noncomputable def rawWeight {W Θ Y : Type} (env : Env W Θ Y) (n : Nat) (pop : Option (Pop Θ)) (θ : Θ) : ℝ :=
  match pop with
  | none => 1 / n
  | some p => env.pdf θ / mixture env p θ

/-- Lines 914-917. -/
noncomputable def normalise (l : List ℝ) : List ℝ := l.map (· / l.sum)

/-- One population of the run. -/
structure Rec (Θ : Type) where
  eps : ℝ
  params : List Θ
  distances : List ℝ
  weights : List ℝ

structure State (Θ : Type) where
  epsArr : List (Option ℝ)
  pop : Option (Pop Θ)
  counter : Nat
  hist : List (Rec Θ)

/-- Lines 836-843; `none` is an exception. -/
def initEps (epsInit : List ℝ) (steps : Nat) : Option (List (Option ℝ)) :=
  if epsInit.length = steps then some (epsInit.map some)
  else match epsInit, steps with
    | [e], n + 1 => some (some e :: List.replicate n none)
    | _, _ => none

/-- Lines 902-907: the threshold of the next step. -/
noncomputable def nextEps (steps t : Nat) (pct : ℝ) (distances : List ℝ) (epsArr : List (Option ℝ)) : Option (List (Option ℝ)) :=
  if t + 1 < steps then
    match percentile distances pct, epsArr[t + 1]? with
    | some q, some none => some (epsArr.set (t + 1) (some q))
    | some q, some (some e) => some (epsArr.set (t + 1) (some (max q e)))
    | _, _ => none
  else some epsArr

/-- Iteration `t`, lines 875-941. `start` lists the states in which the workers start the tasks, one for each of the `n_samples` particles. `rng.choice` (1006) raises unless
there is one weight for each sample. `none`: a task does not end, or an exception. -/
noncomputable def pmcStep {W Θ Y : Type} (env : Env W Θ Y) (steps : Nat) (pct : ℝ) (fuel t : Nat) (start : List W) (s : State Θ) :
    Option (State Θ) :=
  match s.epsArr[t]? with
  | some (some eps) =>
    if s.pop.all fun p => p.weights.length = start.length ∧ p.params.length = start.length then
      match collect (start.map (resampleTask env eps s.pop fuel)) with
      | none => none
      | some res =>
        let params := res.map (·.1)
        let distances := res.map (·.2.1)
        match nextEps steps t pct distances s.epsArr with
        | none => none
        | some epsArr =>
          let weights := normalise (params.map (rawWeight env start.length s.pop))
          some ⟨epsArr, some ⟨params, weights⟩, s.counter + (res.map (·.2.2)).sum, s.hist ++ [⟨eps, params, distances, weights⟩]⟩
    else none
  | _ => none

/-- The loop of lines 847-963, iterations `t` to `t + k - 1`. -/
noncomputable def pmcLoop {W Θ Y : Type} (env : Env W Θ Y) (steps : Nat) (pct : ℝ) (fuel : Nat) (start : Nat → List W) :
    Nat → Nat → State Θ → Option (State Θ)
  | 0, _, s => some s
  | k + 1, t, s => match pmcStep env steps pct fuel t (start t) s with
    | none => none
    | some s => pmcLoop env steps pct fuel start k (t + 1) s

/-- `PMCABC.sample` without a journal file, lines 810-965: `before` is the population that the accepted parameters manager still holds from an earlier call (883:
`update_broadcast` with `None` keeps it), `counter` the simulation counter. -/
noncomputable def pmcRun {W Θ Y : Type} (env : Env W Θ Y) (steps : Nat) (epsInit : List ℝ) (pct : ℝ) (fuel : Nat)
    (start : Nat → List W) (before : Option (Pop Θ)) (counter : Nat) : Option (State Θ) :=
  match initEps epsInit steps with
  | none => none
  | some arr => pmcLoop env steps pct fuel start steps 0 ⟨arr, before, counter, []⟩

/-! ### PMC -/

/-- The new weights of `PMC`, lines 1312-1340. For particle `i`: `loglik` from `_approx_log_lik_calc` (1419; returned with the logarithm of the prior density
added, 1423-1429), `prior` and `mix` the prior density and the mixture of kernels from `_calculate_weight` (1452-1463). -/
noncomputable def pmcWeights (particles : List (ℝ × ℝ × ℝ)) : List ℝ :=
  let logw := particles.map fun (loglik, prior, mix) => Real.log (1 * prior / mix) + (Real.log prior + loglik)
  let m := logw.foldr max (logw.headD 0)
  normalise (logw.map fun x => Real.exp (x - m))

end Verif.Pmc
