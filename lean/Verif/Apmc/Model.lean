import Verif.Rsmc.Model
/-
Model of `APMCABC` (`abcpy/inferences.py` 2826-3175). Workers are as in `Verif.Smc`.
-/
namespace Verif.Apmc

open Verif.Pmc (Pop percentile normalise)
open Verif.Smc (propose)
open Verif.Rsmc (pyRound)

/-- What the sampler works with. As in `Verif.Smc.Env`; `choose w` is `rng.choice(len(w), size=1, p=w)`. -/
structure Env (W Θ Y : Type) where
  dist : Y → ℝ
  pdf : Θ → ℝ
  kernel : Pop Θ → Θ → Θ → ℝ
  prior : W → W × Θ
  choose : List ℝ → W → W × Nat
  perturb : Pop Θ → Nat → W → W × Option Θ
  sim : Θ → W → W × Y

/-- What a worker returns. -/
structure Out (Θ : Type) where
  θ : Θ
  d : ℝ
  weight : ℝ

/-- Boolean indexing `l[m]` of an array. -/
def select {α : Type} : List Bool → List α → List α
  | true :: m, x :: l => x :: select m l
  | false :: m, _ :: l => select m l
  | _, _ => []

variable {W Θ Y : Type}

/-- The denominator of lines 3141-3146. -/
noncomputable def mixture (env : Env W Θ Y) (p : Pop Θ) (θ : Θ) : ℝ :=
  (List.zipWith (fun w a => w * env.kernel p a θ) p.weights p.params).sum

/-- `_accept_parameter`, lines 3095-3149. It is called on a manager without accepted parameters (`none`) or with those that were carried over. The last use of the graph before the parameters are read is
the prior density of the proposal (3140), so the proposal is returned. -/
noncomputable def accept (env : Env W Θ Y) (fuel : Nat) (pop : Option (Pop Θ)) (w : W) : Option (Out Θ) :=
  match pop with
  | none =>
    let a := env.prior w
    some ⟨a.2, env.dist (env.sim a.2 a.1).2, 1⟩
  | some p =>
    let i := env.choose p.weights w
    (p.params[i.2]?).bind fun _ => (propose env.pdf (env.perturb p i.2) fuel i.1).map fun a =>
      ⟨a.2, env.dist (env.sim a.2 a.1).2, 1 * env.pdf a.2 / mixture env p a.2⟩

structure Config where
  n : Nat
  steps : Nat
  alpha : ℝ
  cutoff : ℝ
  full : Bool

/-- The population of a step with its threshold, and the particles that are carried over. -/
structure Rec (Θ : Type) where
  eps : ℝ
  params : List Θ
  distances : List ℝ
  weights : List ℝ
  keptParams : List Θ
  keptDistances : List ℝ
  keptWeights : List ℝ

/-- `hist` are the populations of all steps, `stopped` whether the acceptance rate has fallen below the cutoff. Each worker simulates once, so the counter is not
modelled. -/
structure State (Θ : Type) where
  epsilons : List ℝ
  hist : List (Rec Θ)
  journal : List (Rec Θ)
  stopped : Bool

/-- `n_additional_samples`, lines 2992-2995 (for `alpha ≤ 1` never negative). -/
noncomputable def wanted (c : Config) (t : Nat) : Nat := if 0 < t then ((c.n : ℤ) - pyRound (c.n * c.alpha)).toNat else c.n

/-- The particles that the workers see, line 3003. -/
def seen (s : State Θ) : Option (Pop Θ) := s.hist.getLast?.map fun r => ⟨r.keptParams, r.keptWeights⟩

/-- Lines 3022-3033: the population, from that carried over and the new one. -/
def merge (c : Config) (s : State Θ) (out : List (Out Θ)) : List Θ × List ℝ × List ℝ :=
  if out.length = c.n then (out.map Out.θ, out.map Out.d, out.map Out.weight)
  else match s.hist.getLast? with
    | none => (out.map Out.θ, out.map Out.d, out.map Out.weight)
    | some r => (r.keptParams ++ out.map Out.θ, r.keptDistances ++ out.map Out.d, r.keptWeights ++ out.map Out.weight)

/-- Lines 3027 and 3035. -/
noncomputable def acceptance (c : Config) (s : State Θ) (out : List (Out Θ)) : ℝ :=
  if out.length = c.n then 1
  else match s.epsilons.getLast? with
    | none => 1
    | some e => ((out.map Out.d).countP fun d => d < e) / (out.length : ℝ)

/-- Lines 3040-3043. -/
noncomputable def keep (eps : ℝ) (p : List Θ × List ℝ × List ℝ) : Rec Θ :=
  let m := p.2.1.map fun d => decide (d < eps)
  ⟨eps, p.1, p.2.1, p.2.2, select m p.1, select m p.2.1, normalise (select m p.2.2)⟩

/-- Iteration `t`, lines 2992-3083; `start` lists the states in which the workers start their tasks. `none`: an exception, or a loop that does not end with this fuel. What the covariance
of an empty list of particles gives (3058) is not modelled; if no particle is carried over, the next step fails. -/
noncomputable def step (env : Env W Θ Y) (c : Config) (fuel t : Nat) (start : List W) (s : State Θ) : Option (State Θ) :=
  if start.length ≠ wanted c t ∨ start = [] then none
  else
    match collect (start.map fun w => accept env fuel (seen s) w) with
    | none => none
    | some out => match percentile (merge c s out).2.1 (c.alpha * 100) with
      | none => none
      | some eps =>
        let r := keep eps (merge c s out)
        some ⟨(if out.length = c.n then [] else s.epsilons) ++ [eps], s.hist ++ [r],
          if c.full then s.journal ++ [r] else if t = c.steps - 1 then [r] else s.journal, acceptance c s out < c.cutoff⟩

noncomputable def loop (env : Env W Θ Y) (c : Config) (fuel : Nat) (start : Nat → List W) : Nat → Nat → State Θ → Option (State Θ)
  | 0, _, s => some s
  | k + 1, t, s => if s.stopped then some s else match step env c fuel t (start t) s with
    | none => none
    | some s => loop env c fuel start k (t + 1) s

/-- `APMCABC.sample` without a journal file, on a sampler that has not been used before. -/
noncomputable def run (env : Env W Θ Y) (c : Config) (fuel : Nat) (start : Nat → List W) : Option (State Θ) :=
  loop env c fuel start c.steps 0 ⟨[], [], [], false⟩

end Verif.Apmc
