import Verif.Smc.Spec
import Verif.Pmc.Model
/-
What a run of `PMCABC` does, written without the loops of the model.
-/
namespace Verif.Pmc.Spec

open Verif.Smc.Spec (Proposal)

variable {W Θ Y : Type}

/-- A particle of a population: values, distance, weight. -/
structure Particle (Θ : Type) where
  θ : Θ
  d : ℝ
  weight : ℝ

/-- A proposal: from the prior if there is no population, otherwise a perturbation of one of its particles, chosen according to the weights. -/
def Draw (env : Env W Θ Y) (old : Option (Pop Θ)) (w w' : W) (θ : Θ) : Prop :=
  match old with
  | none => env.prior w = (w', θ)
  | some p => Proposal env.pdf (env.perturb p (env.choose p.weights w).2) (env.choose p.weights w).1 w' θ

/-- Attempts until a simulation is within `eps` of the observations: the values, the distance and the number of attempts. -/
inductive Attempts (env : Env W Θ Y) (old : Option (Pop Θ)) (eps : ℝ) : W → Θ → ℝ → Nat → Prop
  | hit (w w1 w2 : W) (θ : Θ) (y : Y) : Draw env old w w1 θ → env.sim θ w1 = (w2, y) → env.dist y ≤ eps → Attempts env old eps w θ (env.dist y) 1
  | miss (w w1 w2 : W) (θ θ' : Θ) (y : Y) (d : ℝ) (k : Nat) : Draw env old w w1 θ' → env.sim θ' w1 = (w2, y) → eps < env.dist y → Attempts env old eps w2 θ d k →
      Attempts env old eps w θ d (k + 1)

/-- The task of a worker. If the threshold is not below the maximal distance there is no attempt: the values that the model holds are taken, with the maximal distance. -/
def Task (env : Env W Θ Y) (old : Option (Pop Θ)) (eps : ℝ) (w : W) (θ : Θ) (d : ℝ) (k : Nat) : Prop :=
  (∃ m, env.distMax = some m ∧ m ≤ eps ∧ θ = env.held w ∧ d = m ∧ k = 0) ∨
  ((∀ m, env.distMax = some m → eps < m) ∧ Attempts env old eps w θ d k)

/-- The weight of values `θ` up to a common factor: one without an old population, otherwise the prior density divided by the density of the kernels around the old particles. -/
noncomputable def importance (env : Env W Θ Y) (old : Option (Pop Θ)) (θ : Θ) : ℝ :=
  match old with
  | none => 1
  | some p => env.pdf θ / ((p.weights.zip p.params).map fun a => a.1 * env.kernel p a.2 θ).sum

/-- A population made from the population `old` with threshold `eps` by workers starting in the states `start`, together with the number of attempts for each particle. -/
structure Stage (env : Env W Θ Y) (old : Option (Pop Θ)) (eps : ℝ) (start : List W) (new : List (Particle Θ)) (tries : List Nat) : Prop where
  size : new.length = start.length
  size_tries : tries.length = start.length
  size_old : ∀ p, old = some p → p.params.length = start.length ∧ p.weights.length = start.length
  task : ∀ (i : Nat) (w : W) (a : Particle Θ) (k : Nat), start[i]? = some w → new[i]? = some a → tries[i]? = some k → Task env old eps w a.θ a.d k
  weight : ∀ a ∈ new, a.weight = importance env old a.θ / (new.map fun b => importance env old b.θ).sum

/-- A population as the kernels see it. -/
def asPop (l : List (Particle Θ)) : Pop Θ := ⟨l.map Particle.θ, l.map Particle.weight⟩

/-- The threshold of the step after the population `last`: its percentile, or what was asked for (`given`) if that is larger. -/
def Threshold (pct : ℝ) (given : Option ℝ) (last : List (Particle Θ)) (eps : ℝ) : Prop :=
  ∃ q, percentile (last.map Particle.d) pct = some q ∧ eps = given.elim q (max q)

/-- Histories: thresholds and populations in order, and the number of simulations. `before` is the population from which the first one is made, if any; `given t` the threshold asked
for in step `t`. -/
inductive History (env : Env W Θ Y) (pct : ℝ) (given : Nat → Option ℝ) (start : Nat → List W) (before : Option (Pop Θ)) : List (ℝ × List (Particle Θ)) → Nat → Prop
  | first (eps : ℝ) (new : List (Particle Θ)) (tries : List Nat) : given 0 = some eps → Stage env before eps (start 0) new tries →
      History env pct given start before [(eps, new)] tries.sum
  | step (h : List (ℝ × List (Particle Θ))) (e : ℝ) (last : List (Particle Θ)) (k : Nat) (eps : ℝ) (new : List (Particle Θ)) (tries : List Nat) :
      History env pct given start before (h ++ [(e, last)]) k → Threshold pct (given (h.length + 1)) last eps → Stage env (some (asPop last)) eps (start (h.length + 1)) new tries →
      History env pct given start before (h ++ [(e, last)] ++ [(eps, new)]) (k + tries.sum)

/-- The threshold asked for in step `t`: there is one for every step, or only one for the first step. -/
def asked (epsInit : List ℝ) (steps t : Nat) : Option ℝ := if epsInit.length = steps ∨ t = 0 then epsInit[t]? else none

/-- A population as the run stores it. -/
structure Holds (r : Rec Θ) (x : ℝ × List (Particle Θ)) : Prop where
  eps : r.eps = x.1
  params : r.params = x.2.map Particle.θ
  distances : r.distances = x.2.map Particle.d
  weights : r.weights = x.2.map Particle.weight

end Verif.Pmc.Spec
