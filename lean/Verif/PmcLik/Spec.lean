import Verif.Smc.Spec
import Verif.PmcLik.Model
/-
What a run of `PMC` does, written without the loops of the model.
-/
namespace Verif.PmcLik.Spec

open Verif.Pmc (Pop)
open Verif.Smc.Spec (Proposal)

variable {M W Θ Y : Type}

/-- Draws from the prior, one after the other. -/
inductive Draws (env : Env M W Θ Y) : M → M → List Θ → Prop
  | nil (m : M) : Draws env m m []
  | cons (m m1 m' : M) (θ : Θ) (l : List Θ) : env.prior m = (m1, θ) → Draws env m1 m' l → Draws env m m' (θ :: l)

/-- Proposals, one for each of the chosen particles. -/
inductive Proposals (env : Env M W Θ Y) (p : Pop Θ) : M → M → List Nat → List Θ → Prop
  | nil (m : M) : Proposals env p m m [] []
  | cons (m m1 m' : M) (i : Nat) (is : List Nat) (θ : Θ) (l : List Θ) : Proposal env.pdf (env.perturb p i) m m1 θ → Proposals env p m1 m' is l →
      Proposals env p m m' (i :: is) (θ :: l)

/-- The density of the proposals: the kernels around the particles, mixed by their weights. -/
noncomputable def proposalDensity (env : Env M W Θ Y) (p : Pop Θ) (θ : Θ) : ℝ := ((p.weights.zip p.params).map fun a => a.1 * env.kernel p a.2 θ).sum

/-- The rule of population Monte Carlo: prior density times likelihood, divided by the density of the proposals. -/
noncomputable def rule (prior lik prop : ℝ) : ℝ := prior * lik / prop

/-- What `PMC` uses instead: the prior density is counted twice (C41). -/
noncomputable def ruleUsed (prior lik prop : ℝ) : ℝ := prior ^ 2 * lik / prop

/-- One iteration, from the population `p` of `n` particles to the population `q`: particles are chosen according to the weights and perturbed; the approximate likelihood of each new one comes from a
simulation there, with a generator of its own. The weights are given by `r`, up to a common factor, and sum to one. -/
def Stage (env : Env M W Θ Y) (n : Nat) (r : ℝ → ℝ → ℝ → ℝ) (m m' : M) (p q : Pop Θ) : Prop :=
  p.params.length = n ∧ p.weights.length = n ∧
  ∃ m1 ws, Proposals env p (env.choose p.weights n m).1 m1 (env.choose p.weights n m).2 q.params ∧ env.seeds n m1 = (m', ws) ∧
    q.params.length = n ∧ q.weights.length = n ∧ q.weights.sum = 1 ∧
    ∃ c, c ≠ 0 ∧ ∀ (i : Nat) (θ : Θ) (w : W), q.params[i]? = some θ → ws[i]? = some w →
      q.weights[i]? = some (r (env.pdf θ) (Real.exp (env.loglik (env.sim θ w))) (proposalDensity env p θ) / c)

/-- Iterations one after the other: the populations after `p`. -/
inductive Chain (env : Env M W Θ Y) (n : Nat) (r : ℝ → ℝ → ℝ → ℝ) : M → M → Pop Θ → List (Pop Θ) → Prop
  | nil (m : M) (p : Pop Θ) : Chain env n r m m p []
  | cons (m m1 m' : M) (p q : Pop Θ) (l : List (Pop Θ)) : Stage env n r m m1 p q → Chain env n r m1 m' q l → Chain env n r m m' p (q :: l)

/-- What is asked of the environment: `choice` and `randint` return as many numbers as they are asked for, densities are not negative, those of the kernels are positive. -/
structure Regular (env : Env M W Θ Y) : Prop where
  choose : ∀ w n m, (env.choose w n m).2.length = n
  seeds : ∀ n m, (env.seeds n m).2.length = n
  pdf : ∀ θ, 0 ≤ env.pdf θ
  kernel : ∀ p a b, 0 < env.kernel p a b

end Verif.PmcLik.Spec
