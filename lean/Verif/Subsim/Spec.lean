import Verif.Rsmc.Spec
import Verif.Subsim.Model
/-
What a run of `ABCsubsim` does, written without the loops of the model.
-/
namespace Verif.Subsim.Spec

open Verif.Pmc (Pop)
open Verif.Smc.Spec (Proposal)
open Verif.Rsmc.Spec (metropolis)

variable {W Θ Y M : Type}

/-- A proposal, the distance of a simulation at it, and whether it was accepted. -/
structure Move (Θ : Type) where
  θ : Θ
  d : ℝ
  ok : Bool

/-- One move of a chain that is at `θ`: perturb `base`, simulate; a distance not below `anneal` is rejected, otherwise the Metropolis-Hastings rule decides. -/
def Moves (env : Env W Θ Y M) (covs : List M) (anneal : ℝ) (base θ : Θ) (w w' : W) (a : Move Θ) : Prop :=
  ∃ w1 w2 y, Proposal env.pdf (env.perturb covs base) w w1 a.θ ∧ env.sim a.θ w1 = (w2, y) ∧ a.d = env.dist y ∧
    env.bern (if a.d < anneal then metropolis env.pdf (env.kernel covs) θ a.θ else 0) w2 = (w', a.ok)

/-- The moves of a chain that starts at `θ`. -/
inductive Chain (env : Env W Θ Y M) (covs : List M) (anneal : ℝ) (base : Θ) : W → Θ → List (Move Θ) → Prop
  | nil (w : W) (θ : Θ) : Chain env covs anneal base w θ []
  | cons (w w' : W) (θ : Θ) (a : Move Θ) (l : List (Move Θ)) : Moves env covs anneal base θ w w' a → Chain env covs anneal base w' (if a.ok then a.θ else θ) l →
      Chain env covs anneal base w θ (a :: l)

/-- The states of a chain, values with distances, after its moves. -/
def states : Θ × ℝ → List (Move Θ) → List (Θ × ℝ)
  | _, [] => []
  | s, a :: l => let s' := if a.ok then (a.θ, a.d) else s
    s' :: states s' l

/-- The task of a worker in the first step: a draw from the prior with the distance of a simulation. -/
def FirstTask (env : Env W Θ Y M) (w : W) (a : Θ × ℝ) : Prop := ∃ w1 w2 y, env.prior w = (w1, a.1) ∧ env.sim a.1 w1 = (w2, y) ∧ a.2 = env.dist y

/-- The task of a worker in a later step: simulate again at the particle `θ`, then make `length - 1` moves. -/
def ChainTask (env : Env W Θ Y M) (covs : List M) (anneal : ℝ) (length : Nat) (base θ : Θ) (w : W) (out : List (Θ × ℝ)) : Prop :=
  ∃ w1 y l, env.sim θ w = (w1, y) ∧ Chain env covs anneal base w1 θ l ∧ l.length + 1 = length ∧ out = (θ, env.dist y) :: states (θ, env.dist y) l

/-- The particles in the order of their distances. -/
def Ordered (out pop : List (Θ × ℝ)) : Prop := pop.Perm out ∧ pop.Pairwise fun a b => a.2 ≤ b.2

/-- A population with the annealing parameter, covariance matrices and number of simulations. -/
structure Stage (Θ M : Type) where
  pop : List (Θ × ℝ)
  anneal : ℝ
  covs : List M
  count : Nat

/-- The annealing parameter is half way between two neighbouring distances. -/
def Annealed (c : Config) (a : Stage Θ M) : Prop :=
  ∃ x y, a.pop[c.n / c.length]? = some x ∧ a.pop[c.n / c.length + 1]? = some y ∧ a.anneal = (x.2 + y.2) / 2 ∧ a.anneal ≠ 0

/-- Worker `i` of those that look for new covariance matrices finds that the matrices scaled by `2 ^ (-2 i)` are acceptable: between three and five moves of a chain from the first particle are accepted. -/
def Acceptable (env : Env W Θ Y M) (c : Config) (covs : List M) (anneal : ℝ) (base θ : Θ) (w : W) : Prop :=
  ∃ l, Chain env covs anneal base w θ l ∧ l.length = c.length ∧ 3 ≤ (l.filter (·.ok)).length ∧ (l.filter (·.ok)).length ≤ 5

/-- The new covariance matrices: those of the first worker that found its own acceptable, or the old ones. -/
def Tuned (env : Env W Θ Y M) (c : Config) (covs : List M) (anneal : ℝ) (base θ : Θ) (tuneStart : List W) (covs' : List M) : Prop :=
  tuneStart.length = 10 ∧
  ((∃ i w, tuneStart[i]? = some w ∧ Acceptable env c covs anneal base θ w ∧ (∀ (j : Nat) (v : W), j < i → tuneStart[j]? = some v → ¬ Acceptable env c covs anneal base θ v) ∧
      covs' = covs.map (env.scale i)) ∨
    ((∀ w ∈ tuneStart, ¬ Acceptable env c covs anneal base θ w) ∧ covs' = covs))

/-- Histories of steps, and whether the last one has changed the annealing parameter by less than the cutoff (in per cent). `base` are the values of the first population; from particle `i` all chains with number `i` propose. -/
inductive History (env : Env W Θ Y M) (c : Config) (start tuneStart : Nat → List W) : List Θ → List (Stage Θ M) → Bool → Prop
  | first (outs : List (Θ × ℝ)) (a : Stage Θ M) (x : Θ × ℝ) (stop : Bool) : 0 < c.n → 0 < c.length → outs.length = c.n → (start 0).length = c.n →
      (∀ (i : Nat) (o : Θ × ℝ) (w : W), outs[i]? = some o → (start 0)[i]? = some w → FirstTask env w o) → Ordered outs a.pop → Annealed c a → a.pop[0]? = some x →
      Tuned env c (env.cov ⟨a.pop.map Prod.fst, List.replicate c.n 1⟩) a.anneal x.1 x.1 (tuneStart 0) a.covs → a.count = c.n + 10 * c.length → (stop = true ↔ 100 < c.cutoff) →
      History env c start tuneStart (a.pop.map Prod.fst) [a] stop
  | step (base : List Θ) (h : List (Stage Θ M)) (o a : Stage Θ M) (chains : List (List (Θ × ℝ))) (θ0 : Θ) (x : Θ × ℝ) (stop : Bool) : History env c start tuneStart base (h ++ [o]) false →
      chains.length = c.n / c.length → (start (h.length + 1)).length = c.n / c.length →
      (∀ (i : Nat) (out : List (Θ × ℝ)) (w : W), chains[i]? = some out → (start (h.length + 1))[i]? = some w →
        ∃ b e, base[i]? = some b ∧ o.pop[i]? = some e ∧ ChainTask env o.covs o.anneal c.length b e.1 w out) →
      Ordered chains.flatten a.pop → Annealed c a → base[0]? = some θ0 → o.pop[0]? = some x →
      Tuned env c (o.covs ++ o.covs) a.anneal θ0 x.1 (tuneStart (h.length + 1)) a.covs → a.count = o.count + c.n / c.length * c.length + 10 * c.length →
      (stop = true ↔ 100 * |o.anneal - a.anneal| / |a.anneal| < c.cutoff) →
      History env c start tuneStart base (h ++ [o] ++ [a]) stop

end Verif.Subsim.Spec
