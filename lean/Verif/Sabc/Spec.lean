import Verif.Smc.Spec
import Verif.Sabc.Model
/-
What a run of `SABC` does, written without the loops and arrays of the model.
-/
namespace Verif.Sabc.Spec

open Verif.Pmc (Pop)
open Verif.Smc.Spec (Proposal Trials)

variable {W Θ Y : Type}

open Classical in
/-- The redefined distance `x` of a distance `d`: the fraction of the distances of the first step that are below `d`; and if `d` is below all of
them, the share `d / m` of the first interval, where `m` is the smallest of them. -/
def Redefined (all : List ℝ) (d x : ℝ) : Prop :=
  ∃ m ∈ all, (∀ y ∈ all, m ≤ y) ∧
    (d < m → x = d / m * (1 / all.length)) ∧ (m ≤ d → x = (all.filter fun y => decide (y < d)).length / all.length)

/-- A particle: value, distance and redefined distance. -/
structure Particle (Θ : Type) where
  θ : Θ
  d : ℝ
  x : ℝ

/-- A draw from the prior with a simulation at it and whether it was accepted. -/
structure Draw (Θ : Type) where
  θ : Θ
  d : ℝ
  ok : Bool

/-- Draw from the prior, simulate, accept with probability `exp (- distance / epsilon)`. -/
def PriorTry (env : Env W Θ Y) (eps : ℝ) (w w' : W) (a : Draw Θ) : Prop :=
  ∃ w1 w2 y, env.prior w = (w1, a.θ) ∧ env.sim a.θ w1 = (w2, y) ∧ a.d = env.dist y ∧ env.bern (Real.exp (-(a.d / eps))) w2 = (w', a.ok)

/-- The task of a worker in the first step: draw until a draw is accepted; return this draw and the distances of all. -/
def FirstTask (env : Env W Θ Y) (eps : ℝ) (w : W) (o : Out Θ) : Prop :=
  ∃ w' l a, Trials (PriorTry env eps) w w' (l ++ [a]) ∧ (∀ b ∈ l, b.ok = false) ∧ a.ok = true ∧
    o.θ = a.θ ∧ o.d = a.d ∧ o.all = (l ++ [a]).map Draw.d ∧ o.accepted = true ∧ o.count = l.length + 1

/-- The particles as the kernels see them. -/
noncomputable def asPop (pop : List (Particle Θ)) : Pop Θ := ⟨pop.map Particle.θ, pop.map fun _ => 1⟩

/-- The task of a worker in a later step: choose a particle, propose a move, simulate; the move is accepted with probability prior ratio times `exp (difference of redefined distances / epsilon)`. -/
def MoveTask (env : Env W Θ Y) (all : List ℝ) (eps : ℝ) (pop : List (Particle Θ)) (w : W) (o : Out Θ) : Prop :=
  ∃ w0 a w1 w2 w3 y x u, env.choose pop.length w = (w0, o.index) ∧ pop[o.index]? = some a ∧ Proposal env.pdf (env.perturb (asPop pop) o.index) w0 w1 o.θ ∧
    env.sim o.θ w1 = (w2, y) ∧ o.d = env.dist y ∧ Redefined all o.d x ∧ env.unif w2 = (w3, u) ∧ o.count = 1 ∧
    (o.accepted = true ↔ if eps = 0 then x < a.x else u < env.pdf o.θ / env.pdf a.θ * Real.exp ((a.x - x) / eps))

/-- The population after the moves: a particle from which no accepted move started stays; otherwise the last accepted move from it counts. -/
def Replaced (all : List ℝ) (outs : List (Out Θ)) (pop pop' : List (Particle Θ)) : Prop :=
  pop'.length = pop.length ∧
  (∀ k, (∀ o ∈ outs, o.accepted = true → o.index ≠ k) → pop'[k]? = pop[k]?) ∧
  ∀ l1 o l2, outs = l1 ++ o :: l2 → o.accepted = true → (∀ o' ∈ l2, o'.accepted = true → o'.index ≠ o.index) →
    ∃ x, Redefined all o.d x ∧ pop'[o.index]? = some ⟨o.θ, o.d, x⟩

/-- The mean of the redefined distances. -/
noncomputable def meanX (pop : List (Particle Θ)) : ℝ := (pop.map Particle.x).sum / pop.length

/-- What the sampler keeps between steps: the population, the distances of the first step, `epsilon`, and the moves accepted and tried since the last resampling. -/
structure Stage (Θ : Type) where
  pop : List (Particle Θ)
  all : List ℝ
  eps : ℝ
  accepted : Nat
  tried : Nat

/-- The probabilities for resampling: proportional to `exp (- delta * redefined distance / u)`. -/
def Probabilities (delta u : ℝ) (pop : List (Particle Θ)) (ps : List ℝ) : Prop :=
  ps.length = pop.length ∧ ∀ (i : Nat) (a : Particle Θ) (p : ℝ), pop[i]? = some a → ps[i]? = some p →
    p = Real.exp (-(delta * a.x / u)) / (pop.map fun b => Real.exp (-(delta * b.x / u))).sum

/-- The end of step `t`, where `u` is the average redefined distance: when at least `resample` moves have been accepted, the population is drawn again and counting starts again; `epsilon` follows from
the average redefined distance of the population that is left. -/
def Finished (env : Env W Θ Y) (c : Config) (t : Nat) (u : ℝ) (a b : Stage Θ) : Prop :=
  b.all = a.all ∧
  if c.resample ≤ a.accepted ∧ 1 / 10 ^ 100 < u then
    ∃ ps, Probabilities c.delta u a.pop ps ∧ (env.pick t ps).length = c.n ∧ (env.pick t ps).map (fun i => a.pop[i]?) = b.pop.map some ∧
      b.eps = env.schedule (meanX b.pop) ∧ b.accepted = 0 ∧ b.tried = 0
  else b.pop = a.pop ∧ b.eps = env.schedule u ∧ b.accepted = a.accepted ∧ b.tried = a.tried

/-- The first population. -/
def FirstPop (all : List ℝ) (outs : List (Out Θ)) (pop : List (Particle Θ)) : Prop :=
  pop.length = outs.length ∧ ∀ (i : Nat) (o : Out Θ) (a : Particle Θ), outs[i]? = some o → pop[i]? = some a → a.θ = o.θ ∧ a.d = o.d ∧ Redefined all o.d a.x

/-- The average of `xs` with weights `exp (- x / eps)`; zero if `eps` is zero. -/
noncomputable def weighted (xs : List ℝ) (eps : ℝ) : ℝ :=
  if eps = 0 then 0 else (xs.map fun x => Real.exp (-(x / eps)) * x).sum / (xs.map fun x => Real.exp (-(x / eps))).sum

/-- Histories: the populations at the end of the steps, what is kept for the next step, the number of simulations, and whether the acceptance rate has fallen below the cutoff. -/
inductive History (env : Env W Θ Y) (c : Config) (start : Nat → List W) : List (List (Particle Θ)) → Stage Θ → Nat → Bool → Prop
  | first (outs : List (Out Θ)) (xs : List ℝ) (a b : Stage Θ) : 0 < c.n → outs.length = c.n → (start 0).length = c.n →
      (∀ (i : Nat) (o : Out Θ) (w : W), outs[i]? = some o → (start 0)[i]? = some w → FirstTask env c.eps w o) →
      a.all = (outs.map Out.all).flatten → FirstPop a.all outs a.pop → a.accepted = 0 → a.tried = 0 →
      List.Forall₂ (Redefined a.all) a.all xs → Finished env c 0 (weighted xs c.eps) a b →
      History env c start [b.pop] b (outs.map Out.count).sum false
  | step (pops : List (List (Particle Θ))) (s a b : Stage Θ) (count : Nat) (outs : List (Out Θ)) : History env c start pops s count false →
      0 < c.nUpdate → outs.length = c.nUpdate → (start pops.length).length = c.nUpdate →
      (∀ (i : Nat) (o : Out Θ) (w : W), outs[i]? = some o → (start pops.length)[i]? = some w → MoveTask env s.all s.eps s.pop w o) →
      a.all = s.all → Replaced s.all outs s.pop a.pop → a.accepted = s.accepted + (outs.filter Out.accepted).length → a.tried = s.tried + c.nUpdate →
      c.cutoff ≤ (a.accepted : ℝ) / a.tried → Finished env c pops.length (meanX a.pop) a b →
      History env c start (pops ++ [b.pop]) b (count + (outs.map Out.count).sum) false
  | stop (pops : List (List (Particle Θ))) (s a : Stage Θ) (count : Nat) (outs : List (Out Θ)) : History env c start pops s count false →
      0 < c.nUpdate → outs.length = c.nUpdate → (start pops.length).length = c.nUpdate →
      (∀ (i : Nat) (o : Out Θ) (w : W), outs[i]? = some o → (start pops.length)[i]? = some w → MoveTask env s.all s.eps s.pop w o) →
      a.all = s.all → Replaced s.all outs s.pop a.pop → a.accepted = s.accepted + (outs.filter Out.accepted).length → a.tried = s.tried + c.nUpdate →
      (a.accepted : ℝ) / a.tried < c.cutoff → a.eps = env.schedule (meanX a.pop) →
      History env c start (pops ++ [a.pop]) a (count + (outs.map Out.count).sum) true

end Verif.Sabc.Spec
