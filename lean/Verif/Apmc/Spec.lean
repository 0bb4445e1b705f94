import Verif.Smc.Spec
import Verif.Apmc.Model
/-
What a run of `APMCABC` does, written without the loops of the model. Particles are values with distances and weights (`Out`).
-/
namespace Verif.Apmc.Spec

open Verif.Pmc (Pop percentile)
open Verif.Rsmc (pyRound)
open Verif.Smc.Spec (Proposal)

variable {W Θ Y : Type}

/-- The task of a worker in the first step: a draw from the prior, a simulation; the weight is one. -/
def FirstTask (env : Env W Θ Y) (w : W) (o : Out Θ) : Prop :=
  ∃ w1 w2 y, env.prior w = (w1, o.θ) ∧ env.sim o.θ w1 = (w2, y) ∧ o.d = env.dist y ∧ o.weight = 1

/-- The particles as the kernels see them. -/
def asPop (kept : List (Out Θ)) : Pop Θ := ⟨kept.map Out.θ, kept.map Out.weight⟩

/-- The density of a perturbation of one of the particles, chosen according to the weights. -/
noncomputable def proposalDensity (env : Env W Θ Y) (kept : List (Out Θ)) (θ : Θ) : ℝ := (kept.map fun a => a.weight * env.kernel (asPop kept) a.θ θ).sum

/-- The task of a worker in a later step: choose a particle according to the weights, perturb it, simulate; the weight is the prior density divided by that of the proposals. -/
def Task (env : Env W Θ Y) (kept : List (Out Θ)) (w : W) (o : Out Θ) : Prop :=
  let i := env.choose (kept.map Out.weight) w
  i.2 < kept.length ∧ ∃ w1 w2 y, Proposal env.pdf (env.perturb (asPop kept) i.2) i.1 w1 o.θ ∧ env.sim o.θ w1 = (w2, y) ∧ o.d = env.dist y ∧
    o.weight = env.pdf o.θ / proposalDensity env kept o.θ

open Classical in
/-- The particles that are closer than `e`. -/
noncomputable def closer (e : ℝ) (pop : List (Out Θ)) : List (Out Θ) := pop.filter fun a => decide (a.d < e)

/-- The particles carried over: those closer than `e`, with weights that sum to one. -/
noncomputable def carried (e : ℝ) (pop : List (Out Θ)) : List (Out Θ) :=
  (closer e pop).map fun a => ⟨a.θ, a.d, a.weight / ((closer e pop).map Out.weight).sum⟩

/-- Histories in which the tasks of the first step are as `firstTask` says: thresholds, populations, the particles carried over from the last one, and whether the acceptance rate has fallen below the cutoff.
When all particles are replaced, the list of thresholds starts again (3029). -/
inductive HistoryFrom (env : Env W Θ Y) (c : Config) (firstTask : W → Out Θ → Prop) (start : Nat → List W) : List ℝ → List (List (Out Θ)) → List (Out Θ) → Bool → Prop
  | first (pop : List (Out Θ)) (e : ℝ) (stop : Bool) : pop.length = c.n → (start 0).length = c.n → (∀ (i : Nat) (o : Out Θ) (w : W), pop[i]? = some o → (start 0)[i]? = some w → firstTask w o) →
      percentile (pop.map Out.d) (c.alpha * 100) = some e → (stop = true ↔ 1 < c.cutoff) →
      HistoryFrom env c firstTask start [e] [pop] (carried e pop) stop
  | replace (es : List ℝ) (pops : List (List (Out Θ))) (kept new : List (Out Θ)) (e : ℝ) (stop : Bool) : HistoryFrom env c firstTask start es pops kept false →
      ((c.n : ℤ) - pyRound (c.n * c.alpha)).toNat = c.n → new.length = c.n → (start pops.length).length = c.n →
      (∀ (i : Nat) (o : Out Θ) (w : W), new[i]? = some o → (start pops.length)[i]? = some w → Task env kept w o) →
      percentile (new.map Out.d) (c.alpha * 100) = some e → (stop = true ↔ 1 < c.cutoff) →
      HistoryFrom env c firstTask start [e] (pops ++ [new]) (carried e new) stop
  | step (es : List ℝ) (e : ℝ) (pops : List (List (Out Θ))) (kept new : List (Out Θ)) (e' : ℝ) (stop : Bool) : HistoryFrom env c firstTask start (es ++ [e]) pops kept false →
      ((c.n : ℤ) - pyRound (c.n * c.alpha)).toNat ≠ c.n → new.length = ((c.n : ℤ) - pyRound (c.n * c.alpha)).toNat → (start pops.length).length = new.length →
      (∀ (i : Nat) (o : Out Θ) (w : W), new[i]? = some o → (start pops.length)[i]? = some w → Task env kept w o) →
      percentile ((kept ++ new).map Out.d) (c.alpha * 100) = some e' → (stop = true ↔ ((closer e new).length : ℝ) / new.length < c.cutoff) →
      HistoryFrom env c firstTask start (es ++ [e] ++ [e']) (pops ++ [kept ++ new]) (carried e' (kept ++ new)) stop

/-- Histories of calls without a journal file: the first step draws from the prior. -/
abbrev History (env : Env W Θ Y) (c : Config) : (Nat → List W) → List ℝ → List (List (Out Θ)) → List (Out Θ) → Bool → Prop := HistoryFrom env c (FirstTask env)

end Verif.Apmc.Spec
