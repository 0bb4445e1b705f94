import Verif.Smc.Spec
import Verif.Rsmc.Model
/-
What a run of `RSMCABC` does, written without the loops of the model.
-/
namespace Verif.Rsmc.Spec

open Verif.Pmc (Pop)
open Verif.Smc.Spec (Proposal Trials)

variable {W Θ Y : Type}

/-- The Metropolis-Hastings probability for the move from `θ` to `θ'`. `k a b` is the density of proposing `b` from `a`. -/
noncomputable def metropolis (pdf : Θ → ℝ) (k : Θ → Θ → ℝ) (θ θ' : Θ) : ℝ := min 1 ((pdf θ' * k θ' θ) / (pdf θ * k θ θ'))

/-- A proposal with the distance of a simulation at it, and whether the move to it was accepted. -/
structure Round (Θ : Type) where
  θ : Θ
  d : ℝ
  moved : Bool

/-- One attempt to move particle `i`, with value `θ`: propose, simulate; a distance not below `eps` is rejected, otherwise the Metropolis-Hastings rule decides. -/
def Try (env : Env W Θ Y) (eps : ℝ) (p : Pop Θ) (i : Nat) (θ : Θ) (w w' : W) (a : Round Θ) : Prop :=
  ∃ w1, Proposal env.pdf (env.perturb p i) w w1 a.θ ∧
    let b := env.sim a.θ w1
    a.d = env.dist b.2 ∧
    if a.d < eps then
      let u := env.bern (metropolis env.pdf (env.kernel p) θ a.θ) b.1
      a.moved = u.2 ∧ w' = u.1
    else a.moved = false ∧ w' = b.1

/-- The task of a worker: choose a particle, with equal probabilities, and make `r` attempts. Returned are the value of that particle, the distance of the last proposal if it was accepted and otherwise that of
the particle, the number of accepted attempts and the number of simulations. (That the value is not that of the accepted proposal is C47.) -/
def Moves (env : Env W Θ Y) (eps : ℝ) (p : Pop Θ) (ds : List ℝ) (r : Nat) (w : W) (o : Out Θ) : Prop :=
  ∃ w' l θ dθ, let i := env.choose p.params.length w
    p.params[i.2]? = some θ ∧ ds[i.2]? = some dθ ∧
    Trials (Try env eps p i.2 θ) i.1 w' l ∧ l.length = r ∧ o.accepted = (l.filter (·.moved)).length ∧ o.count = r ∧
    ∀ a, l.getLast? = some a → o.θ = θ ∧ o.d = some (if a.moved then a.d else dθ)

/-- A draw from the prior with the distance of a simulation. -/
def PriorDraw (env : Env W Θ Y) (w w' : W) (a : Θ × ℝ) : Prop := ∃ w1 y, env.prior w = (w1, a.1) ∧ env.sim a.1 w1 = (w', y) ∧ a.2 = env.dist y

/-- The task of a worker in the first step: draw from the prior until the distance is not above `eps`. Nothing is drawn if the maximal distance is not above `eps`; what the graph holds is returned then. -/
def FirstTask (env : Env W Θ Y) (eps : ℝ) (held : Θ) (w : W) (o : Out Θ) : Prop :=
  ∃ w' l, Trials (PriorDraw env) w w' l ∧ o.accepted = 1 ∧ o.count = l.length ∧ (∀ a ∈ l.dropLast, eps < a.2) ∧
    (∀ a, l.getLast? = some a → a.2 ≤ eps ∧ o.θ = a.1 ∧ o.d = some a.2) ∧
    (l = [] → o.θ = held ∧ o.d = env.distMax ∧ ∃ x, env.distMax = some x ∧ x ≤ eps)

/-- The particles of a population that are kept: the `k` with the smallest distances, in order. -/
def Best (k : Nat) (pop kept : List (Θ × ℝ)) : Prop :=
  kept.length = k ∧ kept.Pairwise (fun a b => a.2 ≤ b.2) ∧ ∃ rest, (kept ++ rest).Perm pop ∧ ∀ a ∈ kept, ∀ b ∈ rest, a.2 ≤ b.2

/-- The number of attempts in the next step, when of `r` attempts for each of `k` particles `acc` were accepted, a fraction `a`: one if `a` is 0 or 1; otherwise the largest number for which a particle stays where
it is, after as many attempts, with probability at least `const`. -/
def NextMoves (const : ℝ) (r : Int) (k acc : Nat) (r' : Int) : Prop :=
  0 < r * k ∧ let a : ℝ := acc / (r * k : ℤ)
  0 ≤ a ∧ a ≤ 1 ∧ if a = 0 ∨ a = 1 then r' = 1 else 0 ≤ r' ∧ ∀ j : Nat, (j : Int) ≤ r' ↔ const ≤ (1 - a) ^ j

/-- The results of the workers as a population. -/
def Results (outs : List (Out Θ)) (pop : List (Θ × ℝ)) : Prop := outs.map (fun o => (o.θ, o.d)) = pop.map fun a => (a.1, some a.2)

/-- The particles as the workers see them: all weights are the same. -/
noncomputable def asPop (kept : List (Θ × ℝ)) : Pop Θ := ⟨kept.map Prod.fst, List.replicate kept.length (1 / kept.length)⟩

/-- Histories: thresholds, populations, the particles kept from the last population, the number of attempts in the next step, the number of simulations. -/
inductive History (env : Env W Θ Y) (c : Config) (start : Nat → List (W × Θ)) : List ℝ → List (List (Θ × ℝ)) → List (Θ × ℝ) → Int → Nat → Prop
  | first (outs : List (Out Θ)) (pop kept : List (Θ × ℝ)) (r' : Int) : c.epsFinal ≤ c.epsInit → outs.length = c.n → (start 0).length = c.n →
      (∀ (i : Nat) (o : Out Θ) (w : W) (held : Θ), outs[i]? = some o → (start 0)[i]? = some (w, held) → FirstTask env c.epsInit held w o) →
      Results outs pop → Best (c.n - c.drop) pop kept → NextMoves c.const 1 c.n (outs.map Out.accepted).sum r' →
      History env c start [c.epsInit] [pop] kept r' (outs.map Out.count).sum
  | step (es : List ℝ) (pops : List (List (Θ × ℝ))) (kept : List (Θ × ℝ)) (r : Int) (k : Nat) (e : Θ × ℝ) (outs : List (Out Θ)) (new kept' : List (Θ × ℝ)) (r' : Int) :
      History env c start es pops kept r k → kept.getLast? = some e → c.epsFinal ≤ e.2 → outs.length = c.drop → (start pops.length).length = c.drop →
      (∀ (i : Nat) (o : Out Θ) (w : W) (held : Θ), outs[i]? = some o → (start pops.length)[i]? = some (w, held) →
        Moves env e.2 (asPop kept) (kept.map Prod.snd) r.toNat w o) →
      Results outs new → Best (c.n - c.drop) (kept ++ new) kept' → NextMoves c.const r c.drop (outs.map Out.accepted).sum r' →
      History env c start (es ++ [e.2]) (pops ++ [kept ++ new]) kept' r' (k + (outs.map Out.count).sum)

end Verif.Rsmc.Spec
