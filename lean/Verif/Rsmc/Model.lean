import Verif.Smc.Model
/-
Model of `RSMCABC` (`abcpy/inferences.py` 2446-2823). Workers are as in `Verif.Smc`; the parameters that the graph of a worker holds are kept apart from its state, because
`_accept_parameter` returns what the graph holds at the end.
-/
namespace Verif.Rsmc

open Verif.Pmc (Pop above)
open Verif.Smc (propose)

/-- Python's `round` to an integer: halves go to the even neighbour. -/
noncomputable def pyRound (x : ℝ) : Int :=
  if Int.fract x < 1 / 2 then ⌊x⌋
  else if Int.fract x = 1 / 2 ∧ ⌊x⌋ % 2 = 0 then ⌊x⌋
  else ⌊x⌋ + 1

/-- What the sampler works with. As in `Verif.Smc.Env`; `distMax` is `none` if infinite, `choose n` is `rng.choice(n, size=1)`. -/
structure Env (W Θ Y : Type) where
  distMax : Option ℝ
  dist : Y → ℝ
  pdf : Θ → ℝ
  kernel : Pop Θ → Θ → Θ → ℝ
  prior : W → W × Θ
  choose : Nat → W → W × Nat
  perturb : Pop Θ → Nat → W → W × Option Θ
  sim : Θ → W → W × Y
  bern : ℝ → W → W × Bool

/-- What a worker returns: parameters, distance, number of accepted moves, number of simulations. -/
structure Out (Θ : Type) where
  θ : Θ
  d : Option ℝ
  accepted : Nat
  count : Nat

variable {W Θ Y : Type}

/-- Lines 2764-2768. `none`: the loop does not end with this fuel. -/
noncomputable def priorLoop (env : Env W Θ Y) (eps : ℝ) : Nat → W → Θ → Option ℝ → Nat → Option (Θ × Option ℝ × Nat)
  | 0, _, _, _, _ => none
  | fuel + 1, w, held, d, c =>
    if above d eps then
      let a := env.prior w
      let b := env.sim a.2 a.1
      priorLoop env eps fuel b.1 a.2 (some (env.dist b.2)) (c + 1)
    else some (held, d, c)

/-- The acceptance probability of lines 2783-2790. -/
noncomputable def prob (env : Env W Θ Y) (p : Pop Θ) (θ θ' : Θ) : ℝ :=
  min 1 (env.pdf θ' / env.pdf θ * (env.kernel p θ' θ / env.kernel p θ θ'))

/-- The loop of lines 2775-2795 for the chosen particle `θ` (number `i`, distance `dθ`): `held` is what the graph holds, `d` the variable `distance`. Every proposal starts from `θ`. The second
evaluation of the prior density, at `θ` (2783), leaves `θ` in the graph; nothing puts the accepted proposal back. -/
noncomputable def moveLoop (env : Env W Θ Y) (fuel : Nat) (eps : ℝ) (p : Pop Θ) (i : Nat) (θ : Θ) (dθ : ℝ) :
    Nat → W → Θ → Option ℝ → Nat → Nat → Option (Out Θ)
  | 0, _, held, d, acc, c => some ⟨held, d, acc, c⟩
  | r + 1, w, _, _, acc, c =>
    match propose env.pdf (env.perturb p i) fuel w with
    | none => none
    | some (w, θ') =>
      let b := env.sim θ' w
      let u := env.bern (prob env p θ θ') b.1
      if env.dist b.2 < eps then
        if u.2 then moveLoop env fuel eps p i θ dθ r u.1 θ (some (env.dist b.2)) (acc + 1) (c + 1)
        else moveLoop env fuel eps p i θ dθ r u.1 θ (some dθ) acc (c + 1)
      else moveLoop env fuel eps p i θ dθ r b.1 θ (some dθ) acc (c + 1)

/-- `_accept_parameter`, lines 2739-2797: `pop` are the accepted parameters and their distances, `none` if there are none; `held` is what the graph of the worker
holds at the start. -/
noncomputable def accept (env : Env W Θ Y) (fuel : Nat) (eps : ℝ) (pop : Option (Pop Θ × List ℝ)) (r : Nat) (w : W) (held : Θ) : Option (Out Θ) :=
  match pop with
  | none => (priorLoop env eps fuel w held env.distMax 0).map fun e => ⟨e.1, e.2.1, 1, e.2.2⟩
  | some (p, ds) =>
    let i := env.choose p.params.length w
    (p.params[i.2]?).bind fun θ => (ds[i.2]?).bind fun dθ => moveLoop env fuel eps p i.2 θ dθ r i.1 held env.distMax 0 0

structure Config where
  n : Nat
  steps : Nat
  alpha : ℝ
  epsInit : ℝ
  epsFinal : ℝ
  const : ℝ
  full : Bool

/-- `round(n_samples * alpha)`; a negative number is not modelled (`alpha` is a fraction). -/
noncomputable def Config.drop (c : Config) : Nat := (pyRound (c.n * c.alpha)).toNat

/-- The population of a step with the threshold and the number of moves that were used. -/
structure Rec (Θ : Type) where
  eps : ℝ
  moves : Int
  params : List Θ
  distances : List ℝ

/-- `past ++ [cur]` is the list `epsilon`, `kept` the population after the worst particles have been thrown away, `moves` the variable `R`, `hist` the populations of all steps. -/
structure State (Θ : Type) where
  epsilons : List ℝ
  kept : Option (List Θ × List ℝ)
  moves : Int
  hist : List (Rec Θ)
  journal : List (Rec Θ)
  counter : Nat

/-- How a run fails: the call `self.logger(...)` of line 2641, which raises `TypeError` in place of stopping; anything else (an exception, a loop that does not
end with this fuel). -/
inductive Fail
  | stopping
  | other
  deriving DecidableEq

/-- `int` of a float: cut off towards zero. -/
noncomputable def pyInt (x : ℝ) : Int := if 0 ≤ x then ⌊x⌋ else ⌈x⌉

/-- Lines 2696-2700: the next `R`, for `acc` accepted moves of `r` for each of `k` particles. With `r = 0` the quotient `0 / 0` is NaN and `int` raises
`ValueError`: `none`. -/
noncomputable def nextMoves (c : Config) (r : Int) (k acc : Nat) : Option Int :=
  let p : ℝ := acc / (r * k : ℤ)
  if r * k = 0 then none
  else if p = 1 ∨ p = 0 then some 1 else some (pyInt (Real.log c.const / Real.log (1 - p)))

/-- Lines 2703-2714: sort by distance and throw away the last ones. -/
noncomputable def trim (c : Config) (params : List Θ) (distances : List ℝ) : List Θ × List ℝ :=
  let s := (distances.zip params).insertionSort (fun a b => a.1 ≤ b.1)
  ((s.map Prod.snd).take (c.n - c.drop), (s.map Prod.fst).take (c.n - c.drop))

/-- The threshold of a step, lines 2617-2626. -/
def threshold (c : Config) (s : State Θ) : Option ℝ :=
  match s.kept with
  | none => some c.epsInit
  | some k => k.2.getLast?

/-- The number of particles to be generated in a step, lines 2618 and 2703. -/
noncomputable def wanted (c : Config) (s : State Θ) : Nat := if s.kept.isNone then c.n else c.drop

/-- What the workers see of the kept particles: all have the same weight (2716). -/
noncomputable def seen (s : State Θ) : Option (Pop Θ × List ℝ) := s.kept.map fun k => (⟨k.1, List.replicate k.1.length (1 / k.1.length)⟩, k.2)

/-- The particles the new ones are added to, lines 2673-2680: none if `n_samples` have been generated. -/
def base (c : Config) (s : State Θ) (new : Nat) : List Θ × List ℝ := if new = c.n then ([], []) else s.kept.getD ([], [])

/-- Iteration `t`, lines 2590-2719; `start` lists the workers' states and the contents of their graphs when they start their tasks, one for each
particle to be replenished (2618, 2703). An infinite distance can only come from `R ≤ 0` and is not modelled further (failure). -/
noncomputable def step (env : Env W Θ Y) (c : Config) (fuel t : Nat) (start : List (W × Θ)) (s : State Θ) : Except Fail (State Θ) :=
  match threshold c s with
  | none => .error .other
  | some eps =>
    if eps < c.epsFinal then .error .stopping
    else if start.length ≠ wanted c s ∨ start = [] then .error .other
    else
      match collect (start.map fun e => accept env fuel eps (seen s) s.moves.toNat e.1 e.2) with
      | none => .error .other
      | some out => match collect (out.map Out.d) with
        | none => .error .other
        | some ds => match nextMoves c s.moves start.length (out.map Out.accepted).sum with
          | none => .error .other
          | some moves =>
            let r : Rec Θ := ⟨eps, s.moves, (base c s out.length).1 ++ out.map Out.θ, (base c s out.length).2 ++ ds⟩
            .ok ⟨s.epsilons ++ [eps], some (trim c r.params r.distances), moves, s.hist ++ [r],
              if c.full then s.journal ++ [r] else if t = c.steps - 1 then [r] else s.journal, s.counter + (out.map Out.count).sum⟩

noncomputable def loop (env : Env W Θ Y) (c : Config) (fuel : Nat) (start : Nat → List (W × Θ)) : Nat → Nat → State Θ → Except Fail (State Θ)
  | 0, _, s => .ok s
  | k + 1, t, s => match step env c fuel t (start t) s with
    | .error e => .error e
    | .ok s => loop env c fuel start k (t + 1) s

/-- `RSMCABC.sample` without a journal file, on a sampler that has not been used before. -/
noncomputable def run (env : Env W Θ Y) (c : Config) (fuel : Nat) (start : Nat → List (W × Θ)) : Except Fail (State Θ) :=
  loop env c fuel start c.steps 0 ⟨[], none, 1, [], [], 0⟩

end Verif.Rsmc
