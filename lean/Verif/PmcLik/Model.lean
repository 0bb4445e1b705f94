import Verif.Pmc.Model
/-
Model of the runs of `PMC` (`abcpy/inferences.py` 1154-1488), the population Monte Carlo sampler with an approximate likelihood, with journals and restarts.
`M` is the random number generator of the sampler, `W` those of the workers. Numbers are real.
-/
namespace Verif.PmcLik

open Verif.Pmc (Pop pmcWeights)

/-- What the sampler works with. The covariance matrices used by the kernel are computed from the population (1249-1251, 1276-1279, 1363-1365), so `kernel` and `perturb` depend on it.
`loglik` is the logarithm of the approximate likelihood of the observations, `perParam` is `n_samples_per_param`, `dim` the number of parameters. -/
structure Env (M W Θ Y : Type) where
  pdf : Θ → ℝ
  kernel : Pop Θ → Θ → Θ → ℝ
  prior : M → M × Θ
  choose : List ℝ → Nat → M → M × List Nat
  perturb : Pop Θ → Nat → M → M × Option Θ
  seeds : Nat → M → M × List W
  sim : Θ → W → Y
  loglik : Y → ℝ
  perParam : Nat
  dim : Nat

variable {M W Θ Y : Type}

/-- Lines 1222-1225: draws from the prior, one after the other. -/
def initial (env : Env M W Θ Y) : Nat → M → M × List Θ
  | 0, m => (m, [])
  | n + 1, m =>
    let a := env.prior m
    let r := initial env n a.1
    (r.1, a.2 :: r.2)

open Classical in
/-- Lines 1297-1301: perturb until the graph accepts the values and the prior density is not zero. `none` if `fuel` attempts do not suffice. -/
noncomputable def proposeLoop (env : Env M W Θ Y) (p : Pop Θ) (i : Nat) : Nat → M → Option (M × Θ)
  | 0, _ => none
  | fuel + 1, m => match env.perturb p i m with
    | (m, none) => proposeLoop env p i fuel m
    | (m, some θ) => if env.pdf θ ≠ 0 then some (m, θ) else proposeLoop env p i fuel m

/-- Lines 1295-1301: one proposal for each of the chosen particles. -/
noncomputable def proposals (env : Env M W Θ Y) (p : Pop Θ) (fuel : Nat) : List Nat → M → Option (M × List Θ)
  | [], m => some (m, [])
  | i :: l, m => match proposeLoop env p i fuel m with
    | none => none
    | some (m, θ) => (proposals env p fuel l m).map fun r => (r.1, θ :: r.2)

/-- The denominator of `_calculate_weight`, lines 1457-1461. -/
noncomputable def mixture (env : Env M W Θ Y) (p : Pop Θ) (θ : Θ) : ℝ := (List.zipWith (fun w a => w * env.kernel p a θ) p.weights p.params).sum

/-- The new weights, lines 1305-1340, for the values `l` and the workers' generators `ws`. -/
noncomputable def weights (env : Env M W Θ Y) (p : Pop Θ) (l : List Θ) (ws : List W) : List ℝ :=
  pmcWeights (List.zipWith (fun θ w => (env.loglik (env.sim θ w), env.pdf θ, mixture env p θ)) l ws)

/-- An iteration, lines 1290-1370. `none`: the loop does not end with this fuel, or an exception: `rng.choice` (1292) needs one weight for each particle, and the products of weights and densities
(1457-1461) need `n_samples` particles (simplification: with `n_samples = 1` and more particles the code does not raise). -/
noncomputable def step (env : Env M W Θ Y) (n fuel : Nat) (m : M) (p : Pop Θ) : Option (M × Pop Θ) :=
  if p.params.length = n ∧ p.weights.length = n then
    let c := env.choose p.weights n m
    match proposals env p fuel c.2 c.1 with
    | none => none
    | some (m, l) =>
      let s := env.seeds n m
      some (s.1, ⟨l, weights env p l s.2⟩)
  else none

/-- Populations and numbers of simulations in the journal; `full` is its type. -/
structure Journal (Θ : Type) where
  full : Bool
  pops : List (Pop Θ)
  sims : List Nat

/-- Lines 1375-1383. -/
def write (full : Bool) (steps t : Nat) (p : Pop Θ) (counter : Nat) (j : Journal Θ) : Journal Θ :=
  if full ∨ t + 1 = steps then { j with pops := if j.full then j.pops ++ [p] else [p], sims := j.sims ++ [counter] } else j

/-- The loop of lines 1258-1386, iterations `t` to `t + k - 1`: generator, populations made, simulation counter, journal. The counter grows by `n_samples_per_param` for each particle (1321-1322, 1429). -/
noncomputable def loop (env : Env M W Θ Y) (n steps fuel : Nat) (full : Bool) : Nat → Nat → M → Pop Θ → Nat → Journal Θ → Option (M × List (Pop Θ) × Nat × Journal Θ)
  | 0, _, m, _, c, j => some (m, [], c, j)
  | k + 1, t, m, p, c, j => match step env n fuel m p with
    | none => none
    | some (m, q) =>
      (loop env n steps fuel full k (t + 1) m q (c + n * env.perParam) (write full steps t q (c + n * env.perParam) j)).map fun r => (r.1, q :: r.2.1, r.2.2.1, r.2.2.2)

/-- `if a:` for a numpy array of truth values: an exception unless there is at most one. -/
def truth : List Bool → Option Bool
  | [] => some false
  | [b] => some b
  | _ => none

/-- Lines 1221-1229: the first particles, with equal weights. `iniPoints == None` is true for `None`; for an array it compares every number in the array with `None`. -/
noncomputable def first (env : Env M W Θ Y) (n : Nat) (ini : Option (List Θ)) (m : M) : Option (M × Pop Θ) :=
  match (match ini with | none => some true | some l => truth (List.replicate (l.length * env.dim) false)), ini with
  | some true, _ =>
    let r := initial env n m
    some (r.1, ⟨r.2, List.replicate n (1 / (n : ℝ))⟩)
  | some false, some l => some (m, ⟨l, List.replicate l.length (1 / (l.length : ℝ))⟩)
  | _, _ => none

/-- `PMC.sample`, lines 1190-1388. `file`: the journal read from `journal_file`; its last population replaces the first particles (1259-1279). `counter`: simulations of earlier calls of the same
sampler. `none`: an exception, or the run does not end. -/
noncomputable def sample (env : Env M W Θ Y) (n steps fuel : Nat) (full : Bool) (ini : Option (List Θ)) (m : M) (counter : Nat) (file : Option (Journal Θ)) :
    Option (M × List (Pop Θ) × Nat × Journal Θ) :=
  match first env n ini (env.prior m).1, file with
  | none, _ => none
  | some (m, p), none => loop env n steps fuel full steps 0 m p counter ⟨full, [], []⟩
  | some (m, _), some j => if steps = 0 then some (m, [], counter, j) else match j.pops.getLast? with
    | none => none
    | some p => loop env n steps fuel full steps 0 m p counter j

end Verif.PmcLik
