import Verif.Smc.Model
/-
Model of `SABC` (`abcpy/inferences.py` 1491-2031). Workers are as in `Verif.Smc`.
-/
namespace Verif.Sabc

open Verif.Pmc (Pop)
open Verif.Smc (propose)

/-- One entry of `_smoother_distance`, lines 1861-1889; `m` is the smallest of the old distances. -/
noncomputable def smoothAt (m : ℝ) (old : List ℝ) (d : ℝ) : ℝ :=
  if d < m then d / m / old.length else (old.countP fun x => x < d) / (old.length : ℝ)

/-- `_smoother_distance` of one distance; the smallest element of an empty list raises an exception (`none`). -/
noncomputable def smooth (old : List ℝ) (d : ℝ) : Option ℝ := old.min?.map fun m => smoothAt m old d

/-- What the sampler works with. As in `Verif.Smc.Env`; `choose n` is `rng.choice(n, size=1)`, `unif` is `rng.rand(1)`, `schedule` is `_schedule` (1913-1920, a numerical root finder), `pick t` are the
indices drawn for resampling in step `t`, with the given probabilities (1769). -/
structure Env (W Θ Y : Type) where
  dist : Y → ℝ
  pdf : Θ → ℝ
  prior : W → W × Θ
  choose : Nat → W → W × Nat
  perturb : Pop Θ → Nat → W → W × Option Θ
  sim : Θ → W → W × Y
  bern : ℝ → W → W × Bool
  unif : W → W × ℝ
  schedule : ℝ → ℝ
  pick : Nat → List ℝ → List Nat

/-- What a worker returns; `all` are the distances of all tries. -/
structure Out (Θ : Type) where
  θ : Θ
  d : ℝ
  all : List ℝ
  index : Nat
  accepted : Bool
  count : Nat

variable {W Θ Y : Type}

/-- Lines 1963-1974: draw from the prior until accepted with probability `exp (-distance / epsilon)`. `none` if the fuel does not suffice. -/
noncomputable def first (env : Env W Θ Y) (eps : ℝ) (index : Nat) : Nat → W → List ℝ → Nat → Option (Out Θ)
  | 0, _, _, _ => none
  | fuel + 1, w, all, c =>
    let a := env.prior w
    let b := env.sim a.2 a.1
    let d := env.dist b.2
    let u := env.bern (Real.exp (-d / eps)) b.1
    if u.2 then some ⟨a.2, d, all ++ [d], index, true, c + 1⟩ else first env eps index fuel u.1 (all ++ [d]) (c + 1)

/-- The variables of the loop. `journal` lists the populations with their distances. -/
structure State (Θ : Type) where
  params : List Θ
  distances : List ℝ
  smooths : List ℝ
  all : List ℝ
  eps : ℝ
  accept : Nat
  until_ : Nat
  journal : List (List Θ × List ℝ)
  counter : Nat
  stopped : Bool

/-- Lines 1976-2004: perturb a particle chosen at random. Every particle has weight one (1643). With `epsilon` zero the exponent is plus or minus infinity or not a number, and the comparison is as
written here; the densities in the quotient are taken as not zero. -/
noncomputable def move (env : Env W Θ Y) (fuel n : Nat) (s : State Θ) (w : W) : Option (Out Θ) :=
  let i := env.choose n w
  (s.params[i.2]?).bind fun θ => (s.smooths[i.2]?).bind fun sθ =>
    (propose env.pdf (env.perturb ⟨s.params, List.replicate n 1⟩ i.2) fuel i.1).bind fun a =>
      let b := env.sim a.2 a.1
      let d := env.dist b.2
      let u := env.unif b.1
      (smooth s.all d).map fun sd =>
        ⟨a.2, d, [], i.2, if s.eps = 0 then sd < sθ else u.2 < env.pdf a.2 / env.pdf θ * Real.exp ((sθ - sd) / s.eps), 1⟩

structure Config where
  n : Nat
  steps : Nat
  nUpdate : Nat
  resample : Nat
  delta : ℝ
  eps : ℝ
  cutoff : ℝ
  full : Bool

/-- Assignment at a list of indices; for an index that occurs several times the last value counts. -/
def assign {α : Type} (l : List α) (m : List (Nat × α)) : List α := m.foldl (fun l e => l.set e.1 e.2) l

/-- Line 1747 and 1776. -/
noncomputable def mean (l : List ℝ) : ℝ := l.sum / l.length

/-- `_average_redefined_distance`, lines 1891-1911. -/
noncomputable def average (l : List ℝ) (eps : ℝ) : ℝ :=
  if eps = 0 then 0 else (l.map fun x => x * Real.exp (-x / eps)).sum / (l.map fun x => Real.exp (-x / eps)).sum

/-- Lines 1729-1740 in the first step: all new particles are taken over. -/
noncomputable def begin_ (out : List (Out Θ)) : Option (List Θ × List ℝ × List ℝ × List ℝ) :=
  let all := (out.map Out.all).flatten
  (collect (out.map fun o => smooth all o.d)).map fun sm => (out.map Out.θ, out.map Out.d, sm, all)

/-- Lines 1729-1740 in a later step: the accepted moves replace the particles they started from. The redefined distances are computed from the distances that have just been
stored. -/
noncomputable def replace (s : State Θ) (out : List (Out Θ)) : Option (List Θ × List ℝ × List ℝ × List ℝ) :=
  let acc := out.filter Out.accepted
  let ds := assign s.distances (acc.map fun o => (o.index, o.d))
  (collect (acc.map fun o => (ds[o.index]?).bind fun d => (smooth s.all d).map fun x => (o.index, x))).map fun m =>
    (assign s.params (acc.map fun o => (o.index, o.θ)), ds, assign s.smooths m, s.all)

/-- Lines 1767-1768: the probabilities for resampling. -/
noncomputable def weights (delta u : ℝ) (sm : List ℝ) : List ℝ :=
  let w := sm.map fun x => Real.exp (-x * delta / u)
  w.map fun x => x / w.sum

/-- Lines 1764-1851: resampling if enough moves have been accepted, and the journal. -/
noncomputable def finish (env : Env W Θ Y) (c : Config) (t : Nat) (u : ℝ) (s : State Θ) : Option (State Θ) :=
  let save (s : State Θ) : State Θ :=
    { s with journal := if c.full then s.journal ++ [(s.params, s.distances)] else [(s.params, s.distances)] }
  if c.resample ≤ s.accept ∧ 1 / 10 ^ 100 < u then
    let pick := env.pick t (weights c.delta u s.smooths)
    if pick.length = c.n then
      match collect (pick.map fun i => s.params[i]?), collect (pick.map fun i => s.smooths[i]?), collect (pick.map fun i => s.distances[i]?) with
      | some ps, some sm, some ds => some (save { s with params := ps, smooths := sm, distances := ds, eps := env.schedule (mean sm), accept := 0, until_ := 0 })
      | _, _, _ => none
    else none
  else some (save s)

/-- Iteration `t`, lines 1686-1857; `start` lists the states in which the workers start their tasks, `none` is an exception or a loop that does not end with this fuel. The
covariance matrices are part of `perturb`. -/
noncomputable def step (env : Env W Θ Y) (c : Config) (fuel t : Nat) (start : List W) (s : State Θ) : Option (State Θ) :=
  if start.length ≠ (if t = 0 then c.n else c.nUpdate) ∨ start = [] then none
  else
    match collect (start.map fun w => if t = 0 then first env c.eps 0 fuel w [] 0 else move env fuel c.n s w) with
    | none => none
    | some out => match (if t = 0 then begin_ out else replace s out) with
      | none => none
      | some p =>
        let counter := s.counter + (out.map Out.count).sum
        if t = 0 then
          match collect (p.2.2.2.map (smooth p.2.2.2)) with
          | none => none
          | some l =>
            let u := average l c.eps
            finish env c t u ⟨p.1, p.2.1, p.2.2.1, p.2.2.2, env.schedule u, 0, 0, s.journal, counter, false⟩
        else
          let u := mean p.2.2.1
          let accept := s.accept + out.countP Out.accepted
          let s' : State Θ := ⟨p.1, p.2.1, p.2.2.1, p.2.2.2, env.schedule u, accept, s.until_ + c.nUpdate, s.journal, counter, false⟩
          if (accept : ℝ) / (s.until_ + c.nUpdate : ℕ) < c.cutoff then some { s' with stopped := true }
          else finish env c t u s'

noncomputable def loop (env : Env W Θ Y) (c : Config) (fuel : Nat) (start : Nat → List W) : Nat → Nat → State Θ → Option (State Θ)
  | 0, _, s => some s
  | k + 1, t, s => if s.stopped then some s else match step env c fuel t (start t) s with
    | none => none
    | some s => loop env c fuel start k (t + 1) s

/-- `SABC.sample` without a journal file, on a sampler that has not been used before. -/
noncomputable def run (env : Env W Θ Y) (c : Config) (fuel : Nat) (start : Nat → List W) : Option (State Θ) :=
  loop env c fuel start c.steps 0 ⟨[], [], [], [], c.eps, 0, 0, [], 0, false⟩

end Verif.Sabc
