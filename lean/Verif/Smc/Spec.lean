import Verif.Smc.Model
/-
What a move of a particle of `SMCABC` should be, written without the loops of the model.
-/
namespace Verif.Smc.Spec

open Verif.Pmc (Pop)

variable {W Θ Y A : Type}

/-- Perturb until the values are accepted by the graph and have a prior density that is not zero. -/
inductive Proposal (pdf : Θ → ℝ) (perturb : W → W × Option Θ) : W → W → Θ → Prop
  | take (w : W) (θ : Θ) : (perturb w).2 = some θ → pdf θ ≠ 0 → Proposal pdf perturb w (perturb w).1 θ
  | refused (w w' : W) (θ : Θ) : (perturb w).2 = none → Proposal pdf perturb (perturb w).1 w' θ → Proposal pdf perturb w w' θ
  | impossible (w w' : W) (θ θ' : Θ) : (perturb w).2 = some θ' → pdf θ' = 0 → Proposal pdf perturb (perturb w).1 w' θ → Proposal pdf perturb w w' θ

/-- Trials one after the other, from state `w` to state `w'`. -/
inductive Trials (trial : W → W → A → Prop) : W → W → List A → Prop
  | nil (w : W) : Trials trial w w []
  | cons (w w1 w' : W) (a : A) (l : List A) : trial w w1 a → Trials trial w1 w' l → Trials trial w w' (a :: l)

open Classical in
/-- The number of hits. -/
noncomputable def hitCount (hit : A → Prop) (l : List A) : Nat := (l.filter fun a => decide (hit a)).length

/-- A list of trials that ends with hit number `r`. -/
def StopsAt (hit : A → Prop) (r : Nat) (l : List A) : Prop := hitCount hit l = r ∧ ∀ a, l.getLast? = some a → hit a

open Classical in
/-- The positions of the first `k` hits. -/
noncomputable def firstHits (hit : A → Prop) (k : Nat) (l : List A) : List Nat :=
  ((List.range l.length).filter fun j => decide (∃ a, l[j]? = some a ∧ hit a)).take k

/-- The Metropolis-Hastings probability for the move from `θ` to `θ'` when the data favour `θ'` over `θ` as `n'` to `n`. `kernel p a b` is the density of proposing `b` from `a`. -/
noncomputable def mh (env : Env W Θ Y) (p : Pop Θ) (θ θ' : Θ) (n n' : ℝ) : ℝ :=
  min 1 ((n' * env.pdf θ' * env.kernel p θ' θ) / (n * env.pdf θ * env.kernel p θ θ'))

/-- The number of parts of a simulation that are closer than `eps`. -/
noncomputable def closer (env : Env W Θ Y) (eps : ℝ) (y : Y) : ℝ := hitCount (· < eps) (env.dists y)

open Classical in
/-- The acceptance probability of kernel 0. -/
noncomputable def acceptance0 (env : Env W Θ Y) (eps : ℝ) (p : Pop Θ) (θ : Θ) (y : Y) (θ' : Θ) (y' : Y) : ℝ :=
  if closer env eps y = 0 then mh env p θ θ' 1 1 else mh env p θ θ' (closer env eps y) (closer env eps y')

/-- A simulation at `θ`. -/
def Sim (env : Env W Θ Y) (θ : Θ) (w w' : W) (y : Y) : Prop := env.sim θ w = (w', y)

/-- A proposal and a simulation at it. -/
def ProposeSim (env : Env W Θ Y) (perturb : W → W × Option Θ) (w w' : W) (a : Θ × Y) : Prop :=
  ∃ w1, Proposal env.pdf perturb w w1 a.1 ∧ Sim env a.1 w1 w' a.2

/-- Kernel 0: one proposal, one simulation, one decision. -/
def Move0 (env : Env W Θ Y) (eps : ℝ) (p : Pop Θ) (i : Nat) (θ : Θ) (y : Y) (w : W) (o : Out Θ Y) : Prop :=
  ∃ w1 w2 θ' y', Proposal env.pdf (env.perturb p i) w w1 θ' ∧ Sim env θ' w1 w2 y' ∧
    o = if (env.bern (acceptance0 env eps p θ y θ' y') w2).2 then ⟨θ', y', env.dist y', 1⟩ else ⟨θ, y, env.dist y, 1⟩

/-- Kernel 1 (r-hit): simulate at `θ` up to hit `r - 1`, propose, simulate at the proposal up to hit `r`; the new simulation is one of the first `r - 1` hits. -/
def Move1 (env : Env W Θ Y) (r : Nat) (eps : ℝ) (p : Pop Θ) (i : Nat) (θ : Θ) (y : Y) (w : W) (o : Out Θ Y) : Prop :=
  ∃ w1 w2 w3 θ' old new, Trials (Sim env θ) w w1 old ∧ StopsAt (env.dist · < eps) (r - 1) old ∧
    Proposal env.pdf (env.perturb p i) w1 w2 θ' ∧
    Trials (Sim env θ') w2 w3 new ∧ StopsAt (env.dist · < eps) r new ∧
    (let b := env.bern (mh env p θ θ' (new.length - 1) old.length) w3
     if b.2 then ∃ y', new[(env.pick (firstHits (env.dist · < eps) (r - 1) new) b.1).2]? = some y' ∧
        o = ⟨θ', y', env.dist y', old.length + new.length⟩
      else o = ⟨θ, y, env.dist y, old.length + new.length⟩)

/-- Kernel 2 (r-hit, version 2): propose and simulate up to hit `r`, take one of the first `r - 1` hits, propose from it and simulate up to hit `r - 1`. -/
def Move2 (env : Env W Θ Y) (r : Nat) (eps : ℝ) (p : Pop Θ) (i : Nat) (θ : Θ) (y : Y) (w : W) (o : Out Θ Y) : Prop :=
  ∃ w1 w2 θ' y' prime back, Trials (ProposeSim env (env.perturb p i)) w w1 prime ∧ StopsAt (fun a => env.dist a.2 < eps) r prime ∧
    (let l := env.pick (firstHits (fun a => env.dist a.2 < eps) (r - 1) prime) w1
     prime[l.2]? = some (θ', y') ∧
     Trials (ProposeSim env (env.around p θ')) l.1 w2 back ∧ StopsAt (fun a => env.dist a.2 < eps) (r - 1) back ∧
     o = if (env.bern (mh env p θ θ' (prime.length - 1) back.length) w2).2 then ⟨θ', y', env.dist y', prime.length + back.length⟩
       else ⟨θ, y, env.dist y, prime.length + back.length⟩)

/-- A move: particles without weight stay, without a simulation; the others are moved by the kernel that was asked for. -/
def Move (env : Env W Θ Y) (which : Nat) (r : Option Nat) (eps : ℝ) (p : Pop Θ) (i : Nat) (θ : Θ) (wt : ℝ) (y : Y) (w : W) (o : Out Θ Y) : Prop :=
  if 0 < wt then
    (which = 0 ∧ Move0 env eps p i θ y w o) ∨ (which = 1 ∧ Move1 env (r.getD 3) eps p i θ y w o) ∨ (which = 2 ∧ Move2 env (r.getD 2) eps p i θ y w o)
  else o = ⟨θ, y, env.dist y, 0⟩

/-! ### Weights and thresholds -/

open Classical in
/-- The weight of a particle with weight `wt`, simulation `y` and distance `d` when the threshold goes from `e` to `x`, up to a common factor: one or zero in the version of
Bernton et al., otherwise the old weight times the fraction of the parts of the simulation below `e` that are below `x`. -/
noncomputable def rawWeight (env : Env W Θ Y) (bernton : Bool) (e x : ℝ) (wt : ℝ) (y : Y) (d : ℝ) : ℝ :=
  if bernton then (if d < x then 1 else 0)
  else if closer env e y = 0 then 0 else wt * (closer env x y / closer env e y)

/-- `l` are the weights of the population `p`, up to a common factor, when the threshold goes from `e` to `x`. -/
def RawWeights (env : Env W Θ Y) (bernton : Bool) (e x : ℝ) (p : Rec Θ Y) (l : List ℝ) : Prop :=
  l.length = p.params.length ∧
  ∀ (i : Nat) (wt : ℝ) (y : Y) (d : ℝ), p.weights[i]? = some wt → p.sims[i]? = some y → p.distances[i]? = some d →
    l[i]? = some (rawWeight env bernton e x wt y d)

/-- The effective sample size of weights known up to a factor. -/
noncomputable def essRaw (w : List ℝ) : ℝ := w.sum ^ 2 / (w.map (· ^ 2)).sum

/-- How much of the population is left with unnormalised weights `l`: the effective sample size in relation to that before; in the version of Bernton et al. the fraction of
different particles after resampling with fixed random numbers. Zero if no weight is left. -/
noncomputable def kept (c : Config) (dr : Draws) (p : Rec Θ Y) (l : List ℝ) : ℝ :=
  if l.sum = 0 then 0
  else if c.bernton then (dr.unique (l.map fun x => x / l.sum) : ℝ) / c.n else essRaw l / essRaw p.weights

/-- `v` is what is left of the population `p` when the threshold goes from `e` to `x`. -/
def Kept (env : Env W Θ Y) (c : Config) (dr : Draws) (e : ℝ) (p : Rec Θ Y) (x v : ℝ) : Prop :=
  ∃ l, RawWeights env c.bernton e x p l ∧ v = kept c dr p l

/-- The rule for the threshold after `e`: it lies between `epsilon_final` and `e`, and if less than the fraction `alpha` of the population is left at `epsilon_final` and more than
`alpha` at `e`, it is up to 0.001 a point where this changes. -/
def Threshold (env : Env W Θ Y) (c : Config) (dr : Draws) (e : ℝ) (p : Rec Θ Y) (e' : ℝ) : Prop :=
  c.final ≤ e' ∧ e' < e ∧
  ∀ v v', Kept env c dr e p c.final v → Kept env c dr e p e v' → v < c.alpha → c.alpha < v' →
    Kept env c dr e p e' c.alpha ∨
    ∃ a b va vb, c.final ≤ a ∧ a ≤ e' ∧ e' ≤ b ∧ b ≤ e ∧ e' - a ≤ 0.001 ∧ b - e' ≤ 0.001 ∧
      Kept env c dr e p a va ∧ va < c.alpha ∧ Kept env c dr e p b vb ∧ c.alpha < vb

/-! ### Runs -/

/-- The population `q` on which the moves act: the weights `l`, made to sum to one; if these have an effective sample size below `resample`, or always in the version of Bernton et al.,
particles drawn according to them with equal weights. -/
def Resampled (c : Config) (dr : Draws) (t : Nat) (p : Rec Θ Y) (l : List ℝ) (q : Pop Θ) : Prop :=
  l.sum ≠ 0 ∧
  if c.bernton = true ∨ essRaw l < c.resample then
    q.params.length = (dr.choice t (l.map fun x => x / l.sum)).length ∧
    (∀ (i j : Nat), (dr.choice t (l.map fun x => x / l.sum))[i]? = some j → ∃ θ, p.params[j]? = some θ ∧ q.params[i]? = some θ) ∧
    q.weights = List.replicate c.n (1 / (c.n : ℝ))
  else q.params = p.params ∧ q.weights = l.map fun x => x / l.sum

/-- A step of the run after the first: from population `p` with threshold `e` to the results `outs` with threshold `e'`. Particle `i` is moved by worker `i`, with the simulation of
particle `i` before resampling. -/
def Step (env : Env W Θ Y) (c : Config) (dr : Draws) (t : Nat) (start : List W) (e : ℝ) (p : Rec Θ Y) (e' : ℝ) (weights : List ℝ) (outs : List (Out Θ Y)) : Prop :=
  Threshold env c dr e p e' ∧
  ∃ l q, RawWeights env c.bernton e e' p l ∧ Resampled c dr t p l q ∧ weights = q.weights ∧ outs.length = start.length ∧
    ∀ (i : Nat) (o : Out Θ Y), outs[i]? = some o → ∃ θ wt y w, q.params[i]? = some θ ∧ q.weights[i]? = some wt ∧ p.sims[i]? = some y ∧ start[i]? = some w ∧
      Move env c.which c.r e' q i θ wt y w o

/-- The first population: every worker samples from the prior and simulates. -/
def First (env : Env W Θ Y) (start : List W) (outs : List (Out Θ Y)) : Prop :=
  outs.length = start.length ∧ ∀ (i : Nat) (w : W), start[i]? = some w → ∃ w1 θ w2 y, env.prior w = (w1, θ) ∧ Sim env θ w1 w2 y ∧ outs[i]? = some ⟨θ, y, env.dist y, 1⟩

/-- Histories: thresholds, populations and number of simulations of a run. -/
inductive History (env : Env W Θ Y) (c : Config) (dr : Draws) (start : Nat → List W) (first : ℝ) : List ℝ → List (Rec Θ Y) → Nat → Prop
  | first (outs : List (Out Θ Y)) : First env (start 0) outs →
      History env c dr start first [first] [⟨outs.map Out.θ, outs.map Out.y, outs.map Out.d, List.replicate c.n (1 / (c.n : ℝ))⟩] (outs.map Out.count).sum
  | step (es : List ℝ) (e e' : ℝ) (ps : List (Rec Θ Y)) (p : Rec Θ Y) (k : Nat) (weights : List ℝ) (outs : List (Out Θ Y)) :
      History env c dr start first (es ++ [e]) (ps ++ [p]) k → c.final < e → Step env c dr (ps.length + 1) (start (ps.length + 1)) e p e' weights outs →
      History env c dr start first (es ++ [e] ++ [e']) (ps ++ [p] ++ [⟨outs.map Out.θ, outs.map Out.y, outs.map Out.d, weights⟩]) (k + (outs.map Out.count).sum)

end Verif.Smc.Spec
