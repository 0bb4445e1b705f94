import Verif.Journal.Model
import Verif.Transform.Model
/-
Model of `MCMCMetropoliHastings` (`abcpy/inferences.py` 4073-4605). Numbers are real; log-likelihoods are finite. `W` is the state of the random number generators and
workers. The journal file is read back as it was written (`pickle`). Not modelled: progress bars, logging, the configuration entries
that are only copied, the check of `bounds` for being a dictionary of pairs (4236-4246).
-/
namespace Verif.Mcmc

/-! ### Bounds -/

/-- What is raised. -/
inductive Err
  | keyError | transform (e : Transform.Err) | zeroDivision | indexError
  deriving DecidableEq

/-- Lines 4238-4258: bounds given by name become one pair per parameter. `names` are the parameters in the order of the graph, with the indices of
line 4114 (for a repeated name the index of its last occurrence). -/
def mkBounds (names : List String) (bounds : List (String × Transform.Bound)) : Except Err (List Transform.Bound) :=
  if bounds.any (fun e => !names.contains e.1) then .error .keyError
  else
    let place (l : List (Option ℝ)) (i : Nat) (v : Option ℝ) := l.set i v
    let index (name : String) := (names.zipIdx.reverse.find? fun e => e.1 == name).elim 0 (·.2)
    let none' := List.replicate names.length (none : Option ℝ)
    match Transform.new (bounds.foldl (fun l e => place l (index e.1) e.2.1) none')
        (bounds.foldl (fun l e => place l (index e.1) e.2.2) none') with
    | .error e => .error (.transform e)
    | .ok bs => .ok bs

/-! ### The chain -/

/-- What the sampler works with. `P` are parameter vectors, `T` transformed ones. `tr`, `inv` and `jac` are the methods of the transformer, `none` if they
raise. `propose` is `kernel.update` with a covariance around the transformed current state (4357, 4362); `loglik` is
`_simulate_and_compute_log_lik` (4509-4560); `adapt` computes the new covariance from the burn-in states (4417-4430); `eye` is the default covariance (4340). -/
structure Env (W α T Cov : Type) where
  names : List String
  prior : W → W × List α
  pdf : List α → ℝ
  loglik : List α → W → W × ℝ
  tr : List α → Option T
  inv : T → Option (List α)
  jac : List α → Option ℝ
  propose : Cov → T → W → W × T
  unif : W → W × ℝ
  adapt : List (List α) → Cov
  eye : T → Cov

variable {W α T Cov : Type}

/-- The local variables of the loop. -/
structure State (W α T Cov : Type) where
  w : W
  cur : List α
  curT : T
  ll : ℝ
  pr : ℝ
  lj : ℝ
  cov : Cov
  chain : List (List α)
  burn : List (List α)
  accepted : ℝ
  sims : Nat

/-- Lines 4386-4391; a prior density in the denominator that is zero gives infinity, see `accepts`. -/
noncomputable def alpha (ljAcc ljNew llNew llAcc prNew prAcc : ℝ) : ℝ := Real.exp (ljAcc - ljNew + llNew - llAcc) * prNew / prAcc

open Classical in
/-- Line 4394. `prNew` is not zero here. -/
noncomputable def accepts (u ljAcc ljNew llNew llAcc prNew prAcc : ℝ) : Bool :=
  if prAcc = 0 then true else decide (u < alpha ljAcc ljNew llNew llAcc prNew prAcc)

/-- Lines 4372-4375 and 4407-4410: append the current state to the trace. -/
def State.record (s : State W α T Cov) (burnin k : Nat) : State W α T Cov :=
  if k ≥ burnin then { s with chain := s.chain ++ [s.cur] } else { s with burn := s.burn ++ [s.cur] }

/-- Lines 4412-4433: during burn-in adapt the covariance every `interval` steps; `none` is the division by zero for interval 0. -/
def State.adaptCov (env : Env W α T Cov) (s : State W α T Cov) (burnin k : Nat) (interval : Option Nat) : Option (State W α T Cov) :=
  if k ≥ burnin then some s
  else match interval with
    | none => some s
    | some i => if i = 0 then none else if (k + 1) % i = 0 then some { s with cov := env.adapt s.burn } else some s

open Classical in
/-- One round of the loop, lines 4347-4433. -/
noncomputable def step (env : Env W α T Cov) (burnin : Nat) (interval : Option Nat) (k : Nat) (s : State W α T Cov) : Option (State W α T Cov) :=
  let p := env.propose s.cov s.curT s.w
  match env.inv p.2 with
  | none => none
  | some θ =>
    if env.pdf θ = 0 then some ({ s with w := p.1 }.record burnin k)
    else
      let r := env.loglik θ p.1
      match env.jac θ with
      | none => none
      | some lj =>
        let u := env.unif r.1
        let s' : State W α T Cov := { s with w := u.1, sims := s.sims + 1 }
        let s'' : State W α T Cov :=
          if accepts u.2 s.lj lj r.2 s.ll (env.pdf θ) s.pr then
            { s' with cur := θ, curT := p.2, ll := r.2, pr := env.pdf θ, lj := lj, accepted := if k ≥ burnin then s.accepted + 1 else s.accepted }
          else s'
        (s''.record burnin k).adaptCov env burnin k interval

/-- Line 4347: `for aStep in range(burnin + n_samples)`. -/
noncomputable def loop (env : Env W α T Cov) (burnin : Nat) (interval : Option Nat) : List Nat → State W α T Cov → Option (State W α T Cov)
  | [], s => some s
  | k :: ks, s => match step env burnin interval k s with
    | none => none
    | some s => loop env burnin interval ks s

/-! ### One call of `sample` -/

/-- A dictionary made from pairs: for a repeated name the last pair counts. -/
def asDict {β : Type} (pairs : List (String × β)) (name : String) : Option β :=
  (pairs.reverse.find? fun e => e.1 == name).map (·.2)

/-- What the journal holds. It keeps the last population only (type 0), see C30. -/
structure Jrn (α Cov : Type) where
  chain : List (List α)
  user : String → Option (List (List α))
  weights : List ℝ
  rates : List ℝ
  sims : List Nat
  n : Nat
  ll : ℝ
  cov : Cov

structure Args (α Cov : Type) where
  n : Nat
  burnin : Nat
  cov : Option Cov
  ini : Option (List α)
  interval : Option Nat

/-- Lines 4323-4343. -/
def begin_ (env : Env W α T Cov) (w : W) (θ : List α) (ll : ℝ) (cov : Option Cov) (burn : List (List α)) (accepted : ℝ) (sims : Nat) :
    Option (State W α T Cov) :=
  match env.tr θ with
  | none => none
  | some t => match env.jac θ with
    | none => none
    | some lj => some ⟨w, θ, t, ll, env.pdf θ, lj, cov.getD (env.eye t), [], burn, accepted, sims⟩

/-- Lines 4282-4290: the given starting point or a draw from the prior. -/
def initial (env : Env W α T Cov) (a : Args α Cov) (w : W) : W × List α :=
  match a.ini with
  | none => env.prior w
  | some θ => (w, θ)

/-- `sample` without a journal file, lines 4260-4298 and 4435-4459. `counter` is the simulation counter of the sampler before the call. `none` is an exception (of the
transformer, or the division of line 4435). The first component of the result is the state of the generator after the call. -/
noncomputable def fresh (env : Env W α T Cov) (a : Args α Cov) (w : W) (counter : Nat) : Option (W × Jrn α Cov) :=
  let x := initial env a w
  let r := env.loglik x.2 x.1
  match begin_ env r.1 x.2 r.2 a.cov (if a.burnin = 0 then [x.2] else []) 0 (counter + 1) with
  | none => none
  | some s => match loop env a.burnin a.interval (List.range (a.burnin + a.n)) s with
    | none => none
    | some s =>
      if a.n = 0 then none
      else some (s.w, ⟨s.chain, asDict (Journal.namedColumns env.names s.chain), List.replicate a.n 1, [s.accepted / a.n], [s.sims], a.n, s.ll, s.cov⟩)

/-- Lines 4441-4443: the columns of the old journal followed by the new ones; `none` for a name that is not there. -/
def joinColumns (old : String → Option (List (List α))) (new : List (String × List (List α))) : Option (List (String × List (List α))) :=
  collect (new.map fun e => (old e.1).map fun c => (e.1, c ++ e.2))

/-- `sample` with a journal file, lines 4299-4318 and 4435-4459. -/
noncomputable def restart (env : Env W α T Cov) (a : Args α Cov) (w : W) (j : Jrn α Cov) : Option (W × Jrn α Cov) :=
  match j.rates.getLast?, j.chain.getLast?, j.sims.getLast? with
  | some rate, some θ, some sims =>
    match begin_ env w θ j.ll (some (a.cov.getD j.cov)) [] (rate * j.n) sims with
    | none => none
    | some s => match loop env a.burnin a.interval (List.range (a.burnin + a.n)) s with
      | none => none
      | some s =>
        if j.n + a.n = 0 then none
        else match joinColumns j.user (Journal.namedColumns env.names s.chain) with
          | none => none
          | some cols =>
            some (s.w, ⟨j.chain ++ s.chain, asDict cols, List.replicate (j.n + a.n) 1, j.rates ++ [s.accepted / (j.n + a.n : Nat)], j.sims ++ [s.sims], j.n + a.n, s.ll, s.cov⟩)
  | _, _, _ => none

/-- A session: calls of `sample` that each read the journal written by the previous one, with the states of their generators. -/
noncomputable def restarts (env : Env W α T Cov) : Jrn α Cov → List (Args α Cov × W) → Option (Jrn α Cov)
  | j, [] => some j
  | j, (a, w) :: calls => match restart env a w j with
    | none => none
    | some r => restarts env r.2 calls

end Verif.Mcmc
