import Verif.Nan.Num
import Verif.Mcmc.Model
import Mathlib.Analysis.SpecialFunctions.Exp
import Mathlib.Tactic.Linarith
import Mathlib.Tactic.NormNum
import Mathlib.Tactic.Positivity
/-
`MCMCMetropoliHastings` with log-likelihoods that may be infinite or NaN: C194. Proposals, priors, transformations and the generator are those of `Verif.Mcmc`; their densities and Jacobians are real numbers.
-/
namespace Verif.Nan

open Mcmc (Env Args)

/-! ### Arithmetic -/

/-- `a + b` of Python. -/
def Num.add : Num → Num → Num
  | .nan, _ => .nan
  | _, .nan => .nan
  | .num x, .num y => .num (x + y)
  | .inf, .negInf => .nan
  | .negInf, .inf => .nan
  | .inf, _ => .inf
  | _, .inf => .inf
  | .negInf, _ => .negInf
  | _, .negInf => .negInf

/-- `-a` of Python. -/
def Num.neg : Num → Num
  | .num x => .num (-x)
  | .inf => .negInf
  | .negInf => .inf
  | .nan => .nan

/-- `np.exp`. -/
noncomputable def Num.exp : Num → Num
  | .num x => .num (Real.exp x)
  | .inf => .inf
  | .negInf => .num 0
  | .nan => .nan

open Classical in
/-- Infinity with the sign of `x`, NaN for zero. -/
noncomputable def signedInf (x : ℝ) : Num := if 0 < x then .inf else if x < 0 then .negInf else .nan

/-- `a * p` for a finite number `p`. -/
noncomputable def Num.mulReal : Num → ℝ → Num
  | .num x, p => .num (x * p)
  | .inf, p => signedInf p
  | .negInf, p => signedInf (-p)
  | .nan, _ => .nan

open Classical in
/-- `a / p` of numpy for a finite number `p` that is not a negative zero. -/
noncomputable def Num.divReal : Num → ℝ → Num
  | .num x, p => if p = 0 then signedInf x else .num (x / p)
  | .inf, p => if p < 0 then .negInf else .inf
  | .negInf, p => if p < 0 then .inf else .negInf
  | .nan, _ => .nan

/-! ### The chain -/

variable {W α T Cov : Type}

/-- Lines 4383-4391 of inferences.py. -/
noncomputable def alpha (ljAcc ljNew : ℝ) (llNew llAcc : Num) (prNew prAcc : ℝ) : Num :=
  ((((Num.num (ljAcc - ljNew)).add llNew).add llAcc.neg).exp.mulReal prNew).divReal prAcc

/-- Line 4394. -/
def accepts (u ljAcc ljNew : ℝ) (llNew llAcc : Num) (prNew prAcc : ℝ) : Prop := (Num.num u).lt (alpha ljAcc ljNew llNew llAcc prNew prAcc)

/-- The local variables of the loop, as `Mcmc.State`. -/
structure Chain (W α T Cov : Type) where
  w : W
  cur : List α
  curT : T
  ll : Num
  pr : ℝ
  lj : ℝ
  cov : Cov
  chain : List (List α)
  burn : List (List α)
  accepted : ℝ
  sims : Nat

/-- Lines 4372-4375 and 4407-4410. -/
def Chain.record (s : Chain W α T Cov) (burnin k : Nat) : Chain W α T Cov :=
  if k ≥ burnin then { s with chain := s.chain ++ [s.cur] } else { s with burn := s.burn ++ [s.cur] }

/-- Lines 4412-4433, as `Mcmc.State.adaptCov`. -/
def Chain.adaptCov (env : Env W α T Cov) (s : Chain W α T Cov) (burnin k : Nat) (interval : Option Nat) : Option (Chain W α T Cov) :=
  if k ≥ burnin then some s
  else match interval with
    | none => some s
    | some i => if i = 0 then none else if (k + 1) % i = 0 then some { s with cov := env.adapt s.burn } else some s

open Classical in
/-- One round of the loop, lines 4347-4433, as `Mcmc.step`; `loglik` is `_simulate_and_compute_log_lik` (4509-4560). -/
noncomputable def mhStep (env : Env W α T Cov) (loglik : List α → W → W × Num) (burnin : Nat) (interval : Option Nat) (k : Nat) (s : Chain W α T Cov) : Option (Chain W α T Cov) :=
  let p := env.propose s.cov s.curT s.w
  match env.inv p.2 with
  | none => none
  | some θ =>
    if env.pdf θ = 0 then some ({ s with w := p.1 }.record burnin k)
    else
      let r := loglik θ p.1
      match env.jac θ with
      | none => none
      | some lj =>
        let u := env.unif r.1
        let s' : Chain W α T Cov := { s with w := u.1, sims := s.sims + 1 }
        let s'' : Chain W α T Cov :=
          if accepts u.2 s.lj lj r.2 s.ll (env.pdf θ) s.pr then
            { s' with cur := θ, curT := p.2, ll := r.2, pr := env.pdf θ, lj := lj, accepted := if k ≥ burnin then s.accepted + 1 else s.accepted }
          else s'
        (s''.record burnin k).adaptCov env burnin k interval

/-- Line 4347: `for aStep in range(burnin + n_samples)`. -/
noncomputable def mhLoop (env : Env W α T Cov) (loglik : List α → W → W × Num) (burnin : Nat) (interval : Option Nat) : List Nat → Chain W α T Cov → Option (Chain W α T Cov)
  | [], s => some s
  | k :: ks, s => match mhStep env loglik burnin interval k s with
    | none => none
    | some s => mhLoop env loglik burnin interval ks s

/-- `sample` without a journal file, lines 4260-4298 and 4323-4435, as `Mcmc.fresh`, up to the end of the loop. -/
noncomputable def mhRun (env : Env W α T Cov) (loglik : List α → W → W × Num) (a : Args α Cov) (w : W) (counter : Nat) : Option (Chain W α T Cov) :=
  let x := Mcmc.initial env a w
  let r := loglik x.2 x.1
  match env.tr x.2 with
  | none => none
  | some t => match env.jac x.2 with
    | none => none
    | some lj =>
      mhLoop env loglik a.burnin a.interval (List.range (a.burnin + a.n))
        ⟨r.1, x.2, t, r.2, env.pdf x.2, lj, a.cov.getD (env.eye t), [], if a.burnin = 0 then [x.2] else [], 0, counter + 1⟩

end Verif.Nan
