import Verif.Mcmc.Resume
/-!
# C203: constant factors of densities, `MCMCMetropoliHastings`

The same call of `MCMCMetropoliHastings.sample` (inferences.py 4142-4459) for a prior density with a constant factor and a log-likelihood with a constant summand.
-/
namespace Verif.Scale

open Verif.Mcmc

variable {W α T Cov : Type}

/-- Specification: the same problem, with prior density `c` times as large, and `a` added to the log-likelihoods. -/
def mcmcEnv (c a : ℝ) (env : Env W α T Cov) : Env W α T Cov :=
  { env with pdf := fun θ => c * env.pdf θ, loglik := fun θ w => ((env.loglik θ w).1, (env.loglik θ w).2 + a) }

/-- The same state for the changed problem. -/
def mcmcState (c a : ℝ) (s : State W α T Cov) : State W α T Cov := { s with ll := s.ll + a, pr := c * s.pr }

variable {c : ℝ} (hc : 0 < c) (a : ℝ) (env : Env W α T Cov)

include hc in
theorem accepts_scale (u l l' x y p q : ℝ) : accepts u l l' (x + a) (y + a) (c * p) (c * q) = accepts u l l' x y p q := by
  unfold accepts alpha
  by_cases h : q = 0
  · simp [h]
  · rw [if_neg h, if_neg (by positivity), show l - l' + (x + a) - (y + a) = l - l' + x - y by ring]
    congr 2
    field_simp

theorem record_scale (s : State W α T Cov) (b k : Nat) : (mcmcState c a s).record b k = mcmcState c a (s.record b k) := by
  unfold State.record
  split <;> rfl

theorem adaptCov_scale (s : State W α T Cov) (b k : Nat) (i : Option Nat) :
    (mcmcState c a s).adaptCov (mcmcEnv c a env) b k i = (s.adaptCov env b k i).map (mcmcState c a) := by
  unfold State.adaptCov
  split
  · rfl
  · cases i with
    | none => rfl
    | some i =>
      simp only
      split
      · rfl
      · split <;> rfl

include hc in
theorem mcmc_step_scale (b : Nat) (i : Option Nat) (k : Nat) (s : State W α T Cov) :
    step (mcmcEnv c a env) b i k (mcmcState c a s) = (step env b i k s).map (mcmcState c a) := by
  unfold step
  simp only [mcmcEnv, mcmcState]
  cases hi : env.inv (env.propose s.cov s.curT s.w).2 with
  | none => rfl
  | some θ =>
    simp only [mul_eq_zero, hc.ne', false_or]
    by_cases h0 : env.pdf θ = 0
    · rw [if_pos h0, if_pos h0, Option.map_some]
      exact congrArg some (record_scale (c := c) a { s with w := (env.propose s.cov s.curT s.w).1 } b k)
    · rw [if_neg h0, if_neg h0]
      cases hj : env.jac θ with
      | none => rfl
      | some lj =>
        simp only [accepts_scale hc a]
        rw [← adaptCov_scale, ← record_scale]
        have e : ∀ (v : Bool) (s t : State W α T Cov), mcmcState c a (if v then s else t) = if v then mcmcState c a s else mcmcState c a t := by
          intro v s t
          cases v <;> rfl
        rw [e]
        rfl

include hc in
theorem loop_scale (b : Nat) (i : Option Nat) (ks : List Nat) (s : State W α T Cov) :
    loop (mcmcEnv c a env) b i ks (mcmcState c a s) = (loop env b i ks s).map (mcmcState c a) := by
  induction ks generalizing s with
  | nil => rfl
  | cons k ks ih =>
    rw [loop, loop, mcmc_step_scale hc]
    cases step env b i k s with
    | none => rfl
    | some t => exact ih t

theorem begin_scale (w : W) (θ : List α) (ll : ℝ) (cov : Option Cov) (burn : List (List α)) (acc : ℝ) (sims : Nat) :
    begin_ (mcmcEnv c a env) w θ (ll + a) cov burn acc sims = (begin_ env w θ ll cov burn acc sims).map (mcmcState c a) := by
  unfold begin_
  simp only [mcmcEnv]
  cases env.tr θ with
  | none => rfl
  | some t => cases env.jac θ <;> rfl

/-- Specification: the journal of the changed problem; only the recorded log-likelihood is shifted. -/
def shifted (a : ℝ) (j : Jrn α Cov) : Jrn α Cov := { j with ll := j.ll + a }

include hc in
/-- **C203, Metropolis-Hastings.** A constant factor of the prior density and a constant added to the log-likelihoods do not change a call of `sample`: it returns if and only if it did, leaves
the generators in the same state, and writes the same journal, except that the recorded log-likelihood of the last state is shifted. -/
theorem C203_mcmc (x : Args α Cov) (w : W) (counter : Nat) :
    fresh (mcmcEnv c a env) x w counter = (fresh env x w counter).map fun r => (r.1, shifted a r.2) := by
  unfold fresh
  have hi : initial (mcmcEnv c a env) x w = initial env x w := by
    unfold initial
    cases x.ini <;> rfl
  rw [hi]
  generalize initial env x w = y
  simp only
  rw [show ((mcmcEnv c a env).loglik y.2 y.1) = ((env.loglik y.2 y.1).1, (env.loglik y.2 y.1).2 + a) from rfl]
  simp only
  rw [begin_scale]
  cases begin_ env (env.loglik y.2 y.1).1 y.2 (env.loglik y.2 y.1).2 x.cov (if x.burnin = 0 then [y.2] else []) 0 (counter + 1) with
  | none => rfl
  | some s =>
    simp only [Option.map_some]
    rw [loop_scale hc]
    cases loop env x.burnin x.interval (List.range (x.burnin + x.n)) s with
    | none => rfl
    | some t =>
      simp only [Option.map_some]
      split <;> rfl

include hc in
/-- **C203, restarts of Metropolis-Hastings.** -/
theorem C203_mcmc_restart (x : Args α Cov) (w : W) (j : Jrn α Cov) :
    restart (mcmcEnv c a env) x w (shifted a j) = (restart env x w j).map fun r => (r.1, shifted a r.2) := by
  unfold restart
  simp only [shifted]
  cases j.rates.getLast? with
  | none => rfl
  | some rate =>
    cases j.chain.getLast? with
    | none => rfl
    | some θ =>
      cases j.sims.getLast? with
      | none => rfl
      | some sims =>
        simp only
        rw [begin_scale]
        cases begin_ env w θ j.ll (some (x.cov.getD j.cov)) [] (rate * j.n) sims with
        | none => rfl
        | some s =>
          simp only [Option.map_some]
          rw [loop_scale hc]
          cases loop env x.burnin x.interval (List.range (x.burnin + x.n)) s with
          | none => rfl
          | some t =>
            simp only [Option.map_some]
            have e : Journal.namedColumns (mcmcEnv c a env).names (mcmcState c a t).chain = Journal.namedColumns env.names t.chain := rfl
            rw [e]
            by_cases hn : j.n + x.n = 0
            · simp only [hn, if_true, Option.map_none]
            · simp only [hn, if_false]
              cases joinColumns j.user (Journal.namedColumns env.names t.chain) <;> rfl

end Verif.Scale
