import Verif.Apmc.Model
import Verif.Sabc.Model
import Verif.Subsim.Model
import Verif.Scale.Pmc
/-!
# C203: constant factors of densities, samplers that move particles

Runs of `SMCABC.sample` (inferences.py 3178-4070), `RSMCABC.sample` (2446-2823), `SABC.sample` (1491-2031), `ABCsubsim.sample` (2034-2443) and `APMCABC.sample` (2826-3175) for a prior density and a
kernel density with constant factors.
-/
namespace Verif.Scale

open Verif.Pmc (Pop normalise percentile)
open Verif.Smc (propose)

variable {W Θ Y : Type} {c k : ℝ} (hc : 0 < c) (hk : 0 < k)

include hc in
theorem propose_scale (pdf : Θ → ℝ) (perturb : W → W × Option Θ) (fuel : Nat) (w : W) : propose (fun θ => c * pdf θ) perturb fuel w = propose pdf perturb fuel w := by
  induction fuel generalizing w with
  | zero => rfl
  | succ fuel ih =>
    unfold propose
    simp only
    cases (perturb w).2 with
    | none => exact ih _
    | some θ =>
      simp only [ne_eq, mul_eq_zero, hc.ne', false_or]
      by_cases h : pdf θ = 0
      · simp only [h, not_true, if_false]
        exact ih _
      · simp only [h, not_false_iff, if_true]

include hc hk in
theorem ratio_scale (p q x y : ℝ) : c * p / (c * q) * (k * x / (k * y)) = p / q * (x / y) := by
  rw [mul_div_mul_left _ _ hc.ne', mul_div_mul_left _ _ hk.ne']

/-! ### SMCABC -/

section Smc
open Smc

/-- Specification: the same problem, with prior density `c` times and kernel density `k` times as large. -/
def smcEnv (c k : ℝ) (env : Env W Θ Y) : Env W Θ Y := { env with pdf := fun θ => c * env.pdf θ, kernel := fun p x y => k * env.kernel p x y }

variable (env : Env W Θ Y)

include hc hk in
theorem smc_ratio (p : Pop Θ) (θ θ' : Θ) : ratio (smcEnv c k env) p θ θ' = ratio env p θ θ' := ratio_scale hc hk _ _ _ _

include hc hk in
theorem smc_prob0 (eps : ℝ) (p : Pop Θ) (θ : Θ) (y : Y) (θ' : Θ) (y' : Y) : prob0 (smcEnv c k env) eps p θ y θ' y' = prob0 env eps p θ y θ' y' := by
  unfold prob0
  rw [smc_ratio hc hk]
  rfl

include hc in
theorem smc_propose (f : W → W × Option Θ) (fuel : Nat) (w : W) : propose (smcEnv c k env).pdf f fuel w = propose env.pdf f fuel w := propose_scale hc _ _ _ _

include hc hk in
theorem smc_mcmc (which : Nat) (r : Option Nat) (fuel : Nat) (eps : ℝ) (p : Pop Θ) (i : Nat) (θ : Θ) (wt : ℝ) (y : Y) (w : W) :
    mcmc (smcEnv c k env) which r fuel eps p i θ wt y w = mcmc env which r fuel eps p i θ wt y w := by
  unfold mcmc accept0 accept1 accept2
  simp only [smc_propose hc, smc_prob0 hc hk, smc_ratio hc hk]
  rfl

include hc hk in
theorem smc_step (cf : Config) (dr : Draws) (fuel t : Nat) (start : List W) (s : State Θ Y) : smcStep (smcEnv c k env) cf dr fuel t start s = smcStep env cf dr fuel t start s := by
  unfold smcStep moved
  simp only [smc_mcmc hc hk]
  rfl

include hc hk in
theorem smc_loop (cf : Config) (dr : Draws) (fuel : Nat) (start : Nat → List W) (r t : Nat) (s : State Θ Y) :
    smcLoop (smcEnv c k env) cf dr fuel start r t s = smcLoop env cf dr fuel start r t s := by
  induction r generalizing t s with
  | zero => rfl
  | succ r ih =>
    unfold smcLoop
    simp only [smc_step hc hk, ih]

include hc hk in
/-- **C203, SMCABC.** -/
theorem C203_smc (cf : Config) (dr : Draws) (distMax : Option ℝ) (fuel : Nat) (start : Nat → List W) :
    smcRun (smcEnv c k env) cf dr distMax fuel start = smcRun env cf dr distMax fuel start := by
  unfold smcRun
  simp only [smc_loop hc hk]

end Smc

/-! ### RSMCABC -/

section Rsmc
open Rsmc

/-- Specification: the same problem, with prior density `c` times and kernel density `k` times as large. -/
def rsmcEnv (c k : ℝ) (env : Env W Θ Y) : Env W Θ Y := { env with pdf := fun θ => c * env.pdf θ, kernel := fun p x y => k * env.kernel p x y }

variable (env : Env W Θ Y)

theorem rsmc_prior (eps : ℝ) (fuel : Nat) (w : W) (held : Θ) (d : Option ℝ) (n : Nat) :
    priorLoop (rsmcEnv c k env) eps fuel w held d n = priorLoop env eps fuel w held d n := by
  induction fuel generalizing w held d n with
  | zero => rfl
  | succ fuel ih =>
    unfold priorLoop
    simp only [ih]
    rfl

include hc hk in
theorem rsmc_prob (p : Pop Θ) (θ θ' : Θ) : prob (rsmcEnv c k env) p θ θ' = prob env p θ θ' := congrArg (min 1) (ratio_scale hc hk _ _ _ _)

include hc hk in
theorem rsmc_move (fuel : Nat) (eps : ℝ) (p : Pop Θ) (i : Nat) (θ : Θ) (dθ : ℝ) (r : Nat) (w : W) (held : Θ) (d : Option ℝ) (acc n : Nat) :
    moveLoop (rsmcEnv c k env) fuel eps p i θ dθ r w held d acc n = moveLoop env fuel eps p i θ dθ r w held d acc n := by
  induction r generalizing w held d acc n with
  | zero => rfl
  | succ r ih =>
    unfold moveLoop
    have e : ∀ (f : W → W × Option Θ) w, propose (rsmcEnv c k env).pdf f fuel w = propose env.pdf f fuel w := fun f w => propose_scale hc _ _ _ _
    simp only [e, rsmc_prob hc hk, ih]
    rfl

include hc hk in
theorem rsmc_accept (fuel : Nat) (eps : ℝ) (pop : Option (Pop Θ × List ℝ)) (r : Nat) (w : W) (held : Θ) :
    accept (rsmcEnv c k env) fuel eps pop r w held = accept env fuel eps pop r w held := by
  unfold accept
  simp only [rsmc_prior, rsmc_move hc hk]
  rfl

include hc hk in
theorem rsmc_loop (cf : Config) (fuel : Nat) (start : Nat → List (W × Θ)) (r t : Nat) (s : State Θ) : loop (rsmcEnv c k env) cf fuel start r t s = loop env cf fuel start r t s := by
  induction r generalizing t s with
  | zero => rfl
  | succ r ih =>
    unfold loop
    have e : ∀ start s, step (rsmcEnv c k env) cf fuel t start s = step env cf fuel t start s := by
      intro start s
      unfold step
      simp only [rsmc_accept hc hk]
    simp only [e, ih]

include hc hk in
/-- **C203, RSMCABC.** -/
theorem C203_rsmc (cf : Config) (fuel : Nat) (start : Nat → List (W × Θ)) : run (rsmcEnv c k env) cf fuel start = run env cf fuel start := rsmc_loop hc hk env cf fuel start _ _ _

end Rsmc

/-! ### SABC -/

section Sabc
open Sabc

/-- Specification: the same problem, with prior density `c` times as large. -/
def sabcEnv (c : ℝ) (env : Env W Θ Y) : Env W Θ Y := { env with pdf := fun θ => c * env.pdf θ }

variable (env : Env W Θ Y)

theorem sabc_first (eps : ℝ) (index fuel : Nat) (w : W) (all : List ℝ) (n : Nat) : first (sabcEnv c env) eps index fuel w all n = first env eps index fuel w all n := by
  induction fuel generalizing w all n with
  | zero => rfl
  | succ fuel ih =>
    unfold first
    simp only [ih]
    rfl

include hc in
theorem sabc_move (fuel n : Nat) (s : State Θ) (w : W) : move (sabcEnv c env) fuel n s w = move env fuel n s w := by
  unfold move
  have e : ∀ (f : W → W × Option Θ) w, propose (sabcEnv c env).pdf f fuel w = propose env.pdf f fuel w := fun f w => propose_scale hc _ _ _ _
  have e' : ∀ θ θ', (sabcEnv c env).pdf θ / (sabcEnv c env).pdf θ' = env.pdf θ / env.pdf θ' := fun θ θ' => mul_div_mul_left _ _ hc.ne'
  simp only [e, e']
  rfl

include hc in
theorem sabc_loop (cf : Config) (fuel : Nat) (start : Nat → List W) (r t : Nat) (s : State Θ) : loop (sabcEnv c env) cf fuel start r t s = loop env cf fuel start r t s := by
  induction r generalizing t s with
  | zero => rfl
  | succ r ih =>
    unfold loop
    have e : ∀ start s, step (sabcEnv c env) cf fuel t start s = step env cf fuel t start s := by
      intro start s
      unfold step
      simp only [sabc_first, sabc_move hc]
      rfl
    simp only [e, ih]

include hc in
/-- **C203, SABC.** -/
theorem C203_sabc (cf : Config) (fuel : Nat) (start : Nat → List W) : run (sabcEnv c env) cf fuel start = run env cf fuel start := sabc_loop hc env cf fuel start _ _ _

end Sabc

/-! ### ABCsubsim -/

section Subsim
open Subsim

variable {M : Type}

/-- Specification: the same problem, with prior density `c` times and kernel density `k` times as large. -/
def subsimEnv (c k : ℝ) (env : Env W Θ Y M) : Env W Θ Y M := { env with pdf := fun θ => c * env.pdf θ, kernel := fun p x y => k * env.kernel p x y }

variable (env : Env W Θ Y M)

include hc hk in
theorem subsim_prob (covs : List M) (anneal : ℝ) (θ θ' : Θ) (d : ℝ) : prob (subsimEnv c k env) covs anneal θ θ' d = prob env covs anneal θ θ' d := by
  unfold prob
  simp only [subsimEnv]
  rw [ratio_scale hc hk]

include hc hk in
theorem subsim_chain (fuel : Nat) (covs : List M) (anneal : ℝ) (base : Θ) (r : Nat) (w : W) (θ : Θ) (d : ℝ) :
    chain (subsimEnv c k env) fuel covs anneal base r w θ d = chain env fuel covs anneal base r w θ d := by
  induction r generalizing w θ d with
  | zero => rfl
  | succ r ih =>
    unfold chain
    have e : ∀ (f : W → W × Option Θ) w, propose (subsimEnv c k env).pdf f fuel w = propose env.pdf f fuel w := fun f w => propose_scale hc _ _ _ _
    simp only [e, subsim_prob hc hk, ih]
    rfl

include hc hk in
theorem subsim_trials (fuel : Nat) (covs : List M) (anneal : ℝ) (base : Θ) (r : Nat) (w : W) (θ : Θ) :
    trials (subsimEnv c k env) fuel covs anneal base r w θ = trials env fuel covs anneal base r w θ := by
  induction r generalizing w θ with
  | zero => rfl
  | succ r ih =>
    unfold trials
    have e : ∀ (f : W → W × Option Θ) w, propose (subsimEnv c k env).pdf f fuel w = propose env.pdf f fuel w := fun f w => propose_scale hc _ _ _ _
    simp only [e, subsim_prob hc hk, ih]
    rfl

include hc hk in
theorem subsim_step (cf : Config) (fuel t : Nat) (start tuneStart : List W) (s : State Θ M) :
    step (subsimEnv c k env) cf fuel t start tuneStart s = step env cf fuel t start tuneStart s := by
  unfold step accept tune
  simp only [subsim_chain hc hk, subsim_trials hc hk]
  rfl

include hc hk in
theorem subsim_loop (cf : Config) (fuel : Nat) (start tuneStart : Nat → List W) (r t : Nat) (s : State Θ M) :
    loop (subsimEnv c k env) cf fuel start tuneStart r t s = loop env cf fuel start tuneStart r t s := by
  induction r generalizing t s with
  | zero => rfl
  | succ r ih =>
    unfold loop
    simp only [subsim_step hc hk, ih]

include hc hk in
/-- **C203, ABCsubsim.** -/
theorem C203_subsim (cf : Config) (fuel : Nat) (start tuneStart : Nat → List W) : run (subsimEnv c k env) cf fuel start tuneStart = run env cf fuel start tuneStart := by
  unfold run
  rw [subsim_loop hc hk]

end Subsim

end Verif.Scale
