import Verif.Sabc.Run
import Verif.Mcmc.Balance
/-
C103: the moves of `SABC` and detailed balance.
-/
namespace Verif.Sabc

open MeasureTheory Set
open Verif.Pmc (Pop)
open Verif.Smc (propose)

variable {W Θ Y : Type} (env : Env W Θ Y)

/-- The same worker, but with `u` as the uniform random number. -/
def withUnif (u : ℝ) : Env W Θ Y := { env with unif := fun w => (w, u) }

/-- The probability that the task of a worker ends with an accepted move, everything but the uniform random number being given. -/
noncomputable def acceptance (fuel n : Nat) (s : State Θ) (w : W) : ENNReal :=
  volume {u : ℝ | u ∈ Ico (0 : ℝ) 1 ∧ ∃ o, move (withUnif env u) fuel n s w = some o ∧ o.accepted = true}

/-- The probability with which a move from value `θ` with redefined distance `x` to value `θ'` with redefined distance `x'` is accepted. -/
theorem acceptance_eq (fuel n : Nat) (s : State Θ) (w : W) (he : s.eps ≠ 0) (θ θ' : Θ) (x x' : ℝ) (w' : W) (h1 : s.params[(env.choose n w).2]? = some θ)
    (h2 : s.smooths[(env.choose n w).2]? = some x) (h3 : propose env.pdf (env.perturb ⟨s.params, List.replicate n 1⟩ (env.choose n w).2) fuel (env.choose n w).1 = some (w', θ'))
    (h4 : smooth s.all (env.dist (env.sim θ' w').2) = some x') :
    acceptance env fuel n s w = ENNReal.ofReal (min 1 (env.pdf θ' / env.pdf θ * Real.exp ((x - x') / s.eps))) := by
  rw [← Verif.Mcmc.volume_below, acceptance]
  congr 1
  ext u
  simp only [mem_setOf_eq, and_congr_right_iff]
  intro _
  simp only [move, withUnif, h1, h2, h3, Option.bind_some, h4, Option.map_some, Option.some.injEq]
  constructor
  · rintro ⟨o, rfl, ho⟩
    simp only [if_neg he] at ho
    exact of_decide_eq_true ho
  · intro hu
    exact ⟨_, rfl, by simp only [if_neg he]; exact decide_eq_true hu⟩

/-- Probability flow of a move: target density at `(θ, x)`, that is prior density times density `f` of the redefined distances times `exp (- x / eps)`, times the density of proposing `θ'` with redefined
distance `x'`, times the probability of acceptance. -/
noncomputable def flow (pdf : Θ → ℝ) (f : Θ → ℝ → ℝ) (q : Θ → Θ → ℝ) (eps : ℝ) (θ : Θ) (x : ℝ) (θ' : Θ) (x' : ℝ) : ℝ :=
  (pdf θ * f θ x * Real.exp (-x / eps)) * (q θ θ' * f θ' x') * min 1 (pdf θ' / pdf θ * Real.exp ((x - x') / eps))

theorem flow_eq (pdf : Θ → ℝ) (f : Θ → ℝ → ℝ) (q : Θ → Θ → ℝ) (eps : ℝ) (θ : Θ) (x : ℝ) (θ' : Θ) (x' : ℝ) (h : 0 < pdf θ) :
    flow pdf f q eps θ x θ' x' = q θ θ' * (f θ x * f θ' x' * min (pdf θ * Real.exp (-x / eps)) (pdf θ' * Real.exp (-x' / eps))) := by
  have hm : min (pdf θ * Real.exp (-x / eps)) (pdf θ' * Real.exp (-x' / eps)) = (pdf θ * Real.exp (-x / eps)) * min 1 (pdf θ' / pdf θ * Real.exp ((x - x') / eps)) := by
    rw [mul_min_of_nonneg _ _ (by positivity), mul_one]
    congr 1
    rw [show (x - x') / eps = -x' / eps - -x / eps by ring, Real.exp_sub]
    field_simp
  rw [hm, flow]; ring

/-- C103, what holds: the flow from one state to the other equals the flow back exactly if the kernel proposes both moves with the same density. -/
theorem C103_partial (pdf : Θ → ℝ) (f : Θ → ℝ → ℝ) (q : Θ → Θ → ℝ) (eps : ℝ) (θ : Θ) (x : ℝ) (θ' : Θ) (x' : ℝ) (h : 0 < pdf θ) (h' : 0 < pdf θ')
    (hf : 0 < f θ x) (hf' : 0 < f θ' x') : flow pdf f q eps θ x θ' x' = flow pdf f q eps θ' x' θ x ↔ q θ θ' = q θ' θ := by
  rw [flow_eq _ _ _ _ _ _ _ _ h, flow_eq _ _ _ _ _ _ _ _ h', mul_comm (f θ' x') (f θ x), min_comm (pdf θ' * _) (pdf θ * _)]
  have hpos : 0 < f θ x * f θ' x' * min (pdf θ * Real.exp (-x / eps)) (pdf θ' * Real.exp (-x' / eps)) := by
    have := Real.exp_pos (-x / eps)
    have := Real.exp_pos (-x' / eps)
    positivity
  exact mul_left_inj' hpos.ne'

/-- C103 is violated for kernels that are not symmetric: two values, the move from the first to the second is proposed twice as often as the move back. The prior is flat and the redefined distances
are the same, and yet the flows differ. -/
theorem C103_violated : ∃ q : Bool → Bool → ℝ, (∀ a, q a false + q a true = 1) ∧ (∀ a b, 0 < q a b) ∧
    ∀ eps x, flow (fun _ => 1 / 2) (fun _ _ => 1) q eps false x true x ≠ flow (fun _ => 1 / 2) (fun _ _ => 1) q eps true x false x := by
  refine ⟨fun a b => if a = b then if a then 2 / 3 else 1 / 3 else if a then 1 / 3 else 2 / 3, by intro a; cases a <;> norm_num, by intro a b; cases a <;> cases b <;> norm_num, ?_⟩
  intro eps x h
  rw [C103_partial _ _ _ _ _ _ _ _ (by norm_num) (by norm_num) (by norm_num) (by norm_num)] at h
  norm_num at h

/-- A case of `acceptance_eq`: the worker of C46 that proposes 1/2 from the value 1. -/
example : acceptance exEnv 1 1 ⟨[1], [1], [0], [1], 1, 0, 0, [], 1, false⟩ (1 / 2) = ENNReal.ofReal (min 1 (Real.exp (-(1 / 2)))) := by
  rw [acceptance_eq exEnv 1 1 _ _ (by norm_num) 1 (1 / 2) 0 (1 / 2) (1 / 2) (by simp [exEnv]) (by simp [exEnv]) (by simp [exEnv, propose])
    (by norm_num [exEnv, smooth, smoothAt, List.min?, abs_of_pos])]
  norm_num [exEnv]

end Verif.Sabc
