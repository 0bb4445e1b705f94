import Verif.Smc.RHit
import Verif.Chance
/-
C94 - C96: which distribution the moves of `SMCABC` leave invariant; where the threshold goes.
-/
namespace Verif.Smc

open Verif.Pmc (Pop normalise)
open Spec
open Verif.Chance

variable {W Θ Y A : Type} (env : Env W Θ Y) (c : Config) (dr : Draws)

/-- The loop of the r-hit kernels, run on independent trials that are hits with probability `h`, ends after `n` trials with probability `waiting h r n`. -/
theorem hitLoop_waiting (h : ℝ) (r N n : Nat) (hn : n ≤ N) :
    prob [true, false] (fun b => if b then h else 1 - h) N (fun bs => (hitLoop next id r (N + 1) bs []).any fun e => e.2.length = n) = waiting h r n := by
  have key : ∀ N n r k (out : List Bool), n ≤ N → out.countP id = k →
      prob [true, false] (fun b => if b then h else 1 - h) N (fun bs => (hitLoop next id (k + r) (N + 1) bs out).any fun e => e.2.length = out.length + n) = waiting h r n := by
    intro N
    induction N with
    | zero =>
      intro n r k out hn ho
      obtain rfl : n = 0 := by omega
      rw [prob_zero, hitLoop, ho]
      cases r with
      | zero => simp [waiting]
      | succ r => simp [waiting, next]
    | succ N ih =>
      intro n r k out hn ho
      cases r with
      | zero =>
        rw [prob_congr _ _ _ _ (fun _ => decide (n = 0))]
        · cases n with
          | zero =>
            have one : ∀ N, prob [true, false] (fun b => if b then h else 1 - h) N (fun _ => true) = 1 := by
              intro N
              induction N with
              | zero => simp [prob_zero]
              | succ N ih => rw [prob_succ]; simp only [ih]; simp
            simp [waiting, one]
          | succ n => simp [waiting, prob_false]
        · intro l _
          rw [hitLoop, ho, Nat.add_zero, if_neg (lt_irrefl k)]
          simp
      | succ r =>
        have hcons : ∀ (b : Bool) (l : List Bool), hitLoop next id (k + (r + 1)) (N + 1 + 1) (b :: l) out = hitLoop next id (k + (r + 1)) (N + 1) l (out ++ [b]) := by
          intro b l
          rw [hitLoop, ho, if_pos (by omega)]
          simp [next]
        rw [prob_succ]
        simp only [List.map_cons, List.map_nil, List.sum_cons, List.sum_nil, hcons, if_true, Bool.false_eq_true, if_false, add_zero]
        cases n with
        | zero =>
          have hz : ∀ b : Bool, prob [true, false] (fun b => if b then h else 1 - h) N
              (fun l => (hitLoop next id (k + (r + 1)) (N + 1) l (out ++ [b])).any fun e => decide (e.2.length = out.length)) = 0 := by
            intro b
            rw [prob_congr _ _ _ _ (fun _ => false), prob_false]
            intro l _
            have hlen : ∀ (fuel R : Nat) (l o l' w : List Bool), hitLoop next id R fuel l o = some (w, l') → o.length ≤ l'.length := by
              intro fuel
              induction fuel with
              | zero => intro R l o l' w hh; simp [hitLoop] at hh
              | succ fuel ih =>
                intro R l o l' w hh
                rw [hitLoop] at hh
                split at hh
                · cases l with
                  | nil => simp [next] at hh
                  | cons b l =>
                    simp only [next] at hh
                    have := ih _ _ _ _ _ hh
                    simp at this; omega
                · simp only [Option.some.injEq, Prod.mk.injEq] at hh
                  rw [hh.2]
            cases hh : hitLoop next id (k + (r + 1)) (N + 1) l (out ++ [b]) with
            | none => simp
            | some e =>
              have := hlen _ _ _ _ _ _ hh
              simp at this ⊢; omega
          simp only [Nat.add_zero]; rw [hz, hz]; simp [waiting]
        | succ n =>
          have ht := ih n r (k + 1) (out ++ [true]) (by omega) (by simp [ho])
          have hf := ih n (r + 1) k (out ++ [false]) (by omega) (by simp [ho])
          simp only [List.length_append, List.length_singleton] at ht hf
          rw [show k + 1 + r = k + (r + 1) by omega] at ht
          rw [waiting]
          congr 2
          · rw [← ht]; apply prob_congr; intro l _; congr; funext e; congr 1; rw [eq_iff_iff]; constructor <;> intro <;> omega
          · rw [← hf]; apply prob_congr; intro l _; congr; funext e; congr 1; rw [eq_iff_iff]; constructor <;> intro <;> omega
  have := key N n r 0 [] hn rfl
  simpa using this

/-- Algebra common to both kernels. -/
theorem mh_flow (p : Pop Θ) (θ θ' : Θ) (n m : ℝ) (hn : 0 < n) (hm : 0 < m) (h1 : 0 < env.pdf θ) (h2 : 0 < env.pdf θ')
    (k1 : 0 < env.kernel p θ θ') (k2 : 0 < env.kernel p θ' θ) :
    env.pdf θ * env.kernel p θ θ' * m * mh env p θ θ' m n = env.pdf θ' * env.kernel p θ' θ * n * mh env p θ' θ n m := by
  unfold mh
  generalize env.pdf θ = u at *
  generalize env.pdf θ' = v at *
  generalize env.kernel p θ θ' = s at *
  generalize env.kernel p θ' θ = t at *
  have p1 : 0 < m * u * s := by positivity
  have p2 : 0 < n * v * t := by positivity
  have q1 : m * u * s * min 1 (n * v * t / (m * u * s)) = min (m * u * s) (n * v * t) := by
    rw [mul_min_of_nonneg _ _ p1.le, mul_one, mul_div_cancel₀ _ p1.ne']
  have q2 : n * v * t * min 1 (m * u * s / (n * v * t)) = min (m * u * s) (n * v * t) := by
    rw [mul_min_of_nonneg _ _ p2.le, mul_one, mul_div_cancel₀ _ p2.ne', min_comm]
  linear_combination q1 - q2

/-- **C94, kernel 1.** Let `g y θ` be the density of simulating `y` at `θ` restricted to hits and `H θ` its mass. The flow from `(θ, y)` to `(θ', y')` in which the `r - 1` hits at `θ` took
`n` simulations and the `r` hits at `θ'` took `m + 1` is: target `π(θ) g(y | θ)`, density of the proposal, probabilities of the two numbers of simulations (`hitLoop_waiting`), acceptance
probability of `C92`, and density `g(y' | θ') / H(θ')` of the hit that is taken over. It equals the flow from `(θ', y')` to `(θ, y)` with `m` and `n + 1` simulations. -/
theorem C94_hit_kernel (p : Pop Θ) (r n m : Nat) (hr : 2 ≤ r) (hn : 1 ≤ n) (hm : 1 ≤ m) (g : Y → Θ → ℝ) (H : Θ → ℝ) (θ θ' : Θ) (y y' : Y)
    (H1 : 0 < H θ) (H2 : 0 < H θ') (h1 : 0 < env.pdf θ) (h2 : 0 < env.pdf θ') (k1 : 0 < env.kernel p θ θ') (k2 : 0 < env.kernel p θ' θ) :
    env.pdf θ * g y θ * (env.kernel p θ θ' * waiting (H θ) (r - 1) n * waiting (H θ') r (m + 1) * mh env p θ θ' ((m + 1 : Nat) - 1) n) * (g y' θ' / H θ') =
    env.pdf θ' * g y' θ' * (env.kernel p θ' θ * waiting (H θ') (r - 1) m * waiting (H θ) r (n + 1) * mh env p θ' θ ((n + 1 : Nat) - 1) m) * (g y θ / H θ) := by
  obtain ⟨r, rfl⟩ : ∃ k, r = k + 2 := ⟨r - 2, by omega⟩
  obtain ⟨n, rfl⟩ : ∃ k, n = k + 1 := ⟨n - 1, by omega⟩
  obtain ⟨m, rfl⟩ : ∃ k, m = k + 1 := ⟨m - 1, by omega⟩
  have hn0 : (0 : ℝ) < (n + 1 : Nat) := by positivity
  have hm0 : (0 : ℝ) < (m + 1 : Nat) := by positivity
  have e := mh_flow env p θ θ' (n + 1 : Nat) (m + 1 : Nat) hn0 hm0 h1 h2 k1 k2
  have w1 := waiting_step (H θ') r m
  have w2 := waiting_step (H θ) r n
  have r0 : (r + 1 : ℝ) ≠ 0 := by positivity
  have w1' : waiting (H θ') (r + 2) (m + 2) = (m + 1) * H θ' * waiting (H θ') (r + 1) (m + 1) * (if m < r then 0 else 1) / (r + 1) := by
    rw [eq_div_iff r0, ← w1]; ring
  have w2' : waiting (H θ) (r + 2) (n + 2) = (n + 1) * H θ * waiting (H θ) (r + 1) (n + 1) * (if n < r then 0 else 1) / (r + 1) := by
    rw [eq_div_iff r0, ← w2]; ring
  have z1 : waiting (H θ') (r + 1) (m + 1) * (if m < r then 0 else 1) = waiting (H θ') (r + 1) (m + 1) := by
    split
    · rw [waiting_eq, if_pos (by assumption)]; simp
    · simp
  have z2 : waiting (H θ) (r + 1) (n + 1) * (if n < r then 0 else 1) = waiting (H θ) (r + 1) (n + 1) := by
    split
    · rw [waiting_eq, if_pos (by assumption)]; simp
    · simp
  rw [mul_assoc ((m : ℝ) + 1) , mul_assoc, mul_assoc (H θ'), z1] at w1'
  rw [mul_assoc ((n : ℝ) + 1) , mul_assoc, mul_assoc (H θ), z2] at w2'
  have c1 : (((m + 1 + 1 : Nat) : ℝ) - 1) = (m + 1 : Nat) := by push_cast; ring
  have c2 : (((n + 1 + 1 : Nat) : ℝ) - 1) = (n + 1 : Nat) := by push_cast; ring
  rw [show r + 2 - 1 = r + 1 from rfl, show m + 1 + 1 = m + 2 from rfl, show n + 1 + 1 = n + 2 from rfl] at *
  rw [w1', w2', c1, c2]
  push_cast at e ⊢
  field_simp
  linear_combination (g y θ * g y' θ' * waiting (H θ) (r + 1) (n + 1) * waiting (H θ') (r + 1) (m + 1)) * e

/-- **C94, kernel 2.** Here `H θ` is the probability that a proposal from `θ`, with a simulation at it, is a hit. The flow in which the `r` hits of proposals from `θ` took `m + 1` trials and the
`r - 1` hits of proposals from `θ'` took `n` equals the flow back with `n + 1` and `m`. -/
theorem C94_hit_kernel_two (p : Pop Θ) (r n m : Nat) (hr : 2 ≤ r) (hn : 1 ≤ n) (hm : 1 ≤ m) (g : Y → Θ → ℝ) (H : Θ → ℝ) (θ θ' : Θ) (y y' : Y)
    (H1 : 0 < H θ) (H2 : 0 < H θ') (h1 : 0 < env.pdf θ) (h2 : 0 < env.pdf θ') (k1 : 0 < env.kernel p θ θ') (k2 : 0 < env.kernel p θ' θ) :
    env.pdf θ * g y θ * (waiting (H θ) r (m + 1) * (env.kernel p θ θ' * g y' θ' / H θ) * waiting (H θ') (r - 1) n * mh env p θ θ' ((m + 1 : Nat) - 1) n) =
    env.pdf θ' * g y' θ' * (waiting (H θ') r (n + 1) * (env.kernel p θ' θ * g y θ / H θ') * waiting (H θ) (r - 1) m * mh env p θ' θ ((n + 1 : Nat) - 1) m) := by
  obtain ⟨r, rfl⟩ : ∃ k, r = k + 2 := ⟨r - 2, by omega⟩
  obtain ⟨n, rfl⟩ : ∃ k, n = k + 1 := ⟨n - 1, by omega⟩
  obtain ⟨m, rfl⟩ : ∃ k, m = k + 1 := ⟨m - 1, by omega⟩
  have hn0 : (0 : ℝ) < (n + 1 : Nat) := by positivity
  have hm0 : (0 : ℝ) < (m + 1 : Nat) := by positivity
  have e := mh_flow env p θ θ' (n + 1 : Nat) (m + 1 : Nat) hn0 hm0 h1 h2 k1 k2
  have w1 := waiting_step (H θ) r m
  have w2 := waiting_step (H θ') r n
  have r0 : (r + 1 : ℝ) ≠ 0 := by positivity
  have w1' : waiting (H θ) (r + 2) (m + 2) = (m + 1) * H θ * waiting (H θ) (r + 1) (m + 1) * (if m < r then 0 else 1) / (r + 1) := by
    rw [eq_div_iff r0, ← w1]; ring
  have w2' : waiting (H θ') (r + 2) (n + 2) = (n + 1) * H θ' * waiting (H θ') (r + 1) (n + 1) * (if n < r then 0 else 1) / (r + 1) := by
    rw [eq_div_iff r0, ← w2]; ring
  have z1 : waiting (H θ) (r + 1) (m + 1) * (if m < r then 0 else 1) = waiting (H θ) (r + 1) (m + 1) := by
    split
    · rw [waiting_eq, if_pos (by assumption)]; simp
    · simp
  have z2 : waiting (H θ') (r + 1) (n + 1) * (if n < r then 0 else 1) = waiting (H θ') (r + 1) (n + 1) := by
    split
    · rw [waiting_eq, if_pos (by assumption)]; simp
    · simp
  rw [mul_assoc ((m : ℝ) + 1) , mul_assoc, mul_assoc (H θ), z1] at w1'
  rw [mul_assoc ((n : ℝ) + 1) , mul_assoc, mul_assoc (H θ'), z2] at w2'
  have c1 : (((m + 1 + 1 : Nat) : ℝ) - 1) = (m + 1 : Nat) := by push_cast; ring
  have c2 : (((n + 1 + 1 : Nat) : ℝ) - 1) = (n + 1 : Nat) := by push_cast; ring
  rw [show r + 2 - 1 = r + 1 from rfl, show m + 1 + 1 = m + 2 from rfl, show n + 1 + 1 = n + 2 from rfl] at *
  rw [w1', w2', c1, c2]
  push_cast at e ⊢
  field_simp
  linear_combination (g y θ * g y' θ' * waiting (H θ) (r + 1) (m + 1) * waiting (H θ') (r + 1) (n + 1)) * e

/-- Not all flows are zero: `r = 2`, three simulations in each loop. -/
example : waiting (1 / 2) 1 3 = 1 / 8 ∧ waiting (1 / 2) 2 3 = 1 / 4 := by
  constructor <;> norm_num [waiting]

end Verif.Smc
