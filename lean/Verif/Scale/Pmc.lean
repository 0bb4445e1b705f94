import Verif.PmcLik.Model
import Mathlib.Algebra.BigOperators.Group.List.Basic
import Mathlib.Algebra.Order.BigOperators.Group.List
/-!
# C203: constant factors of densities, `PMC` and `PMCABC`

Runs of `PMC.sample` (inferences.py 1154-1488) and `PMCABC.sample` (770-965) for a prior density, a kernel density and a likelihood with constant factors.
-/
namespace Verif.Scale

open Verif.Pmc (Pop pmcWeights normalise)

variable {M W Θ Y : Type}

theorem sum_mul (k : ℝ) (l : List ℝ) : (l.map fun x => k * x).sum = k * l.sum := by
  simpa using List.sum_map_mul_left l id k

theorem zip_mul (k : ℝ) (f : Θ → ℝ) (ws : List ℝ) (ps : List Θ) : (List.zipWith (fun w a => w * (k * f a)) ws ps).sum = k * (List.zipWith (fun w a => w * f a) ws ps).sum := by
  rw [← sum_mul, List.map_zipWith]
  congr 2
  funext w a
  ring

theorem normalise_mul {k : ℝ} (hk : k ≠ 0) (l : List ℝ) : normalise (l.map fun x => k * x) = normalise l := by
  unfold normalise
  rw [sum_mul, List.map_map]
  refine List.map_congr_left fun x _ => ?_
  simp only [Function.comp_apply]
  rw [mul_div_mul_left _ _ hk]

/-! ### PMC -/

theorem foldr_max_add (K d : ℝ) (l : List ℝ) : (l.map (· + K)).foldr max (d + K) = l.foldr max d + K := by
  induction l with
  | nil => rfl
  | cons x l ih => simp only [List.map_cons, List.foldr_cons, ih, max_add_add_right]

/-- A constant added to all log-weights is divided out. -/
theorem exp_shift (K : ℝ) (l : List ℝ) :
    normalise ((l.map (· + K)).map fun x => Real.exp (x - (l.map (· + K)).foldr max ((l.map (· + K)).headD 0))) =
      normalise (l.map fun x => Real.exp (x - l.foldr max (l.headD 0))) := by
  cases l with
  | nil => rfl
  | cons y l =>
    have e : ((y :: l).map (· + K)).foldr max (((y :: l).map (· + K)).headD 0) = (y :: l).foldr max ((y :: l).headD 0) + K := foldr_max_add K y (y :: l)
    rw [e, List.map_map]
    congr 1
    refine List.map_congr_left fun x _ => ?_
    simp only [Function.comp_apply]
    congr 1
    ring

/-- The log-weight of a particle. -/
noncomputable def logWeight (t : ℝ × ℝ × ℝ) : ℝ := Real.log (1 * t.2.1 / t.2.2) + (Real.log t.2.1 + t.1)

theorem pmcWeights_eq (l : List (ℝ × ℝ × ℝ)) :
    pmcWeights l = normalise ((l.map logWeight).map fun x => Real.exp (x - (l.map logWeight).foldr max ((l.map logWeight).headD 0))) := rfl

theorem pmcWeights_scale {c k : ℝ} (hc : 0 < c) (hk : 0 < k) (a : ℝ) (l : List (ℝ × ℝ × ℝ)) (h : ∀ t ∈ l, t.2.1 ≠ 0 ∧ t.2.2 ≠ 0) :
    pmcWeights (l.map fun t => (t.1 + a, c * t.2.1, k * t.2.2)) = pmcWeights l := by
  have e : (l.map fun t => (t.1 + a, c * t.2.1, k * t.2.2)).map logWeight = (l.map logWeight).map (· + (Real.log (c / k) + Real.log c + a)) := by
    rw [List.map_map, List.map_map]
    refine List.map_congr_left fun t ht => ?_
    obtain ⟨h1, h2⟩ := h t ht
    simp only [Function.comp_apply, logWeight]
    rw [show 1 * (c * t.2.1) / (k * t.2.2) = (c / k) * (1 * t.2.1 / t.2.2) by field_simp, Real.log_mul (by positivity) (by simp [h1, h2]), Real.log_mul hc.ne' h1]
    ring
  rw [pmcWeights_eq, pmcWeights_eq, e, exp_shift]

open PmcLik in
/-- Specification: the same problem, with prior density `c` times and kernel density `k` times as large, and `a` added to the log-likelihoods. -/
def pmcEnv (c k a : ℝ) (env : Env M W Θ Y) : Env M W Θ Y :=
  { env with pdf := fun θ => c * env.pdf θ, kernel := fun p x y => k * env.kernel p x y, loglik := fun y => env.loglik y + a }

section Pmc
open PmcLik

variable {c k : ℝ} (hc : 0 < c) (hk : 0 < k) (a : ℝ) (env : Env M W Θ Y)

include hc in
theorem proposeLoop_scale (p : Pop Θ) (i fuel : Nat) (m : M) : proposeLoop (pmcEnv c k a env) p i fuel m = proposeLoop env p i fuel m := by
  induction fuel generalizing m with
  | zero => rfl
  | succ fuel ih =>
    unfold proposeLoop
    have e : (pmcEnv c k a env).perturb p i m = env.perturb p i m := rfl
    rw [e]
    rcases env.perturb p i m with ⟨m', _ | θ⟩
    · exact ih m'
    · simp only [pmcEnv, ne_eq, mul_eq_zero, hc.ne', false_or]
      by_cases h : env.pdf θ = 0
      · simp only [h, not_true, if_false]
        exact ih m'
      · simp only [h, not_false_iff, if_true]

include hc in
theorem proposals_scale (p : Pop Θ) (fuel : Nat) (is : List Nat) (m : M) : proposals (pmcEnv c k a env) p fuel is m = proposals env p fuel is m := by
  induction is generalizing m with
  | nil => rfl
  | cons i is ih =>
    unfold proposals
    rw [proposeLoop_scale hc]
    cases proposeLoop env p i fuel m with
    | none => rfl
    | some r => simp only [ih]

theorem proposeLoop_possible (p : Pop Θ) (i fuel : Nat) (m m' : M) (θ : Θ) (h : proposeLoop env p i fuel m = some (m', θ)) : env.pdf θ ≠ 0 := by
  induction fuel generalizing m with
  | zero => simp [proposeLoop] at h
  | succ fuel ih =>
    unfold proposeLoop at h
    rcases hp : env.perturb p i m with ⟨m₁, _ | θ₁⟩
    · rw [hp] at h
      exact ih _ h
    · rw [hp] at h
      simp only at h
      by_cases h0 : env.pdf θ₁ ≠ 0
      · rw [if_pos h0] at h
        simp only [Option.some.injEq, Prod.mk.injEq] at h
        rw [← h.2]
        exact h0
      · rw [if_neg h0] at h
        exact ih _ h

theorem proposals_possible (p : Pop Θ) (fuel : Nat) (is : List Nat) (m m' : M) (l : List Θ) (h : proposals env p fuel is m = some (m', l)) : ∀ θ ∈ l, env.pdf θ ≠ 0 := by
  induction is generalizing m m' l with
  | nil =>
    simp only [proposals, Option.some.injEq, Prod.mk.injEq] at h
    rw [← h.2]
    simp
  | cons i is ih =>
    unfold proposals at h
    cases hp : proposeLoop env p i fuel m with
    | none => simp [hp] at h
    | some r =>
      rw [hp] at h
      simp only [Option.map_eq_some_iff, Prod.mk.injEq] at h
      obtain ⟨r', h1, -, rfl⟩ := h
      intro θ hθ
      rcases List.mem_cons.1 hθ with rfl | hθ
      · exact proposeLoop_possible env p i fuel m _ _ hp
      · exact ih _ _ _ h1 θ hθ

/-- A population with positive weights. -/
def Good (p : Pop Θ) : Prop := ∀ x ∈ p.weights, 0 < x

variable (hker : ∀ p x y, 0 < env.kernel p x y)

include hker in
theorem mixture_pos {n : Nat} (hn : 0 < n) (p : Pop Θ) (hp : Good p) (h1 : p.params.length = n) (h2 : p.weights.length = n) (θ : Θ) : 0 < mixture env p θ := by
  unfold mixture
  have : ∀ (ws : List ℝ) (ps : List Θ), ps.length = ws.length → ws ≠ [] → (∀ x ∈ ws, 0 < x) → 0 < (List.zipWith (fun w a => w * env.kernel p a θ) ws ps).sum := by
    intro ws
    induction ws with
    | nil => intro ps _ h; exact absurd rfl h
    | cons x ws ih =>
      intro ps hl _ hx
      cases ps with
      | nil => simp at hl
      | cons y ps =>
        rw [List.zipWith_cons_cons, List.sum_cons]
        have h4 := mul_pos (hx x (by simp)) (hker p y θ)
        by_cases hw : ws = []
        · subst hw
          simpa using h4
        · exact add_pos h4 (ih ps (by simpa using hl) hw fun z hz => hx z (by simp [hz]))
  exact this _ _ (by omega) (by rintro h; rw [h] at h2; simp at h2; omega) hp

theorem pmcWeights_pos (l : List (ℝ × ℝ × ℝ)) : ∀ x ∈ pmcWeights l, 0 < x := by
  intro x hx
  rw [pmcWeights_eq, normalise] at hx
  obtain ⟨y, hy, rfl⟩ := List.mem_map.1 hx
  have hpos : ∀ z ∈ ((l.map logWeight).map fun x => Real.exp (x - (l.map logWeight).foldr max ((l.map logWeight).headD 0))), 0 < z := by
    intro z hz
    obtain ⟨t, -, rfl⟩ := List.mem_map.1 hz
    exact Real.exp_pos _
  refine div_pos (hpos y hy) ?_
  exact lt_of_lt_of_le (hpos y hy) (List.single_le_sum (fun z hz => (hpos z hz).le) y hy)

theorem pmcWeights_length (l : List (ℝ × ℝ × ℝ)) : (pmcWeights l).length = l.length := by
  simp [pmcWeights_eq, normalise]

include hc hk hker in
theorem weights_scale {n : Nat} (hn : 0 < n) (p : Pop Θ) (hp : Good p) (h1 : p.params.length = n) (h2 : p.weights.length = n) (l : List Θ) (hl : ∀ θ ∈ l, env.pdf θ ≠ 0) (ws : List W) :
    weights (pmcEnv c k a env) p l ws = weights env p l ws := by
  unfold weights
  have hm : ∀ θ, mixture (pmcEnv c k a env) p θ = k * mixture env p θ := fun θ => zip_mul k (fun x => env.kernel p x θ) p.weights p.params
  have e : List.zipWith (fun θ w => ((pmcEnv c k a env).loglik ((pmcEnv c k a env).sim θ w), (pmcEnv c k a env).pdf θ, mixture (pmcEnv c k a env) p θ)) l ws =
      (List.zipWith (fun θ w => (env.loglik (env.sim θ w), env.pdf θ, mixture env p θ)) l ws).map fun t => (t.1 + a, c * t.2.1, k * t.2.2) := by
    rw [List.map_zipWith]
    congr 1
    funext θ w
    rw [hm]
    rfl
  rw [e, pmcWeights_scale hc hk]
  intro t ht
  rw [← List.map_uncurry_zip_eq_zipWith] at ht
  obtain ⟨⟨θ, w⟩, hmem, rfl⟩ := List.mem_map.1 ht
  exact ⟨hl θ (List.of_mem_zip hmem).1, (mixture_pos env hker hn p hp h1 h2 θ).ne'⟩

include hc hk hker in
theorem step_scale {n : Nat} (hn : 0 < n) (fuel : Nat) (m : M) (p : Pop Θ) (hp : Good p) : step (pmcEnv c k a env) n fuel m p = step env n fuel m p := by
  unfold step
  by_cases hl : p.params.length = n ∧ p.weights.length = n
  · rw [if_pos hl, if_pos hl]
    have e : (pmcEnv c k a env).choose p.weights n m = env.choose p.weights n m := rfl
    simp only [e, proposals_scale hc]
    cases hq : proposals env p fuel (env.choose p.weights n m).2 (env.choose p.weights n m).1 with
    | none => rfl
    | some r =>
      have e' : (pmcEnv c k a env).seeds n r.1 = env.seeds n r.1 := rfl
      simp only [e']
      rw [weights_scale hc hk a env hker hn p hp hl.1 hl.2 r.2 (proposals_possible env p fuel _ _ _ _ hq)]
  · rw [if_neg hl, if_neg hl]

theorem step_good (n fuel : Nat) (m m' : M) (p q : Pop Θ) (h : step env n fuel m p = some (m', q)) : Good q := by
  unfold step at h
  by_cases hl : p.params.length = n ∧ p.weights.length = n
  · rw [if_pos hl] at h
    simp only at h
    cases hq : proposals env p fuel (env.choose p.weights n m).2 (env.choose p.weights n m).1 with
    | none => simp [hq] at h
    | some r =>
      simp only [hq, Option.some.injEq, Prod.mk.injEq] at h
      rw [← h.2]
      exact pmcWeights_pos _
  · rw [if_neg hl] at h
    simp at h

include hc hk hker in
theorem loop_scale_pmc {n : Nat} (hn : 0 < n) (steps fuel : Nat) (full : Bool) (r t : Nat) (m : M) (p : Pop Θ) (hp : Good p) (count : Nat) (j : Journal Θ) :
    loop (pmcEnv c k a env) n steps fuel full r t m p count j = loop env n steps fuel full r t m p count j := by
  induction r generalizing t m p count j with
  | zero => rfl
  | succ r ih =>
    unfold loop
    rw [step_scale hc hk a env hker hn fuel m p hp]
    cases h : step env n fuel m p with
    | none => rfl
    | some x =>
      simp only
      rw [ih _ _ _ (step_good env n fuel m x.1 p x.2 h)]
      rfl

theorem initial_scale (n : Nat) (m : M) : initial (pmcEnv c k a env) n m = initial env n m := by
  induction n generalizing m with
  | zero => rfl
  | succ n ih =>
    unfold initial
    simp only [ih]
    rfl

theorem first_scale (n : Nat) (ini : Option (List Θ)) (m : M) : first (pmcEnv c k a env) n ini m = first env n ini m := by
  unfold first
  simp only [initial_scale]
  rfl

theorem first_good (n : Nat) (ini : Option (List Θ)) (m m' : M) (p : Pop Θ) (h : first env n ini m = some (m', p)) : Good p := by
  have key : ∀ n : Nat, ∀ x ∈ List.replicate n (1 / (n : ℝ)), 0 < x := by
    intro n x hx
    obtain ⟨h1, rfl⟩ := List.mem_replicate.1 hx
    have : 0 < n := Nat.pos_of_ne_zero h1
    positivity
  unfold first at h
  split at h
  · simp only [Option.some.injEq, Prod.mk.injEq] at h
    rw [← h.2]
    exact key n
  · simp only [Option.some.injEq, Prod.mk.injEq] at h
    rw [← h.2]
    exact key _
  · cases h

include hc hk hker in
/-- **C203, PMC.** Constant factors of the prior density, of a positive kernel density and of the likelihood do not change a run of `PMC`, whether it starts fresh or from a journal with positive
weights: generators, populations, weights, simulation counter and journal are the same. -/
theorem C203_pmc {n : Nat} (hn : 0 < n) (steps fuel : Nat) (full : Bool) (ini : Option (List Θ)) (m : M) (counter : Nat) (file : Option (Journal Θ))
    (hf : ∀ j, file = some j → ∀ p ∈ j.pops, ∀ x ∈ p.weights, 0 < x) :
    sample (pmcEnv c k a env) n steps fuel full ini m counter file = sample env n steps fuel full ini m counter file := by
  unfold sample
  rw [first_scale, show (pmcEnv c k a env).prior m = env.prior m from rfl]
  cases h : first env n ini (env.prior m).1 with
  | none => rfl
  | some r =>
    cases file with
    | none => exact loop_scale_pmc hc hk a env hker hn steps fuel full steps 0 r.1 r.2 (first_good env n ini _ r.1 r.2 h) counter _
    | some j =>
      simp only
      split
      · rfl
      · cases hj : j.pops.getLast? with
        | none => rfl
        | some p => exact loop_scale_pmc hc hk a env hker hn steps fuel full steps 0 r.1 p (hf j rfl p (List.mem_of_getLast? hj)) counter j

end Pmc

/-! ### PMCABC -/

section Pmcabc
open Pmc

/-- Specification: the same problem, with prior density `c` times and kernel density `k` times as large. -/
def abcEnv (c k : ℝ) (env : Env W Θ Y) : Env W Θ Y := { env with pdf := fun θ => c * env.pdf θ, kernel := fun p x y => k * env.kernel p x y }

variable {c k : ℝ} (hc : 0 < c) (hk : 0 < k) (env : Env W Θ Y)

include hc in
theorem abc_propose (p : Pop Θ) (i fuel : Nat) (w : W) : proposeLoop (abcEnv c k env) p i fuel w = proposeLoop env p i fuel w := by
  induction fuel generalizing w with
  | zero => rfl
  | succ fuel ih =>
    unfold proposeLoop
    have e : (abcEnv c k env).perturb p i w = env.perturb p i w := rfl
    rw [e]
    rcases env.perturb p i w with ⟨w', _ | θ⟩
    · exact ih w'
    · simp only [abcEnv, ne_eq, mul_eq_zero, hc.ne', false_or]
      by_cases h : env.pdf θ = 0
      · simp only [h, not_true, if_false]
        exact ih w'
      · simp only [h, not_false_iff, if_true]

include hc in
theorem abc_loop (eps : ℝ) (pop : Option (Pop Θ)) (fuel : Nat) (w : W) (θ : Θ) (d : Option ℝ) (n : Nat) :
    resampleLoop (abcEnv c k env) eps pop fuel w θ d n = resampleLoop env eps pop fuel w θ d n := by
  induction fuel generalizing w θ d n with
  | zero => rfl
  | succ fuel ih =>
    unfold resampleLoop
    cases pop with
    | none => simp only [ih]; rfl
    | some p =>
      have e : (abcEnv c k env).choose p.weights w = env.choose p.weights w := rfl
      simp only [ih, abc_propose hc, e]
      rfl

include hc in
theorem abc_task (eps : ℝ) (pop : Option (Pop Θ)) (fuel : Nat) : resampleTask (abcEnv c k env) eps pop fuel = resampleTask env eps pop fuel := by
  funext w
  unfold resampleTask
  rw [abc_loop hc]
  rfl

include hc hk in
theorem abc_weights (n : Nat) (pop : Option (Pop Θ)) (l : List Θ) :
    normalise (l.map (rawWeight (abcEnv c k env) n pop)) = normalise (l.map (rawWeight env n pop)) := by
  cases pop with
  | none => rfl
  | some p =>
    rw [← normalise_mul (k := c / k) (by positivity) (l.map (rawWeight env n (some p))), List.map_map]
    congr 1
    refine List.map_congr_left fun θ _ => ?_
    have hm : mixture (abcEnv c k env) p θ = k * mixture env p θ := zip_mul k (fun x => env.kernel p x θ) p.weights p.params
    simp only [Function.comp_apply, rawWeight, hm]
    simp only [abcEnv]
    rw [mul_div_mul_comm]

include hc hk in
theorem abc_step (steps : Nat) (pct : ℝ) (fuel t : Nat) (start : List W) (s : State Θ) :
    pmcStep (abcEnv c k env) steps pct fuel t start s = pmcStep env steps pct fuel t start s := by
  unfold pmcStep
  simp only [abc_task hc, abc_weights hc hk]

include hc hk in
theorem abc_iterations (steps : Nat) (pct : ℝ) (fuel : Nat) (start : Nat → List W) (r t : Nat) (s : State Θ) :
    pmcLoop (abcEnv c k env) steps pct fuel start r t s = pmcLoop env steps pct fuel start r t s := by
  induction r generalizing t s with
  | zero => rfl
  | succ r ih =>
    unfold pmcLoop
    simp only [abc_step hc hk, ih]

include hc hk in
/-- **C203, PMCABC.** Constant factors of the prior density and of the kernel density do not change a run of `PMCABC`. -/
theorem C203_pmcabc (steps : Nat) (epsInit : List ℝ) (pct : ℝ) (fuel : Nat) (start : Nat → List W) (before : Option (Pop Θ)) (counter : Nat) :
    pmcRun (abcEnv c k env) steps epsInit pct fuel start before counter = pmcRun env steps epsInit pct fuel start before counter := by
  unfold pmcRun
  simp only [abc_iterations hc hk]

end Pmcabc

end Verif.Scale
