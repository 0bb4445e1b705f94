import Verif.Units.Basic
import Verif.Subsim.Model
/-!
# C204: the unit of the distance, `ABCsubsim`
-/
namespace Verif.Units

open Verif.Pmc (Pop)
open Verif.Smc (propose)
open Subsim

variable {W Θ Y M : Type} {u : ℝ} (hu : 0 < u)

/-- Specification: the same problem, with distances measured in another unit. -/
def subsimIn (u : ℝ) (env : Env W Θ Y M) : Env W Θ Y M := { env with dist := fun y => u * env.dist y }

/-- Specification: the same population, with its distances in another unit. -/
def subsimRecIn (u : ℝ) (r : Rec Θ M) : Rec Θ M := { r with distances := r.distances.map fun x => u * x }

/-- Specification: the same state, with distances and annealing parameters in another unit. -/
def subsimStateIn (u : ℝ) (s : State Θ M) : State Θ M :=
  { s with hist := s.hist.map fun e => (subsimRecIn u e.1, u * e.2), journal := s.journal.map (subsimRecIn u) }

/-- Values and distances, with the distances in another unit. -/
def pairIn (u : ℝ) (r : List Θ × List ℝ) : List Θ × List ℝ := (r.1, r.2.map fun x => u * x)

variable (env : Env W Θ Y M)

include hu in
theorem subsim_prob (covs : List M) (anneal : ℝ) (θ θ' : Θ) (d : ℝ) : prob (subsimIn u env) covs (u * anneal) θ θ' (u * d) = prob env covs anneal θ θ' d := by
  unfold prob
  simp only [mul_lt_mul_iff_right₀ hu]
  rfl

include hu in
theorem subsim_chain (fuel : Nat) (covs : List M) (anneal : ℝ) (base : Θ) (r : Nat) (w : W) (θ : Θ) (d : ℝ) :
    chain (subsimIn u env) fuel covs (u * anneal) base r w θ (u * d) = (chain env fuel covs anneal base r w θ d).map (pairIn u) := by
  induction r generalizing w θ d with
  | zero => rfl
  | succ r ih =>
    unfold chain
    rw [show propose (subsimIn u env).pdf ((subsimIn u env).perturb covs base) fuel w = propose env.pdf (env.perturb covs base) fuel w from rfl]
    cases propose env.pdf (env.perturb covs base) fuel w with
    | none => rfl
    | some a =>
      simp only
      rw [show (subsimIn u env).sim a.2 a.1 = env.sim a.2 a.1 from rfl, show (subsimIn u env).dist (env.sim a.2 a.1).2 = u * env.dist (env.sim a.2 a.1).2 from rfl, subsim_prob hu,
        show (subsimIn u env).bern = env.bern from rfl, ih, ih]
      cases (env.bern (prob env covs anneal θ a.2 (env.dist (env.sim a.2 a.1).2)) (env.sim a.2 a.1).1).2
      · simp only [Bool.false_eq_true, if_false, Option.map_map]
        rfl
      · simp only [if_true, Option.map_map]
        rfl

include hu in
theorem subsim_trials (fuel : Nat) (covs : List M) (anneal : ℝ) (base : Θ) (r : Nat) (w : W) (θ : Θ) :
    trials (subsimIn u env) fuel covs (u * anneal) base r w θ = trials env fuel covs anneal base r w θ := by
  induction r generalizing w θ with
  | zero => rfl
  | succ r ih =>
    unfold trials
    rw [show propose (subsimIn u env).pdf ((subsimIn u env).perturb covs base) fuel w = propose env.pdf (env.perturb covs base) fuel w from rfl]
    cases propose env.pdf (env.perturb covs base) fuel w with
    | none => rfl
    | some a =>
      simp only
      rw [show (subsimIn u env).sim a.2 a.1 = env.sim a.2 a.1 from rfl, show (subsimIn u env).dist (env.sim a.2 a.1).2 = u * env.dist (env.sim a.2 a.1).2 from rfl, subsim_prob hu,
        show (subsimIn u env).bern = env.bern from rfl, ih, ih]

include hu in
theorem subsim_accept (fuel length : Nat) (covs : List M) (anneal : ℝ) (base pop : List Θ) (i : Nat) (w : W) :
    accept (subsimIn u env) fuel length covs (u * anneal) base pop i w = (accept env fuel length covs anneal base pop i w).map (pairIn u) := by
  unfold accept
  cases pop[i]? with
  | none => rfl
  | some θ =>
    cases base[i]? with
    | none => rfl
    | some θ0 =>
      simp only [Option.bind_some]
      rw [show (subsimIn u env).sim θ w = env.sim θ w from rfl, show (subsimIn u env).dist (env.sim θ w).2 = u * env.dist (env.sim θ w).2 from rfl, subsim_chain hu, Option.map_map, Option.map_map]
      rfl

include hu in
theorem subsim_tune (fuel length : Nat) (covs : List M) (anneal : ℝ) (base pop : List Θ) (i : Nat) (w : W) :
    tune (subsimIn u env) fuel length covs (u * anneal) base pop i w = tune env fuel length covs anneal base pop i w := by
  unfold tune
  simp only [subsim_trials hu]
  rfl

theorem sorted_in (hu : 0 < u) (params : List Θ) (distances : List ℝ) : sorted params (distances.map fun x => u * x) = (sorted params distances).map fun e => (u * e.1, e.2) := by
  unfold sorted
  rw [List.zip_map_left]
  exact (List.map_insertionSort (fun a b : ℝ × Θ => a.1 ≤ b.1) (fun a b : ℝ × Θ => a.1 ≤ b.1) (fun e : ℝ × Θ => (u * e.1, e.2)) (distances.zip params)
    fun a _ b _ => ((mul_strictMono hu).le_iff_le).symm).symm

include hu in
theorem subsim_step (c : Config) (fuel t : Nat) (start tuneStart : List W) (s : State Θ M) :
    step (subsimIn u env) c fuel t start tuneStart (subsimStateIn u s) = (step env c fuel t start tuneStart s).map (subsimStateIn u) := by
  unfold step
  by_cases h1 : start.length ≠ (if t = 0 then c.n else c.n / c.length) ∨ start = [] ∨ c.length = 0 ∨ tuneStart.length ≠ 10
  · rw [if_pos h1, if_pos h1]; rfl
  · rw [if_neg h1, if_neg h1]
    have hl : (subsimStateIn u s).hist.getLast? = (s.hist.getLast?).map fun e => (subsimRecIn u e.1, u * e.2) := by simp only [subsimStateIn, List.getLast?_map]
    have hfirst : start.map (first (subsimIn u env)) = (start.map (first env)).map (pairIn u) := by rw [List.map_map]; rfl
    have h2 : ∀ out : List (List Θ × List ℝ), (out.map (pairIn u)).map Prod.fst = out.map Prod.fst := fun out => by rw [List.map_map]; rfl
    have h3 : ∀ out : List (List Θ × List ℝ), ((out.map (pairIn u)).map Prod.snd).flatten = (out.map Prod.snd).flatten.map fun x => u * x := fun out => by
      rw [List.map_map, List.map_flatten, List.map_map]; rfl
    have h4 : ∀ l : List (ℝ × Θ), (l.map fun e => (u * e.1, e.2)).map Prod.snd = l.map Prod.snd := fun l => by rw [List.map_map]; rfl
    have h5 : ∀ l : List (ℝ × Θ), (l.map fun e => (u * e.1, e.2)).map Prod.fst = (l.map Prod.fst).map fun x => u * x := fun l => by rw [List.map_map, List.map_map]; rfl
    have h6 : ∀ a b : ℝ, 1 / 2 * (u * a + u * b) = u * (1 / 2 * (a + b)) := fun a b => by ring
    have h7 : ∀ x y : ℝ, 100 * |u * x - u * y| / |u * y| = 100 * |x - y| / |y| := fun x y => by
      rw [← mul_sub, abs_mul, abs_mul, abs_of_pos hu, mul_left_comm, mul_div_mul_left _ _ hu.ne']
    simp only [hl]
    cases s.hist.getLast? with
    | none =>
      simp only [Option.map_none, hfirst, h2, h3, sorted_in hu, h4, h5, List.getElem?_map]
      generalize sorted ((start.map (first env)).map Prod.fst).flatten ((start.map (first env)).map Prod.snd).flatten = l
      cases l[c.n / c.length]? with
      | none => rfl
      | some a =>
        cases l[c.n / c.length + 1]? with
        | none => rfl
        | some b =>
          simp only [Option.map_some, h6, subsim_tune hu, Option.getD_none]
          rw [show (subsimIn u env).cov = env.cov from rfl]
          cases collect (tuneStart.zipIdx.map fun (e : W × Nat) => tune env fuel c.length (env.cov ⟨l.map Prod.snd, List.replicate c.n 1⟩) (1 / 2 * (a.1 + b.1)) (l.map Prod.snd) (l.map Prod.snd) e.2 e.1) with
          | none => rfl
          | some tuned =>
            have h8 := h7 0 (1 / 2 * (a.1 + b.1))
            rw [mul_zero] at h8
            simp only [mul_eq_zero, hu.ne', false_or, h8]
            by_cases h9 : (1 : ℝ) / 2 = 0 ∨ a.1 + b.1 = 0
            · simp only [h9, if_true]; rfl
            · simp only [h9, if_false, subsimStateIn, Option.map_some, List.map_append, List.map_cons, List.map_nil, subsimRecIn]
              cases c.full <;> simp [subsimRecIn]
    | some o =>
      simp only [Option.map_some, subsimRecIn, subsim_accept hu, collect_map]
      rw [show (subsimStateIn u s).base = s.base from rfl]
      cases collect (start.zipIdx.map fun (e : W × Nat) => accept env fuel c.length o.1.covs o.2 s.base o.1.params e.2 e.1) with
      | none => rfl
      | some out =>
        simp only [Option.map_some, h2, h3, sorted_in hu, h4, h5, List.getElem?_map]
        generalize sorted (out.map Prod.fst).flatten (out.map Prod.snd).flatten = l
        cases l[c.n / c.length]? with
        | none => rfl
        | some a =>
          cases l[c.n / c.length + 1]? with
          | none => rfl
          | some b =>
            simp only [Option.map_some, h6, subsim_tune hu, Option.getD_some]
            cases collect (tuneStart.zipIdx.map fun (e : W × Nat) => tune env fuel c.length (o.1.covs ++ o.1.covs) (1 / 2 * (a.1 + b.1)) s.base o.1.params e.2 e.1) with
            | none => rfl
            | some tuned =>
              simp only [mul_eq_zero, hu.ne', false_or, h7]
              by_cases h9 : (1 : ℝ) / 2 = 0 ∨ a.1 + b.1 = 0
              · simp only [h9, if_true]; rfl
              · simp only [h9, if_false, subsimStateIn, Option.map_some, List.map_append, List.map_cons, List.map_nil, subsimRecIn]
                cases c.full <;> simp [subsimRecIn]

include hu in
theorem subsim_loop (c : Config) (fuel : Nat) (start tuneStart : Nat → List W) (k t : Nat) (s : State Θ M) :
    loop (subsimIn u env) c fuel start tuneStart k t (subsimStateIn u s) = (loop env c fuel start tuneStart k t s).map (subsimStateIn u) := by
  induction k generalizing t s with
  | zero => rfl
  | succ k ih =>
    unfold loop
    rw [subsim_step hu, show (subsimStateIn u s).stopped = s.stopped from rfl]
    cases s.stopped with
    | true => rfl
    | false =>
      simp only [Bool.false_eq_true, if_false]
      cases step env c fuel t (start t) (tuneStart t) s with
      | none => rfl
      | some s => exact ih (t + 1) s

include hu in
/-- **C204, ABCsubsim.** With all distances measured in another unit a run of `ABCsubsim` gives the same particles, weights, covariance matrices and numbers of simulations and stops after the same number of
steps. Its annealing parameters and distances are the same in the other unit. -/
theorem C204_subsim (c : Config) (fuel : Nat) (start tuneStart : Nat → List W) :
    run (subsimIn u env) c fuel start tuneStart = (run env c fuel start tuneStart).map (subsimStateIn u) := by
  unfold run
  rw [show (⟨[], [], [], false⟩ : State Θ M) = subsimStateIn u ⟨[], [], [], false⟩ from rfl, subsim_loop hu]
  rw [show subsimStateIn u (⟨[], [], [], false⟩ : State Θ M) = ⟨[], [], [], false⟩ from rfl]
  cases loop env c fuel start tuneStart c.steps 0 ⟨[], [], [], false⟩ with
  | none => rfl
  | some s =>
    simp only [Option.map_some, subsimStateIn]
    cases c.full
    · simp only [Bool.false_eq_true, if_false, List.getLast?_map, Option.map_map]
      cases s.hist.getLast? <;> rfl
    · rfl

end Verif.Units
