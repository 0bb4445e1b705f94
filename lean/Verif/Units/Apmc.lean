import Verif.Units.Basic
import Verif.Apmc.Model
/-!
# C204: the unit of the distance, `APMCABC`
-/
namespace Verif.Units

open Verif.Pmc (Pop percentile normalise)
open Apmc

variable {W Θ Y : Type} {u : ℝ} (hu : 0 < u)

/-- Specification: the same problem, with distances measured in another unit. -/
def apmcIn (u : ℝ) (env : Env W Θ Y) : Env W Θ Y := { env with dist := fun y => u * env.dist y }

/-- Specification: the same population, with its threshold and its distances in another unit. -/
def apmcRecIn (u : ℝ) (r : Rec Θ) : Rec Θ :=
  { r with eps := u * r.eps, distances := r.distances.map fun x => u * x, keptDistances := r.keptDistances.map fun x => u * x }

/-- Specification: the same state, with thresholds and distances in another unit. -/
def apmcStateIn (u : ℝ) (s : State Θ) : State Θ :=
  { s with epsilons := s.epsilons.map fun x => u * x, hist := s.hist.map (apmcRecIn u), journal := s.journal.map (apmcRecIn u) }

def apmcOutIn (u : ℝ) (o : Out Θ) : Out Θ := { o with d := u * o.d }

variable (env : Env W Θ Y)

theorem apmc_accept (fuel : Nat) (pop : Option (Pop Θ)) (w : W) : accept (apmcIn u env) fuel pop w = (accept env fuel pop w).map (apmcOutIn u) := by
  cases pop with
  | none => rfl
  | some p =>
    unfold accept
    simp only
    rw [show (apmcIn u env).choose p.weights w = env.choose p.weights w from rfl]
    cases p.params[(env.choose p.weights w).2]? with
    | none => rfl
    | some _ =>
      simp only [Option.bind_some, Option.map_map]
      rfl

theorem select_map {A B : Type} (f : A → B) (m : List Bool) (l : List A) : select m (l.map f) = (select m l).map f := by
  induction m generalizing l with
  | nil => cases l <;> rfl
  | cons b m ih =>
    cases l with
    | nil => cases b <;> rfl
    | cons x l => cases b <;> simp [select, ih]

include hu in
theorem keep_in (eps : ℝ) (p : List Θ × List ℝ × List ℝ) : keep (u * eps) (p.1, p.2.1.map (fun x => u * x), p.2.2) = apmcRecIn u (keep eps p) := by
  have hm : (p.2.1.map fun x => u * x).map (fun d => decide (d < u * eps)) = p.2.1.map fun d => decide (d < eps) := by
    rw [List.map_map]
    refine List.map_congr_left fun d _ => ?_
    simp only [Function.comp_apply, mul_lt_mul_iff_right₀ hu]
  unfold keep
  simp only [hm, select_map, apmcRecIn]

include hu in
theorem apmc_step (c : Config) (fuel t : Nat) (start : List W) (s : State Θ) :
    step (apmcIn u env) c fuel t start (apmcStateIn u s) = (step env c fuel t start s).map (apmcStateIn u) := by
  have hs : seen (apmcStateIn u s) = seen s := by
    unfold seen
    simp only [apmcStateIn, List.getLast?_map, Option.map_map]
    rfl
  have hd : ∀ out : List (Out Θ), (out.map (apmcOutIn u)).map Out.d = (out.map Out.d).map fun x => u * x := fun out => by rw [List.map_map, List.map_map]; rfl
  have hθ : ∀ out : List (Out Θ), (out.map (apmcOutIn u)).map Out.θ = out.map Out.θ := fun out => by rw [List.map_map]; rfl
  have hw : ∀ out : List (Out Θ), (out.map (apmcOutIn u)).map Out.weight = out.map Out.weight := fun out => by rw [List.map_map]; rfl
  have hm : ∀ out, merge c (apmcStateIn u s) (out.map (apmcOutIn u)) = ((merge c s out).1, (merge c s out).2.1.map (fun x => u * x), (merge c s out).2.2) := by
    intro out
    unfold merge
    rw [List.length_map, hd, hθ, hw]
    by_cases h : out.length = c.n
    · rw [if_pos h, if_pos h]
    · rw [if_neg h, if_neg h]
      simp only [apmcStateIn, List.getLast?_map]
      cases s.hist.getLast? with
      | none => rfl
      | some r => simp only [Option.map_some, apmcRecIn, List.map_append]
  have ha : ∀ out, acceptance c (apmcStateIn u s) (out.map (apmcOutIn u)) = acceptance c s out := by
    intro out
    unfold acceptance
    rw [List.length_map, hd]
    by_cases h : out.length = c.n
    · rw [if_pos h, if_pos h]
    · rw [if_neg h, if_neg h]
      simp only [apmcStateIn, List.getLast?_map]
      cases s.epsilons.getLast? with
      | none => rfl
      | some e => simp only [Option.map_some, List.countP_map, Function.comp_def, mul_lt_mul_iff_right₀ hu]
  unfold step
  by_cases h1 : start.length ≠ wanted c t ∨ start = []
  · rw [if_pos h1, if_pos h1]; rfl
  · rw [if_neg h1, if_neg h1]
    simp only [hs, apmc_accept, collect_map]
    cases collect (start.map fun w => accept env fuel (seen s) w) with
    | none => rfl
    | some out =>
      simp only [Option.map_some, hm, percentile_mul hu]
      cases percentile (merge c s out).2.1 (c.alpha * 100) with
      | none => rfl
      | some eps =>
        rw [ha]
        simp only [Option.map_some, keep_in hu, List.length_map, apmcStateIn, Option.some.injEq, State.mk.injEq, List.map_append, List.map_cons, List.map_nil, and_true, true_and]
        refine ⟨?_, ?_⟩
        · by_cases h : out.length = c.n
          · rw [if_pos h, if_pos h]; rfl
          · rw [if_neg h, if_neg h]
        · cases c.full
          · by_cases h : t = c.steps - 1
            · simp only [h, if_true, Bool.false_eq_true, if_false, List.map_cons, List.map_nil]
            · simp only [h, Bool.false_eq_true, if_false]
          · simp only [if_true, List.map_append, List.map_cons, List.map_nil]

include hu in
theorem apmc_loop (c : Config) (fuel : Nat) (start : Nat → List W) (k t : Nat) (s : State Θ) :
    loop (apmcIn u env) c fuel start k t (apmcStateIn u s) = (loop env c fuel start k t s).map (apmcStateIn u) := by
  induction k generalizing t s with
  | zero => rfl
  | succ k ih =>
    unfold loop
    rw [apmc_step hu, show (apmcStateIn u s).stopped = s.stopped from rfl]
    cases s.stopped with
    | true => rfl
    | false =>
      simp only [Bool.false_eq_true, if_false]
      cases step env c fuel t (start t) s with
      | none => rfl
      | some s => exact ih (t + 1) s

include hu in
/-- **C204, APMCABC.** With all distances measured in another unit a run of `APMCABC` gives the same particles and weights and stops after the same number of steps. Its thresholds and distances are the same in
the other unit. -/
theorem C204_apmcabc (c : Config) (fuel : Nat) (start : Nat → List W) : run (apmcIn u env) c fuel start = (run env c fuel start).map (apmcStateIn u) :=
  apmc_loop hu env c fuel start c.steps 0 ⟨[], [], [], false⟩

end Verif.Units
