import Verif.Units.Basic
import Verif.Rsmc.Model
/-!
# C204: the unit of the distance, `RSMCABC`
-/
namespace Verif.Units

open Verif.Pmc (Pop above)
open Verif.Smc (propose)
open Rsmc

variable {W Θ Y : Type} {u : ℝ} (hu : 0 < u)

/-- Specification: the same problem, with distances measured in another unit. -/
def rsmcIn (u : ℝ) (env : Env W Θ Y) : Env W Θ Y := { env with distMax := env.distMax.map fun x => u * x, dist := fun y => u * env.dist y }

/-- Specification: the same configuration, with thresholds in another unit. -/
def rsmcConfigIn (u : ℝ) (c : Config) : Config := { c with epsInit := u * c.epsInit, epsFinal := u * c.epsFinal }

/-- Specification: the same population, with its threshold and its distances in another unit. -/
def rsmcRecIn (u : ℝ) (r : Rec Θ) : Rec Θ := { r with eps := u * r.eps, distances := r.distances.map fun x => u * x }

/-- Specification: the same state, with thresholds and distances in another unit. -/
def rsmcStateIn (u : ℝ) (s : State Θ) : State Θ :=
  { s with epsilons := s.epsilons.map fun x => u * x, kept := s.kept.map fun k => (k.1, k.2.map fun x => u * x), hist := s.hist.map (rsmcRecIn u), journal := s.journal.map (rsmcRecIn u) }

def rsmcOutIn (u : ℝ) (o : Out Θ) : Out Θ := { o with d := o.d.map fun x => u * x }

variable (env : Env W Θ Y)

include hu in
theorem rsmc_prior (eps : ℝ) (fuel : Nat) (w : W) (held : Θ) (d : Option ℝ) (n : Nat) :
    priorLoop (rsmcIn u env) (u * eps) fuel w held (d.map fun x => u * x) n = (priorLoop env eps fuel w held d n).map fun r => (r.1, r.2.1.map (fun x => u * x), r.2.2) := by
  induction fuel generalizing w held d n with
  | zero => rfl
  | succ fuel ih =>
    unfold priorLoop
    rw [above_mul hu]
    cases above d eps with
    | false => rfl
    | true =>
      simp only [if_true]
      rw [← ih]
      rfl

include hu in
theorem rsmc_move (fuel : Nat) (eps : ℝ) (p : Pop Θ) (i : Nat) (θ : Θ) (dθ : ℝ) (r : Nat) (w : W) (held : Θ) (d : Option ℝ) (acc n : Nat) :
    moveLoop (rsmcIn u env) fuel (u * eps) p i θ (u * dθ) r w held (d.map fun x => u * x) acc n = (moveLoop env fuel eps p i θ dθ r w held d acc n).map (rsmcOutIn u) := by
  induction r generalizing w held d acc n with
  | zero => rfl
  | succ r ih =>
    unfold moveLoop
    rw [show propose (rsmcIn u env).pdf ((rsmcIn u env).perturb p i) fuel w = propose env.pdf (env.perturb p i) fuel w from rfl]
    cases propose env.pdf (env.perturb p i) fuel w with
    | none => rfl
    | some a =>
      simp only
      rw [show prob (rsmcIn u env) p θ a.2 = prob env p θ a.2 from rfl, show (rsmcIn u env).sim a.2 a.1 = env.sim a.2 a.1 from rfl,
        show (rsmcIn u env).dist (env.sim a.2 a.1).2 = u * env.dist (env.sim a.2 a.1).2 from rfl,
        show (rsmcIn u env).bern = env.bern from rfl]
      by_cases h : env.dist (env.sim a.2 a.1).2 < eps
      · rw [if_pos h, if_pos (by gcongr)]
        cases (env.bern (prob env p θ a.2) (env.sim a.2 a.1).1).2 with
        | true => exact ih _ _ (some _) _ _
        | false => exact ih _ _ (some _) _ _
      · rw [if_neg h, if_neg (fun h' => h (lt_of_mul_lt_mul_left h' hu.le))]
        exact ih _ _ (some _) _ _

include hu in
theorem rsmc_accept (fuel : Nat) (eps : ℝ) (pop : Option (Pop Θ × List ℝ)) (r : Nat) (w : W) (held : Θ) :
    accept (rsmcIn u env) fuel (u * eps) (pop.map fun q => (q.1, q.2.map fun x => u * x)) r w held = (accept env fuel eps pop r w held).map (rsmcOutIn u) := by
  cases pop with
  | none =>
    unfold accept
    simp only [Option.map_none]
    rw [show (rsmcIn u env).distMax = env.distMax.map fun x => u * x from rfl, rsmc_prior hu, Option.map_map, Option.map_map]
    rfl
  | some q =>
    unfold accept
    simp only [Option.map_some, List.getElem?_map]
    rw [show (rsmcIn u env).choose = env.choose from rfl]
    cases q.1.params[(env.choose q.1.params.length w).2]? with
    | none => rfl
    | some θ =>
      cases q.2[(env.choose q.1.params.length w).2]? with
      | none => rfl
      | some dθ => exact rsmc_move hu env fuel eps q.1 _ θ dθ r _ held env.distMax 0 0

theorem trim_in (hu : 0 < u) (c : Config) (params : List Θ) (distances : List ℝ) :
    trim (rsmcConfigIn u c) params (distances.map fun x => u * x) = ((trim c params distances).1, (trim c params distances).2.map fun x => u * x) := by
  have hs : (((distances.map fun x => u * x).zip params).insertionSort fun a b => a.1 ≤ b.1) =
      ((distances.zip params).insertionSort fun a b => a.1 ≤ b.1).map fun e => (u * e.1, e.2) := by
    rw [List.zip_map_left]
    exact (List.map_insertionSort (fun a b : ℝ × Θ => a.1 ≤ b.1) (fun a b : ℝ × Θ => a.1 ≤ b.1) (fun e : ℝ × Θ => (u * e.1, e.2)) (distances.zip params)
      fun a _ b _ => ((mul_strictMono hu).le_iff_le).symm).symm
  unfold trim
  simp only [hs, List.map_map, ← List.map_take, Prod.mk.injEq]
  exact ⟨rfl, rfl⟩

include hu in
theorem rsmc_step (c : Config) (fuel t : Nat) (start : List (W × Θ)) (s : State Θ) :
    step (rsmcIn u env) (rsmcConfigIn u c) fuel t start (rsmcStateIn u s) = (step env c fuel t start s).map (rsmcStateIn u) := by
  unfold step
  have ht : threshold (rsmcConfigIn u c) (rsmcStateIn u s) = (threshold c s).map fun x => u * x := by
    unfold threshold
    simp only [rsmcStateIn]
    cases s.kept with
    | none => rfl
    | some k => simp only [Option.map_some, List.getLast?_map]
  have hw : wanted (rsmcConfigIn u c) (rsmcStateIn u s) = wanted c s := by
    unfold wanted
    simp only [rsmcStateIn, Option.isNone_map]
    rfl
  have hseen : seen (rsmcStateIn u s) = (seen s).map fun q => (q.1, q.2.map fun x => u * x) := by
    unfold seen
    simp only [rsmcStateIn, Option.map_map]
    rfl
  have hb : ∀ n, base (rsmcConfigIn u c) (rsmcStateIn u s) n = ((base c s n).1, (base c s n).2.map fun x => u * x) := by
    intro n
    unfold base
    simp only [rsmcStateIn]
    rw [show (rsmcConfigIn u c).n = c.n from rfl]
    by_cases h : n = c.n
    · rw [if_pos h, if_pos h]; rfl
    · rw [if_neg h, if_neg h]
      cases s.kept <;> rfl
  rw [ht]
  cases threshold c s with
  | none => rfl
  | some eps =>
    simp only [Option.map_some]
    rw [show (rsmcConfigIn u c).epsFinal = u * c.epsFinal from rfl, hw, hseen, show (rsmcStateIn u s).moves = s.moves from rfl]
    by_cases h1 : eps < c.epsFinal
    · rw [if_pos h1, if_pos (by gcongr)]; rfl
    · rw [if_neg h1, if_neg (fun h' => h1 (lt_of_mul_lt_mul_left h' hu.le))]
      by_cases h2 : start.length ≠ wanted c s ∨ start = []
      · rw [if_pos h2, if_pos h2]; rfl
      · rw [if_neg h2, if_neg h2]
        simp only [rsmc_accept hu, collect_map]
        cases collect (start.map fun e => accept env fuel eps (seen s) s.moves.toNat e.1 e.2) with
        | none => rfl
        | some out =>
          have h3 : (out.map (rsmcOutIn u)).map Out.d = out.map fun o => o.d.map fun x => u * x := by rw [List.map_map]; rfl
          have h4 : (out.map (rsmcOutIn u)).map Out.accepted = out.map Out.accepted := by rw [List.map_map]; rfl
          have h5 : (out.map (rsmcOutIn u)).map Out.θ = out.map Out.θ := by rw [List.map_map]; rfl
          have h6 : (out.map (rsmcOutIn u)).map Out.count = out.map Out.count := by rw [List.map_map]; rfl
          simp only [Option.map_some, h3, h4, h5, h6, collect_map, List.length_map, hb]
          cases collect (out.map Out.d) with
          | none => rfl
          | some ds =>
            simp only [Option.map_some]
            rw [show nextMoves (rsmcConfigIn u c) s.moves start.length (out.map Out.accepted).sum = nextMoves c s.moves start.length (out.map Out.accepted).sum from rfl]
            cases nextMoves c s.moves start.length (out.map Out.accepted).sum with
            | none => rfl
            | some moves =>
              simp only [← List.map_append, trim_in hu, Except.map, rsmcStateIn, Option.map_some]
              rw [show (rsmcConfigIn u c).full = c.full from rfl, show (rsmcConfigIn u c).steps = c.steps from rfl]
              cases c.full
              · by_cases h7 : t = c.steps - 1
                · simp only [h7, if_true, Bool.false_eq_true, if_false, rsmcRecIn, List.map_append, List.map_cons, List.map_nil]
                · simp only [h7, Bool.false_eq_true, if_false, rsmcRecIn, List.map_append, List.map_cons, List.map_nil]
              · simp only [if_true, rsmcRecIn, List.map_append, List.map_cons, List.map_nil]

include hu in
theorem rsmc_loop (c : Config) (fuel : Nat) (start : Nat → List (W × Θ)) (k t : Nat) (s : State Θ) :
    loop (rsmcIn u env) (rsmcConfigIn u c) fuel start k t (rsmcStateIn u s) = (loop env c fuel start k t s).map (rsmcStateIn u) := by
  induction k generalizing t s with
  | zero => rfl
  | succ k ih =>
    unfold loop
    rw [rsmc_step hu]
    cases step env c fuel t (start t) s with
    | error e => rfl
    | ok s => exact ih (t + 1) s

include hu in
/-- **C204, RSMCABC.** With all distances, the largest distance, the first and the final threshold measured in another unit, a run of `RSMCABC` gives the same particles, the same numbers of moves and of
simulations, or fails in the same way. Its thresholds and distances are the same in the other unit. -/
theorem C204_rsmcabc (c : Config) (fuel : Nat) (start : Nat → List (W × Θ)) :
    run (rsmcIn u env) (rsmcConfigIn u c) fuel start = (run env c fuel start).map (rsmcStateIn u) := rsmc_loop hu env c fuel start c.steps 0 ⟨[], none, 1, [], [], 0⟩

end Verif.Units
