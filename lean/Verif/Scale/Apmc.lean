import Verif.Apmc.Props
import Verif.Scale.Ratio
/-!
# C203: constant factors of densities, `APMCABC`

Runs of `APMCABC.sample` (inferences.py 2826-3175) for a prior density and a kernel density with constant factors.
-/
namespace Verif.Scale

open Verif.Pmc (Pop normalise percentile)
open Verif.Smc (propose)
open Apmc

variable {W Θ Y : Type} {c k : ℝ} (hc : 0 < c)

/-- Specification: the same problem, with prior density `c` times and kernel density `k` times as large. -/
def apmcEnv (c k : ℝ) (env : Env W Θ Y) : Env W Θ Y := { env with pdf := fun θ => c * env.pdf θ, kernel := fun p x y => k * env.kernel p x y }

variable (env : Env W Θ Y)

/-- The result of a task with another weight. -/
def heavier (x : ℝ) (o : Out Θ) : Out Θ := { o with weight := x * o.weight }

include hc in
theorem apmc_accept (fuel : Nat) (p : Pop Θ) (w : W) : accept (apmcEnv c k env) fuel (some p) w = (accept env fuel (some p) w).map (heavier (c / k)) := by
  unfold accept
  simp only
  have e : ∀ (f : W → W × Option Θ) w, propose (apmcEnv c k env).pdf f fuel w = propose env.pdf f fuel w := fun f w => propose_scale hc _ _ _ _
  have hm : ∀ θ, mixture (apmcEnv c k env) p θ = k * mixture env p θ := fun θ => zip_mul k (fun x => env.kernel p x θ) p.weights p.params
  simp only [e, hm]
  rw [show (apmcEnv c k env).choose p.weights w = env.choose p.weights w from rfl, show (apmcEnv c k env).perturb = env.perturb from rfl]
  cases p.params[(env.choose p.weights w).2]? with
  | none => rfl
  | some _ =>
    simp only [Option.bind_some, Option.map_map]
    congr 1
    funext a
    simp only [Function.comp_apply, heavier, apmcEnv, Out.mk.injEq, true_and]
    rw [one_mul, one_mul, mul_div_mul_comm]

theorem collect_map_map {A B C : Type} (f : A → Option B) (g : B → C) (l : List A) : collect (l.map fun x => (f x).map g) = (collect (l.map f)).map fun r => r.map g := by
  induction l with
  | nil => rfl
  | cons x l ih =>
    rw [List.map_cons, List.map_cons]
    cases f x with
    | none => rfl
    | some y =>
      simp only [Option.map_some, collect, ih]
      cases collect (l.map f) <;> rfl

/-- **C203, APMCABC, first population.** A run of one step does not depend on the factors. -/
theorem C203_apmc_first (cf : Config) (h : cf.steps ≤ 1) (fuel : Nat) (start : Nat → List W) : run (apmcEnv c k env) cf fuel start = run env cf fuel start := by
  have e : ∀ start, step (apmcEnv c k env) cf fuel 0 start ⟨[], [], [], false⟩ = step env cf fuel 0 start ⟨[], [], [], false⟩ := fun start => rfl
  unfold run
  rcases Nat.le_one_iff_eq_zero_or_eq_one.1 h with h | h <;> rw [h]
  · rfl
  · rw [loop, loop, e]
    rfl

include hc in
/-- **C203, APMCABC, later populations.** The particles and distances of a population do not depend on the factors of its step. But the weights of the new particles are multiplied by the quotient
of the factors, and those of the particles carried over are not. -/
theorem C203_apmc_step (cf : Config) (fuel t : Nat) (start : List W) (hn : start.length ≠ cf.n) (s s₁ : State Θ) (old : Rec Θ) (ho : s.hist.getLast? = some old)
    (h : step env cf fuel t start s = some s₁) :
    ∃ s₂ q q' new, step (apmcEnv c k env) cf fuel t start s = some s₂ ∧ s₁.hist = s.hist ++ [q] ∧ s₂.hist = s.hist ++ [q'] ∧ s₂.epsilons = s₁.epsilons ∧ s₂.stopped = s₁.stopped ∧
      q'.params = q.params ∧ q'.distances = q.distances ∧ q'.eps = q.eps ∧ new.length = start.length ∧
      q.weights = old.keptWeights ++ new ∧ q'.weights = old.keptWeights ++ new.map fun x => c / k * x := by
  unfold step at h ⊢
  by_cases h1 : start.length ≠ wanted cf t ∨ start = []
  · rw [if_pos h1] at h
    cases h
  · rw [if_neg h1] at h
    rw [if_neg h1]
    have hs : seen s = some ⟨old.keptParams, old.keptWeights⟩ := by rw [seen, ho]; rfl
    simp only [hs] at h ⊢
    simp only [apmc_accept hc]
    rw [collect_map_map]
    cases hcol : collect (start.map fun w => accept env fuel (some ⟨old.keptParams, old.keptWeights⟩) w) with
    | none => simp [hcol] at h
    | some out =>
      have hlen : out.length = start.length := by
        have := congrArg List.length ((collect_eq_some _ _).1 hcol)
        simpa using this.symm
      have hd : (out.map (heavier (c / k))).map Out.d = out.map Out.d := by rw [List.map_map]; rfl
      have hθ : (out.map (heavier (c / k))).map Out.θ = out.map Out.θ := by rw [List.map_map]; rfl
      have hw : (out.map (heavier (c / k))).map Out.weight = (out.map Out.weight).map fun x => c / k * x := by rw [List.map_map, List.map_map]; rfl
      have hm : merge cf s out = (old.keptParams ++ out.map Out.θ, old.keptDistances ++ out.map Out.d, old.keptWeights ++ out.map Out.weight) := by
        rw [merge, if_neg (by omega), ho]
      have hm' : merge cf s (out.map (heavier (c / k))) =
          (old.keptParams ++ out.map Out.θ, old.keptDistances ++ out.map Out.d, old.keptWeights ++ (out.map Out.weight).map fun x => c / k * x) := by
        rw [merge, if_neg (by rw [List.length_map]; omega), ho]
        simp only [hd, hθ, hw]
      have ha : acceptance cf s (out.map (heavier (c / k))) = acceptance cf s out := by
        unfold acceptance
        rw [List.length_map, hd]
      simp only [hcol, Option.map_some, hm] at h ⊢
      rw [hm']
      simp only
      cases hp : percentile (old.keptDistances ++ out.map Out.d) (cf.alpha * 100) with
      | none => simp [hp] at h
      | some eps =>
        simp only [hp, Option.some.injEq] at h ⊢
        subst h
        exact ⟨_, keep eps (old.keptParams ++ out.map Out.θ, old.keptDistances ++ out.map Out.d, old.keptWeights ++ out.map Out.weight), _, out.map Out.weight, rfl, rfl, rfl, by simp only [List.length_map], by rw [ha],
          rfl, rfl, rfl, by simp [hlen], rfl, rfl⟩

/-- **C203 fails for APMCABC.** Two runs with prior densities that differ by the factor 3 give populations in which the second particle has the same weight as the first, and three times its weight. -/
theorem C203_apmc_violated : ∃ s s', run exEnv ⟨3, 2, 1 / 2, 0, true⟩ 1 threeStart = some s ∧ run (apmcEnv 3 1 exEnv) ⟨3, 2, 1 / 2, 0, true⟩ 1 threeStart = some s' ∧
    (s.journal.map Rec.params) = [[0, 1, 2], [0, 1]] ∧ (s'.journal.map Rec.params) = [[0, 1, 2], [0, 1]] ∧
    (s.journal.map Rec.weights) = [[1, 1, 1], [1, 1]] ∧ (s'.journal.map Rec.weights) = [[1, 1, 1], [1, 3]] := by
  have hw : wanted ⟨3, 2, 1 / 2, 0, true⟩ 1 = 1 := by simp only [wanted]; rw [pyRound_three]; rfl
  have h1 : step exEnv ⟨3, 2, 1 / 2, 0, true⟩ 1 0 (threeStart 0) ⟨[], [], [], false⟩ =
      some ⟨[1], [⟨1, [0, 1, 2], [0, 1, 2], [1, 1, 1], [0], [0], [1]⟩], [⟨1, [0, 1, 2], [0, 1, 2], [1, 1, 1], [0], [0], [1]⟩], false⟩ := by
    have := percentile_three
    norm_num [step, threeStart, wanted, seen, accept, exEnv, collect, merge, acceptance, keep, select, normalise, this]
    simp
  have h1' : step (apmcEnv 3 1 exEnv) ⟨3, 2, 1 / 2, 0, true⟩ 1 0 (threeStart 0) ⟨[], [], [], false⟩ =
      some ⟨[1], [⟨1, [0, 1, 2], [0, 1, 2], [1, 1, 1], [0], [0], [1]⟩], [⟨1, [0, 1, 2], [0, 1, 2], [1, 1, 1], [0], [0], [1]⟩], false⟩ := by rw [← h1]; rfl
  have h2 : ∃ s, step exEnv ⟨3, 2, 1 / 2, 0, true⟩ 1 1 (threeStart 1) ⟨[1], [⟨1, [0, 1, 2], [0, 1, 2], [1, 1, 1], [0], [0], [1]⟩],
        [⟨1, [0, 1, 2], [0, 1, 2], [1, 1, 1], [0], [0], [1]⟩], false⟩ = some s ∧ (s.journal.map Rec.params) = [[0, 1, 2], [0, 1]] ∧ (s.journal.map Rec.weights) = [[1, 1, 1], [1, 1]] := by
    have := percentile_two 1 zero_le_one
    norm_num [step, threeStart, hw, seen, accept, propose, exEnv, collect, merge, acceptance, keep, select, normalise, mixture, this]
  have h2' : ∃ s, step (apmcEnv 3 1 exEnv) ⟨3, 2, 1 / 2, 0, true⟩ 1 1 (threeStart 1) ⟨[1], [⟨1, [0, 1, 2], [0, 1, 2], [1, 1, 1], [0], [0], [1]⟩],
        [⟨1, [0, 1, 2], [0, 1, 2], [1, 1, 1], [0], [0], [1]⟩], false⟩ = some s ∧ (s.journal.map Rec.params) = [[0, 1, 2], [0, 1]] ∧ (s.journal.map Rec.weights) = [[1, 1, 1], [1, 3]] := by
    have := percentile_two 1 zero_le_one
    norm_num [step, threeStart, hw, seen, accept, propose, apmcEnv, exEnv, collect, merge, acceptance, keep, select, normalise, mixture, this]
  obtain ⟨s, h2, h3, h4⟩ := h2
  obtain ⟨s', h2', h3', h4'⟩ := h2'
  refine ⟨s, s', ?_, ?_, h3, h3', h4, h4'⟩
  · unfold run
    simp only
    rw [loop, h1]
    simp only [Bool.false_eq_true, if_false]
    rw [loop, h2]
    simp [loop]
  · unfold run
    simp only
    rw [loop, h1']
    simp only [Bool.false_eq_true, if_false]
    rw [loop, h2']
    simp [loop]

end Verif.Scale
