import Verif.Site.RunChains
import Verif.Site.Examples
/-
Sites and runs that meet the hypotheses of C146.
-/
namespace Verif.Site

open Graph

variable {K : Type}

/-- The site `plain` with a kernel for other requests. -/
noncomputable def plainFor (f : K → Nat) : Site Int Int K where
  g := plain.g
  roots := plain.roots
  chk := plain.chk
  dens := plain.dens
  prior := plain.prior
  tries := plain.tries
  simulate := plain.simulate
  update k := plain.update (f k)
  choice := plain.choice
  dist := plain.dist
  distMax := plain.distMax

theorem plainFor_plain (f : K → Nat) : Plain (plainFor f) where
  apart := plain_plain.apart
  direct := plain_plain.direct
  reads := plain_plain.reads
  kernel k := plain_plain.kernel (f k)
  refused := plain_plain.refused
  checks := plain_plain.checks
  noRaise := plain_plain.noRaise
  densReads := plain_plain.densReads
  noOps := plain_plain.noOps
  proper := plain_plain.proper
  noFail k := plain_plain.noFail (f k)

theorem plainFor_draws (f : K → Nat) (consts : Nat → Option Int) : Draws (plainFor f) consts := plain_draws consts

theorem plainFor_inside (f : K → Nat) (consts : Nat → Option Int) : Inside (plainFor f) consts := plain_inside consts

/-- C146 for `PMCABC` applies to a run of three steps with two particles, of which the first step is mapped by the MPI backend in reverse order, on two processes, and the others by the sequential backend; the populations that the
kernel is asked about matter here through the index of the particle. -/
example (consts : Nat → Option Int) (kern : Pmc.Pop (List (Option Int)) → List (Option Int) → List (Option Int) → ℝ) (fuel : Nat) :
    let S := plainFor (K := Pmc.Pop (List (Option Int)) × Nat) Prod.snd
    let seeds : Nat → List Nat := fun t => [t, t + 1]
    let schedule : Nat → Option (List (Nat × Nat)) := fun t => if t = 0 then some [(1, 1), (0, 0)] else none
    (pmcRun S kern 3 [100] 50 fuel seeds schedule schedule none 0 (fresh consts)).map Prod.snd =
      Pmc.pmcRun (pmcEnv S consts kern) 3 [100] 50 fuel (fun t => (seeds t).map fun k => (k, 0)) none 0 := by
  intro S seeds schedule
  have hc : ∀ t, Scheduled (seeds t).length (schedule t) := by
    intro t l hl
    by_cases h0 : t = 0
    · simp only [schedule, if_pos h0, Option.some.injEq] at hl
      subst hl
      exact List.Perm.swap 0 1 []
    · simp [schedule, if_neg h0] at hl
  exact C146_pmcabc S (plainFor_plain _) consts (plainFor_draws _ consts) (plainFor_inside _ consts) kern 3 [100] (fun _ _ => rfl) 50 fuel seeds schedule schedule hc hc none 0 _ (fresh_good S consts)

/-- Such runs do end: a run of `SMCABC` with one step on two processes, which saves the population drawn from the prior. -/
theorem smc_run_example (consts : Nat → Option Int) (kern : Pmc.Pop (List (Option Int)) → List (Option Int) → List (Option Int) → ℝ) (dr : Smc.Draws) (res : ℝ) (fuel : Nat) :
    ∃ st s, smcRun plain lucky consts (fun _ i => i) (fun _ _ => 0) kern (fun y => [plain.dist y]) ⟨2, false, 1, 1, 1 / 2, res, 0, none, true⟩ dr fuel (fun _ => [3, 104]) (fun _ => some [(1, 1), (0, 0)]) (fresh consts) = some (st, s) ∧
      ∃ p, s.last = some p ∧ s.journal = [p] ∧ p.params = [[some 3], [some 3]] := by
  have key := C146_smcabc plain lucky plain_plain consts (plain_draws consts) (plain_inside consts) (fun _ i => i) (fun _ _ => 0) kern (fun y => [plain.dist y])
    ⟨2, false, 1, 1, 1 / 2, res, 0, none, true⟩ dr fuel (fun _ => [3, 104]) (fun _ => some [(1, 1), (0, 0)]) (fun t l hl => by
      simp only [Option.some.injEq] at hl
      subst hl
      exact List.Perm.swap 0 1 []) (fresh consts) (fresh_good plain consts)
  have ho : order plain.g plain.roots = [1] := lineG_order
  have hp : ∀ seed c, (aPrior plain consts (seed, c)).2 = [some (((seed + c) % 101 : ℕ) : Int)] := by
    intro seed c
    obtain ⟨s, hs, hv⟩ := plain_prior consts seed c
    unfold aPrior
    simp only
    rw [hs]
    simp only [ho, List.map_cons, List.map_nil, hv]
  have hr : ∃ s, Smc.smcRun (smcEnv plain lucky consts (fun _ i => i) (fun _ _ => 0) kern (fun y => [plain.dist y])) ⟨2, false, 1, 1, 1 / 2, res, 0, none, true⟩ dr plain.distMax fuel (fun _ => starts [3, 104]) = some s ∧
      ∃ p, s.last = some p ∧ s.journal = [p] ∧ p.params = [[some 3], [some 3]] := by
    have h10 : ¬ (((plain.distMax).getD (10 ^ 5) : ℝ) ≤ 1) := by simp [plain]; norm_num
    rw [Smc.smcRun, if_pos (by simp [starts]), Smc.smcLoop]
    simp only [if_neg h10, Smc.smcStep, Smc.smcLoop]
    refine ⟨_, rfl, _, rfl, by simp [Smc.save], ?_⟩
    simp only [Smc.outRec, starts, List.map_cons, List.map_nil, Smc.initial, smcEnv, hp]
    norm_num
  obtain ⟨s, hs, h⟩ := hr
  rw [hs, Option.map_eq_some_iff] at key
  obtain ⟨⟨st, s'⟩, k1, k2⟩ := key
  simp only at k2
  subst k2
  exact ⟨st, s', k1, h⟩

/-- The further hypotheses of C146 for `RSMCABC`, `APMCABC`, `SABC` and `ABCsubsim` are met as well. -/
example (consts : Nat → Option Int) : Plain plain ∧ Draws plain consts ∧ Inside plain consts ∧ Pmc.above plain.distMax 10 = true ∧ Good plain consts (fresh consts) ∧
    Plain (plainFor fun a : List (List ℝ) × List (Option Int) => a.2.length) ∧ Scheduled 2 none ∧ Scheduled 2 (some [(0, 1), (0, 0)]) :=
  ⟨plain_plain, plain_draws consts, plain_inside consts, rfl, fresh_good plain consts, plainFor_plain _, fun l h => by simp at h, fun l h => by
    simp only [Option.some.injEq] at h
    subst h
    exact List.Perm.swap 0 1 []⟩

end Verif.Site
