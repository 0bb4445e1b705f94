import Verif.Apmc.Run
/-
C119 and C120 for `APMCABC`: restarts from a journal, and the file that a call leaves.
-/
namespace Verif.Apmc

open Verif.Pmc (Pop normalise percentile)
open Verif.Smc (propose)
open Spec

variable {W Θ Y : Type} (env : Env W Θ Y) (c : Config)

/-- `_accept_parameter` in the first step of a restart, lines 3127-3149: as in `accept`, but the weights are those of the file. `Generator.choice` raises `ValueError` if the probabilities sum to something that differs
from one by more than `tol` (about 1.5e-8). -/
noncomputable def acceptFrom (tol : ℝ) (fuel : Nat) (p : Pop Θ) (w : W) : Option (Out Θ) :=
  if tol < |p.weights.sum - 1| then none else accept env fuel (some p) w

/-- `APMCABC.sample` with a journal file whose last population is `last`, lines 2962-3085: the first step generates `n` particles from this population and its weights (2966-2995), later steps are as in a first call.
The field `journal` has the populations that are added to those of the file. `none`: an exception, or a loop that does not end with this fuel. -/
noncomputable def restart (tol : ℝ) (fuel : Nat) (start : Nat → List W) (last : Rec Θ) : Option (State Θ) :=
  match c.steps with
  | 0 => some ⟨[], [], [], false⟩
  | k + 1 =>
    if (start 0).length ≠ c.n ∨ start 0 = [] then none
    else match collect ((start 0).map (acceptFrom env tol fuel ⟨last.params, last.weights⟩)) with
      | none => none
      | some out => match percentile (out.map Out.d) (c.alpha * 100) with
        | none => none
        | some eps =>
          let r := keep eps (out.map Out.θ, out.map Out.d, out.map Out.weight)
          loop env c fuel start k 1 ⟨[eps], [r], if c.full ∨ c.steps = 1 then [r] else [], 1 < c.cutoff⟩

/-- A population whose weights do not sum to one cannot be restarted from. -/
theorem restart_none (tol : ℝ) (fuel : Nat) (start : Nat → List W) (last : Rec Θ) (hs : 0 < c.steps) (h : tol < |last.weights.sum - 1|) :
    restart env c tol fuel start last = none := by
  unfold restart
  obtain ⟨k, hk⟩ : ∃ k, c.steps = k + 1 := ⟨c.steps - 1, by omega⟩
  rw [hk]
  simp only
  split
  · rfl
  · rename_i hn
    push Not at hn
    obtain ⟨w, l, hl⟩ := List.exists_cons_of_ne_nil hn.2
    rw [hl]
    have : collect ((w :: l).map (acceptFrom env tol fuel ⟨last.params, last.weights⟩)) = none := by
      rw [List.map_cons]
      unfold acceptFrom
      rw [if_pos h]
      rfl
    rw [this]

/-- **C119 fails for `APMCABC`.** The journal of a call with one step and two or more particles cannot be restarted from, whatever the configuration of the second call: its weights are all one, and `rng.choice` refuses
them as probabilities. (Journals of longer calls hold weights that sum to one for the particles carried over, together with those of the new ones, see C101; `restart_none` applies unless the latter are all zero.) -/
theorem C119_apmc_violated (tol : ℝ) (htol : tol < 1) (fuel : Nat) (start : Nat → List W) (s : State Θ) (h1 : c.steps = 1) (hn : 2 ≤ c.n) (h : run env c fuel start = some s) :
    ∃ r, s.hist = [r] ∧ ∀ (c' : Config) (fuel' : Nat) (start' : Nat → List W), 0 < c'.steps → restart env c' tol fuel' start' r = none := by
  obtain ⟨pops, kept, hH, hP, hle, hlt, -⟩ := C100_run env c fuel start s (by omega) h
  have hpos := List.length_pos_iff.2 (history_pops env c _ start _ _ _ _ hH)
  have hlen := hP.length_eq
  obtain ⟨r, hr⟩ := List.length_eq_one_iff.1 (show s.hist.length = 1 by omega)
  obtain ⟨pop, hpop⟩ := List.length_eq_one_iff.1 (show pops.length = 1 by omega)
  refine ⟨r, hr, fun c' fuel' start' hs => restart_none env c' tol fuel' start' r hs ?_⟩
  rw [hr, hpop] at hP
  obtain ⟨hPr, -⟩ := List.forall₂_cons.1 hP
  have hw := (C101_partial env c start _ _ _ _ hH).1 pop (by rw [hpop]; rfl)
  have hl : pop.length = c.n := by
    rw [hpop] at hH
    generalize hq : [pop] = q at hH
    generalize s.epsilons = es0 at hH
    generalize s.stopped = b0 at hH
    cases hH with
    | first p e stop k1 k2 k3 k4 k5 => simp only [List.cons.injEq, and_true] at hq; rw [hq]; exact k1
    | replace es pops kept new e stop hH' =>
      have h1 := List.length_pos_iff.2 (history_pops env c _ start _ _ _ _ hH')
      have h2 := congrArg List.length hq
      simp only [List.length_append, List.length_singleton] at h2
      omega
    | step es e pops kept new e' stop hH' =>
      have h1 := List.length_pos_iff.2 (history_pops env c _ start _ _ _ _ hH')
      have h2 := congrArg List.length hq
      simp only [List.length_append, List.length_singleton] at h2
      omega
  have hsum : r.weights.sum = c.n := by
    rw [hPr.weights, sum_const pop Out.weight 1 hw, hl, mul_one]
  rw [hsum, abs_of_nonneg (by have : (2 : ℝ) ≤ c.n := by exact_mod_cast hn
                              linarith)]
  have : (2 : ℝ) ≤ c.n := by exact_mod_cast hn
  linarith

/-- **C119 for `APMCABC`, what holds.** If a restart does not fail, the weights of the population in the file sum to one up to `tol`, and the run is a history in which the tasks of the first step perturb particles of
this population, chosen and weighted by their weights there; it ends after all steps or when the history says so, and adds all populations, or the last one if all steps were carried out, to the journal. -/
theorem C119_apmc_partial (tol : ℝ) (fuel : Nat) (start : Nat → List W) (last : Rec Θ) (pop : List (Out Θ)) (hp : Particles last pop) (s : State Θ) (hs : 0 < c.steps)
    (h : restart env c tol fuel start last = some s) :
    |(pop.map Out.weight).sum - 1| ≤ tol ∧ ∃ pops kept, HistoryFrom env c (Task env pop) start s.epsilons pops kept s.stopped ∧ List.Forall₂ Particles s.hist pops ∧ s.hist.length ≤ c.steps ∧
      (s.hist.length < c.steps → s.stopped = true) ∧ s.journal = if c.full then s.hist else if s.hist.length = c.steps then s.hist.drop (c.steps - 1) else [] := by
  have htol : ¬ tol < |last.weights.sum - 1| := fun ht => by rw [restart_none env c tol fuel start last hs ht] at h; cases h
  refine ⟨by rw [← hp.weights]; exact not_lt.1 htol, ?_⟩
  unfold restart at h
  obtain ⟨k, hk⟩ : ∃ k, c.steps = k + 1 := ⟨c.steps - 1, by omega⟩
  rw [hk] at h
  simp only at h
  split at h
  · cases h
  rename_i hn
  push Not at hn
  split at h
  · cases h
  rename_i out hout
  split at h
  · cases h
  rename_i eps heps
  have hmap := (collect_eq_some _ _).1 hout
  have hol : out.length = c.n := by
    have := congrArg List.length hmap
    simp only [List.length_map] at this
    omega
  have hpop : (⟨last.params, last.weights⟩ : Pop Θ) = asPop pop := by rw [asPop, hp.params, hp.weights]
  have htask : ∀ (i : Nat) (o : Out Θ) (w : W), out[i]? = some o → (start 0)[i]? = some w → Task env pop w o := by
    intro i o w ho hw
    have := congrArg (·[i]?) hmap
    simp only [List.getElem?_map, ho, hw, Option.map_some, Option.some.injEq, acceptFrom, if_neg htol] at this
    rw [hpop] at this
    exact accept_task env fuel pop w o this
  generalize hr : keep eps (out.map Out.θ, out.map Out.d, out.map Out.weight) = r at h
  obtain ⟨k1, k2, k3, k4⟩ := keep_particles eps out _ rfl
  rw [hr] at k1 k2 k3 k4
  have hF : Follows env c (Task env pop) start 1 (⟨[eps], [r], if c.full ∨ c.steps = 1 then [r] else [], 1 < c.cutoff⟩ : State Θ) := by
    refine ⟨rfl, by simp, ?_, ?_, ?_⟩
    · intro r' hr'
      simp only [List.getLast?_singleton, Option.some.injEq] at hr'
      subst hr'
      exact ⟨[out], carried eps out, .first out eps _ hol hn.1 htask heps (by simp), .cons k1 .nil, k2, k3, k4⟩
    · intro hf
      simp [hf]
    · intro hf
      by_cases h1 : c.steps = 1
      · simp [hf, h1]
      · have h1' : ¬ 1 = c.steps := fun h => h1 h.symm
        simp [hf, h1, h1']
  obtain ⟨t', -, ht', hF', hst⟩ := follows_loop env c (Task env pop) fuel start k 1 _ s (fun h => by cases h) hF (by omega) (by rw [hk]; exact h)
  exact follows_end env c _ start t' s hs ht' hF' hst

/-- The hypotheses are met: a file with two particles whose weights sum to one. -/
example : Particles (⟨1, [5, 6], [1, 1], [1 / 2, 1 / 2], [], [], []⟩ : Rec ℝ) [⟨5, 1, 1 / 2⟩, ⟨6, 1, 1 / 2⟩] ∧
    ∃ s, restart exEnv ⟨2, 1, 1 / 2, 0, false⟩ 0 1 twoStart ⟨1, [5, 6], [1, 1], [1 / 2, 1 / 2], [], [], []⟩ = some s ∧ s.journal.length = 1 := by
  have hp := percentile_two 1 zero_le_one
  refine ⟨⟨rfl, rfl, rfl⟩, ?_⟩
  norm_num [restart, acceptFrom, loop, twoStart, accept, propose, exEnv, collect, keep, select, normalise, mixture, hp]
  exact ⟨_, ⟨by simp, rfl⟩, rfl⟩

/-! ### The file at the given path -/

/-- `loop` together with the populations in the file at the path given (none if there is no file), lines 3063-3083: after a step the journal is saved, but not if the run stops there (3076). -/
noncomputable def loopFile (fuel : Nat) (start : Nat → List W) : Nat → Nat → State Θ → List (Rec Θ) → Option (State Θ × List (Rec Θ))
  | 0, _, s, f => some (s, f)
  | k + 1, t, s, f => if s.stopped then some (s, f) else match step env c fuel t (start t) s with
    | none => none
    | some s => loopFile fuel start k (t + 1) s (if s.stopped then f else s.journal)

/-- `run` with the file at the path. -/
noncomputable def runFile (fuel : Nat) (start : Nat → List W) : Option (State Θ × List (Rec Θ)) :=
  loopFile env c fuel start c.steps 0 ⟨[], [], [], false⟩ []

theorem loopFile_spec (fuel : Nat) (start : Nat → List W) (k t : Nat) (s s' : State Θ) (f f' : List (Rec Θ))
    (h : loopFile env c fuel start k t s f = some (s', f')) (hs : s.stopped = false → f = s.journal)
    (hf : c.full = true → s.stopped = true → s.journal ≠ [] ∧ f = s.journal.dropLast) :
    loop env c fuel start k t s = some s' ∧ (s'.stopped = false → f' = s'.journal) ∧ (c.full = true → s'.stopped = true → s'.journal ≠ [] ∧ f' = s'.journal.dropLast) := by
  induction k generalizing t s f with
  | zero =>
    simp only [loopFile, Option.some.injEq, Prod.mk.injEq] at h
    obtain ⟨rfl, rfl⟩ := h
    exact ⟨rfl, hs, hf⟩
  | succ k ih =>
    rw [loopFile] at h
    rw [loop]
    by_cases hst : s.stopped = true
    · rw [if_pos hst] at h ⊢
      simp only [Option.some.injEq, Prod.mk.injEq] at h
      obtain ⟨rfl, rfl⟩ := h
      exact ⟨rfl, hs, hf⟩
    · rw [if_neg hst] at h ⊢
      cases hstep : step env c fuel t (start t) s with
      | none => rw [hstep] at h; cases h
      | some s1 =>
        rw [hstep] at h
        simp only at h ⊢
        refine ih (t + 1) s1 _ h (fun h1 => by rw [h1]; rfl) fun hc h1 => ?_
        rw [if_pos h1, hs (by simpa using hst)]
        unfold step at hstep
        split at hstep
        · cases hstep
        · split at hstep
          · cases hstep
          · split at hstep
            · cases hstep
            · simp only [Option.some.injEq, hc, if_true] at hstep
              rw [← hstep]
              simp

/-- The file changes nothing in the run. -/
theorem runFile_run (fuel : Nat) (start : Nat → List W) : (runFile env c fuel start).map Prod.fst = run env c fuel start := by
  unfold runFile run
  generalize (⟨[], [], [], false⟩ : State Θ) = s
  generalize ([] : List (Rec Θ)) = f
  generalize 0 = t
  induction c.steps generalizing t s f with
  | zero => rfl
  | succ k ih =>
    rw [loopFile, loop]
    split
    · rfl
    · cases step env c fuel t (start t) s with
      | none => rfl
      | some s1 => exact ih _ _ _

/-- **C120 for `APMCABC`, what holds.** A call that carries out all its steps leaves the journal that it returns at the given path. -/
theorem C120_apmc_partial (fuel : Nat) (start : Nat → List W) (s : State Θ) (f : List (Rec Θ)) (h : runFile env c fuel start = some (s, f)) (hs : s.stopped = false) : f = s.journal :=
  (loopFile_spec env c fuel start c.steps 0 _ s [] f h (fun _ => rfl) (fun _ h => by cases h)).2.1 hs

/-- **C120 fails for `APMCABC`.** If the run stops because of the acceptance rate, the file lacks the last population of the journal that is returned. -/
theorem C120_apmc_violated (hf : c.full = true) (fuel : Nat) (start : Nat → List W) (s : State Θ) (f : List (Rec Θ)) (h : runFile env c fuel start = some (s, f)) (hs : s.stopped = true) :
    f = s.journal.dropLast ∧ f ≠ s.journal := by
  obtain ⟨h1, h2⟩ := (loopFile_spec env c fuel start c.steps 0 _ s [] f h (fun _ => rfl) (fun _ h => by cases h)).2.2 hf hs
  refine ⟨h2, fun h3 => h1 ?_⟩
  have := congrArg List.length (h2.symm.trans h3)
  rw [List.length_dropLast] at this
  exact List.length_eq_zero_iff.1 (by omega)

/-- The hypotheses are met: a run with full output that stops after the second of three steps; the file has one population, the journal two. -/
theorem C120_apmc_run_violated : ∃ s f, runFile exEnv ⟨2, 3, 1 / 2, 1 / 10, true⟩ 1 twoStart = some (s, f) ∧ s.stopped = true ∧ s.journal.length = 2 ∧ f.length = 1 := by
  have hw : wanted ⟨2, 3, 1 / 2, 1 / 10, true⟩ 1 = 1 := by simp only [wanted]; rw [pyRound_two]; rfl
  have hp := percentile_two 1 zero_le_one
  have h1 : step exEnv ⟨2, 3, 1 / 2, 1 / 10, true⟩ 1 0 (twoStart 0) ⟨[], [], [], false⟩ =
      some ⟨[1 / 2], [⟨1 / 2, [0, 1], [0, 1], [1, 1], [0], [0], [1]⟩], [⟨1 / 2, [0, 1], [0, 1], [1, 1], [0], [0], [1]⟩], false⟩ := by
    norm_num [step, twoStart, wanted, seen, accept, exEnv, collect, merge, acceptance, keep, select, normalise, hp]
    simp
  have h2 : ∃ s, step exEnv ⟨2, 3, 1 / 2, 1 / 10, true⟩ 1 1 (twoStart 1) ⟨[1 / 2], [⟨1 / 2, [0, 1], [0, 1], [1, 1], [0], [0], [1]⟩],
        [⟨1 / 2, [0, 1], [0, 1], [1, 1], [0], [0], [1]⟩], false⟩ = some s ∧ s.stopped = true ∧ s.journal.length = 2 := by
    norm_num [step, twoStart, hw, seen, accept, propose, exEnv, collect, merge, acceptance, keep, select, normalise, mixture, hp]
  obtain ⟨s, h2, h3, h4⟩ := h2
  refine ⟨s, [⟨1 / 2, [0, 1], [0, 1], [1, 1], [0], [0], [1]⟩], ?_, h3, h4, rfl⟩
  unfold runFile
  simp only
  rw [loopFile, h1]
  simp only [Bool.false_eq_true, if_false]
  rw [loopFile, h2]
  simp only [Bool.false_eq_true, if_false, loopFile, h3, if_true]

end Verif.Apmc
