import Verif.Rsmc.Run
/-
C119 for `RSMCABC`: restarts from a journal.
-/
namespace Verif.Rsmc

open Verif.Pmc (Pop above)
open Verif.Smc (propose)

variable {W Θ Y : Type} (env : Env W Θ Y) (c : Config)

/-- `_accept_parameter` (2771-2797) in the first step of a restart on a new sampler: `R` is one (2621), and the distances of the particles have not been broadcast (2735), so that a rejected proposal raises
`AttributeError` in line 2795. -/
noncomputable def acceptFrom (fuel : Nat) (eps : ℝ) (p : Pop Θ) (w : W) : Option (Out Θ) :=
  let i := env.choose p.params.length w
  (p.params[i.2]?).bind fun θ => (propose env.pdf (env.perturb p i.2) fuel i.1).bind fun a =>
    let b := env.sim a.2 a.1
    if env.dist b.2 < eps ∧ (env.bern (prob env p θ a.2) b.1).2 then some ⟨θ, some (env.dist b.2), 1, 1⟩ else none

/-- `RSMCABC.sample` with a journal file whose last population is `last`, on a new sampler (2589-2727): the threshold, the number of moves and the number of particles to generate are those of a first step (2617-2621), the
particles come from the file (2594). `journal` are the populations of this call. -/
noncomputable def restart (fuel : Nat) (start : Nat → List (W × Θ)) (last : Rec Θ) : Except Fail (State Θ) :=
  match c.steps with
  | 0 => .ok ⟨[], none, 1, [], [], 0⟩
  | k + 1 =>
    if c.epsInit < c.epsFinal then .error .stopping
    else if (start 0).length ≠ c.n ∨ start 0 = [] then .error .other
    else
      match collect ((start 0).map fun e => acceptFrom env fuel c.epsInit ⟨last.params, List.replicate last.params.length (1 / last.params.length)⟩ e.1) with
      | none => .error .other
      | some out => match collect (out.map Out.d) with
        | none => .error .other
        | some ds =>
          let r : Rec Θ := ⟨c.epsInit, 1, out.map Out.θ, ds⟩
          match nextMoves c 1 c.n (out.map Out.accepted).sum with
          | none => .error .other
          | some moves =>
            loop env c fuel start k 1 ⟨[c.epsInit], some (trim c r.params r.distances), moves, [r], [r], (out.map Out.count).sum⟩

theorem loop_head (fuel : Nat) (start : Nat → List (W × Θ)) (k t : Nat) (s s' : State Θ) (e : ℝ) (r : Rec Θ) (h : loop env c fuel start k t s = .ok s')
    (he : s.epsilons.head? = some e) (hr : s.hist.head? = some r) : s'.epsilons.head? = some e ∧ s'.hist.head? = some r := by
  induction k generalizing t s with
  | zero => simp only [loop, Except.ok.injEq] at h; rw [← h]; exact ⟨he, hr⟩
  | succ k ih =>
    rw [loop] at h
    split at h
    · cases h
    · rename_i s1 h1
      obtain ⟨eps, out, ds, r', m, -, -, -, -, -, -, -, -, rfl⟩ := step_spec env c fuel t (start t) s s1 h1
      refine ih (t + 1) _ h ?_ ?_
      · simp only [List.head?_append, he, Option.some_or]
      · simp only [List.head?_append, hr, Option.some_or]

/-- **C119 fails for `RSMCABC`.** A restart begins again with the threshold of the first call, and it raises unless every worker accepts its one proposal. -/
theorem C119_rsmc_violated (fuel : Nat) (start : Nat → List (W × Θ)) (last : Rec Θ) (hs : 0 < c.steps) :
    (∀ s, restart env c fuel start last = .ok s → s.epsilons.head? = some c.epsInit) ∧
    ((∃ e ∈ start 0, ∀ w1 θ' θ, let p : Pop Θ := ⟨last.params, List.replicate last.params.length (1 / last.params.length)⟩
        let i := env.choose last.params.length e.1
        last.params[i.2]? = some θ → propose env.pdf (env.perturb p i.2) fuel i.1 = some (w1, θ') →
        c.epsInit ≤ env.dist (env.sim θ' w1).2 ∨ (env.bern (prob env p θ θ') (env.sim θ' w1).1).2 = false) →
      ∃ e, restart env c fuel start last = .error e) := by
  obtain ⟨k, hk⟩ : ∃ k, c.steps = k + 1 := ⟨c.steps - 1, by omega⟩
  constructor
  · intro s h
    unfold restart at h
    rw [hk] at h
    simp only at h
    split at h
    · cases h
    · split at h
      · cases h
      · split at h
        · cases h
        · split at h
          · cases h
          · split at h
            · cases h
            · exact (loop_head env c fuel start k 1 _ s c.epsInit _ h rfl rfl).1
  · rintro ⟨e, he, hrej⟩
    have hnone : acceptFrom env fuel c.epsInit ⟨last.params, List.replicate last.params.length (1 / last.params.length)⟩ e.1 = none := by
      unfold acceptFrom
      simp only
      cases h1 : last.params[(env.choose last.params.length e.1).2]? with
      | none => rfl
      | some θ =>
        rw [Option.bind_some]
        cases h2 : propose env.pdf (env.perturb ⟨last.params, List.replicate last.params.length (1 / last.params.length)⟩ (env.choose last.params.length e.1).2) fuel
            (env.choose last.params.length e.1).1 with
        | none => rfl
        | some a =>
          rw [Option.bind_some]
          have := hrej a.1 a.2 θ h1 h2
          rw [if_neg]
          rintro ⟨h3, h4⟩
          rcases this with h | h
          · linarith
          · rw [h] at h4; cases h4
    unfold restart
    rw [hk]
    simp only
    split
    · exact ⟨_, rfl⟩
    · split
      · exact ⟨_, rfl⟩
      · rw [(collect_eq_none _).2 (List.mem_map.2 ⟨e, he, hnone⟩)]
        exact ⟨_, rfl⟩

/-- Three steps of the example. -/
noncomputable def exThree : Config := ⟨2, 3, 1 / 2, 1, 0, 1 / 100, true⟩

/-- A call with three steps that reaches the threshold 1/2, and a restart from its journal that begins again with the threshold 1. -/
theorem C119_rsmc_run_violated : ∃ s r, run exEnv exThree 2 exStart = .ok s ∧ s.epsilons = [1, 1, 1 / 2] ∧ s.journal.getLast? = some r ∧
    ∃ s', restart exEnv { exThree with steps := 1 } 2 exStart r = .ok s' ∧ s'.epsilons = [1] := by
  have hd : exThree.drop = 1 := by simp only [Config.drop, exThree]; rw [pyRound_one]; rfl
  have h1 : step exEnv exThree 2 0 (exStart 0) ⟨[], none, 1, [], [], 0⟩ =
      .ok ⟨[1], some ([1], [1]), 1, [⟨1, 1, [1, 1], [1, 1]⟩], [⟨1, 1, [1, 1], [1, 1]⟩], 2⟩ := by
    norm_num [step, threshold, exStart, wanted, seen, accept, priorLoop, exEnv, above, collect, nextMoves, base, trim, hd]
    norm_num [exThree]
    rw [if_neg (by simp)]
    norm_num [collect]
  have h2 : step exEnv exThree 2 1 (exStart 1) ⟨[1], some ([1], [1]), 1, [⟨1, 1, [1, 1], [1, 1]⟩], [⟨1, 1, [1, 1], [1, 1]⟩], 2⟩ =
      .ok ⟨[1, 1], some ([1], [1 / 2]), 1, [⟨1, 1, [1, 1], [1, 1]⟩, ⟨1, 1, [1, 1], [1, 1 / 2]⟩], [⟨1, 1, [1, 1], [1, 1]⟩, ⟨1, 1, [1, 1], [1, 1 / 2]⟩], 3⟩ := by
    norm_num [step, threshold, exStart, wanted, seen, accept, moveLoop, propose, exEnv, above, collect, nextMoves, base, trim, hd]
    norm_num [exThree]
  have h3 : step exEnv exThree 2 2 (exStart 2)
      ⟨[1, 1], some ([1], [1 / 2]), 1, [⟨1, 1, [1, 1], [1, 1]⟩, ⟨1, 1, [1, 1], [1, 1 / 2]⟩], [⟨1, 1, [1, 1], [1, 1]⟩, ⟨1, 1, [1, 1], [1, 1 / 2]⟩], 3⟩ =
      .ok ⟨[1, 1, 1 / 2], some ([1], [1 / 2]), 1, [⟨1, 1, [1, 1], [1, 1]⟩, ⟨1, 1, [1, 1], [1, 1 / 2]⟩, ⟨1 / 2, 1, [1, 1], [1 / 2, 1 / 2]⟩],
        [⟨1, 1, [1, 1], [1, 1]⟩, ⟨1, 1, [1, 1], [1, 1 / 2]⟩, ⟨1 / 2, 1, [1, 1], [1 / 2, 1 / 2]⟩], 4⟩ := by
    norm_num [step, threshold, exStart, wanted, seen, accept, moveLoop, propose, exEnv, above, collect, nextMoves, base, trim, hd]
    norm_num [exThree]
  have h : run exEnv exThree 2 exStart = .ok ⟨[1, 1, 1 / 2], some ([1], [1 / 2]), 1, [⟨1, 1, [1, 1], [1, 1]⟩, ⟨1, 1, [1, 1], [1, 1 / 2]⟩, ⟨1 / 2, 1, [1, 1], [1 / 2, 1 / 2]⟩],
        [⟨1, 1, [1, 1], [1, 1]⟩, ⟨1, 1, [1, 1], [1, 1 / 2]⟩, ⟨1 / 2, 1, [1, 1], [1 / 2, 1 / 2]⟩], 4⟩ := by
    unfold run
    rw [show exThree.steps = 3 from rfl, loop, h1]
    simp only
    rw [loop, h2]
    simp only
    rw [loop, h3]
    simp only [loop]
  refine ⟨_, ⟨1 / 2, 1, [1, 1], [1 / 2, 1 / 2]⟩, h, rfl, rfl, ?_⟩
  norm_num [restart, exThree, exStart, acceptFrom, propose, exEnv, prob, collect, nextMoves, loop]
  rw [if_neg (by simp)]
  norm_num [collect]

/-- A call with one step, and a restart that raises because the proposal is rejected. -/
theorem C119_rsmc_raises_violated : let env : Env Unit ℝ ℝ := { exEnv with bern := fun _ w => (w, false) }
    ∃ s r, run env { exConfig 0 with steps := 1 } 2 exStart = .ok s ∧ s.journal.getLast? = some r ∧ ∃ e, restart env { exConfig 0 with steps := 1 } 2 exStart r = .error e := by
  intro env
  have hd : ({ exConfig 0 with steps := 1 } : Config).drop = 1 := exConfig_drop 0
  have h1 : step env { exConfig 0 with steps := 1 } 2 0 (exStart 0) ⟨[], none, 1, [], [], 0⟩ =
      .ok ⟨[1], some ([1], [1]), 1, [⟨1, 1, [1, 1], [1, 1]⟩], [⟨1, 1, [1, 1], [1, 1]⟩], 2⟩ := by
    norm_num [step, threshold, exStart, wanted, seen, accept, priorLoop, env, exEnv, above, collect, nextMoves, base, trim, hd]
    norm_num [exConfig]
    rw [if_neg (by simp)]
    norm_num [collect]
  have h : run env { exConfig 0 with steps := 1 } 2 exStart = .ok ⟨[1], some ([1], [1]), 1, [⟨1, 1, [1, 1], [1, 1]⟩], [⟨1, 1, [1, 1], [1, 1]⟩], 2⟩ := by
    unfold run
    rw [show ({ exConfig 0 with steps := 1 } : Config).steps = 1 from rfl, loop, h1]
    simp only [loop]
  refine ⟨_, ⟨1, 1, [1, 1], [1, 1]⟩, h, rfl, ?_⟩
  · refine (C119_rsmc_violated env { exConfig 0 with steps := 1 } 2 exStart _ one_pos).2 ⟨((), 0), by simp [exStart], ?_⟩
    intro w1 θ' θ p i _ _
    exact .inr rfl

end Verif.Rsmc
