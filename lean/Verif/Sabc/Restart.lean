import Verif.Sabc.Run
/-
C119 for `SABC`: restarts from a journal.
-/
namespace Verif.Sabc

open Verif.Pmc (Pop)
open Verif.Smc (propose)

variable {W Θ Y : Type} (env : Env W Θ Y) (c : Config)

/-- `_accept_parameter` (1976-2004) in the first step of a restart. The redefined distances of the particles are all zero (1642); `bds` are the distances that earlier calls of this sampler have broadcast (1930), `none` on a new
sampler, where line 1991 raises `AttributeError`. -/
noncomputable def moveFrom (fuel : Nat) (bds : Option (List ℝ)) (params : List Θ) (w : W) : Option (Out Θ) :=
  let i := env.choose c.n w
  (params[i.2]?).bind fun θ => (propose env.pdf (env.perturb ⟨params, List.replicate c.n 1⟩ i.2) fuel i.1).bind fun a =>
    let b := env.sim a.2 a.1
    let d := env.dist b.2
    let u := env.unif b.1
    bds.bind fun all => (smooth all d).map fun sd =>
      ⟨a.2, d, [], i.2, if c.eps = 0 then sd < 0 else u.2 < env.pdf a.2 / env.pdf θ * Real.exp ((0 - sd) / c.eps), 1⟩

/-- `SABC.sample` with a journal file whose last population is `params`, lines 1662-1859. The moves of the first step collect no distances (1956, 1725), so `all_distances` is empty: if a move is accepted, its distance
cannot be redefined (the smallest element of an empty array, 1884, raises); otherwise the average of an empty array is taken (1909, raises), unless `epsilon` is zero. `journal` are the populations of this call. -/
noncomputable def restart (fuel : Nat) (start : Nat → List W) (bds : Option (List ℝ)) (params : List Θ) : Option (State Θ) :=
  match c.steps with
  | 0 => some ⟨[], [], [], [], c.eps, 0, 0, [], 0, false⟩
  | k + 1 =>
    if (start 0).length ≠ c.n ∨ start 0 = [] then none
    else match collect ((start 0).map (moveFrom env c fuel bds params)) with
      | none => none
      | some out =>
        if out.any Out.accepted then none
        else if c.eps ≠ 0 then none
        else match finish env c 0 0 ⟨params, List.replicate c.n 0, List.replicate c.n 0, [], env.schedule 0, 0, 0, [], (out.map Out.count).sum, false⟩ with
          | none => none
          | some s => loop env c fuel start k 1 s

/-- **C119 fails for `SABC`.** No restart on a new sampler succeeds, whatever the journal. -/
theorem C119_sabc_violated (fuel : Nat) (start : Nat → List W) (params : List Θ) (hs : 0 < c.steps) : restart env c fuel start none params = none := by
  obtain ⟨k, hk⟩ : ∃ k, c.steps = k + 1 := ⟨c.steps - 1, by omega⟩
  unfold restart
  rw [hk]
  simp only
  split
  · rfl
  · rename_i hn
    push Not at hn
    obtain ⟨w, l, hl⟩ := List.exists_cons_of_ne_nil hn.2
    rw [(collect_eq_none _).2]
    rw [hl]
    refine List.mem_map.2 ⟨w, by simp, ?_⟩
    unfold moveFrom
    simp

/-- Nor does one on a sampler that has been used, with a positive first `epsilon`. -/
theorem C119_sabc_used_violated (fuel : Nat) (start : Nat → List W) (bds : Option (List ℝ)) (params : List Θ) (hs : 0 < c.steps) (he : c.eps ≠ 0) :
    restart env c fuel start bds params = none := by
  obtain ⟨k, hk⟩ : ∃ k, c.steps = k + 1 := ⟨c.steps - 1, by omega⟩
  unfold restart
  rw [hk]
  simp only
  split
  · rfl
  · split
    · rfl
    · split
      · rfl
      · rfl

/-- With `epsilon` zero a restart of one step on a used sampler can succeed, but then it has done nothing except simulate: the population is that of the file, and all its distances are stored as zero. -/
theorem C119_sabc_zero_violated (fuel : Nat) (start : Nat → List W) (bds : Option (List ℝ)) (params : List Θ) (s : State Θ) (h1 : c.steps = 1) (h : restart env c fuel start bds params = some s) :
    c.eps = 0 ∧ s.journal = [(params, List.replicate c.n 0)] ∧ s.counter = c.n := by
  unfold restart at h
  rw [h1] at h
  simp only at h
  split at h
  · cases h
  rename_i hn
  push Not at hn
  split at h
  · cases h
  rename_i out hout
  split at h
  · cases h
  split at h
  · cases h
  rename_i he
  have he : c.eps = 0 := not_not.1 he
  have hmap := (collect_eq_some _ _).1 hout
  have hol : out.length = c.n := by
    have := congrArg List.length hmap
    simp only [List.length_map] at this
    omega
  have hcount : ∀ o ∈ out, o.count = 1 := by
    intro o ho
    have : some o ∈ (start 0).map (moveFrom env c fuel bds params) := by rw [hmap]; exact List.mem_map.2 ⟨o, ho, rfl⟩
    obtain ⟨w, -, hw⟩ := List.mem_map.1 this
    unfold moveFrom at hw
    simp only [Option.bind_eq_some_iff, Option.map_eq_some_iff] at hw
    obtain ⟨-, -, -, -, -, -, -, -, rfl⟩ := hw
    rfl
  have hsum : (out.map Out.count).sum = c.n := by
    rw [List.map_eq_replicate_iff.2 hcount, List.sum_replicate, hol]
    simp
  have hu : ¬ (c.resample ≤ 0 ∧ (1 : ℝ) / 10 ^ 100 < 0) := fun h => by
    have : (0 : ℝ) < 1 / 10 ^ 100 := by positivity
    linarith [h.2]
  unfold finish at h
  simp only [hu, if_false, loop, Option.some.injEq] at h
  subst h
  refine ⟨he, ?_, hsum⟩
  simp

/-- The hypotheses are met. -/
example : ∃ s, restart (⟨fun _ => 0, fun _ => 1, fun w => (w, 0), fun _ w => (w, 0), fun _ _ w => (w, some 1), fun _ w => (w, ()), fun _ w => (w, true), fun w => (w, 0), id, fun _ _ => []⟩ : Env Unit ℝ Unit)
    ⟨2, 1, 2, 10, 1 / 10, 0, 0, true⟩ 1 (fun _ => [(), ()]) (some [1, 2]) [5, 6] = some s ∧ s.journal = [([5, 6], [0, 0])] := by
  norm_num [restart, moveFrom, propose, collect, smooth, smoothAt, finish, loop, List.min?]
  exact ⟨_, ⟨by simp, rfl⟩, rfl⟩

/-- A call does leave a journal to restart from. -/
example : ∃ s, run exEnv ⟨1, 2, 2, 10, 1 / 10, 1, 6 / 10, true⟩ 1 exStart = some s ∧ s.journal ≠ [] := by
  obtain ⟨s, h, -, h1⟩ := C46_sabc_violated
  exact ⟨s, h, by rw [h1.2.2]; simp⟩

end Verif.Sabc
