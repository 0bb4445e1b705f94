import Verif.Site.EndExamples
import Verif.Apmc.Props
/-
Runs of `APMCABC`, `SABC` and `ABCsubsim` on the graph of models that end, to which C147 applies.
-/
namespace Verif.Site

open Graph

theorem plain_draw (consts : Nat → Option Int) (seed c : Nat) : (aPrior plain consts (seed, c)).2 = [some (((seed + c) % 101 : ℕ) : Int)] := by
  have ho : order plain.g plain.roots = [1] := lineG_order
  obtain ⟨s, hs, hv⟩ := plain_prior consts seed c
  unfold aPrior
  simp only
  rw [hs]
  simp only [ho, List.map_cons, List.map_nil, hv]

theorem plain_sim (consts : Nat → Option Int) (x : Int) (q : Nat × Nat) : (aSim plain consts [some x] q) = ((q.1, q.2 + 1), x) := by
  have ho : order plain.g plain.roots = [1] := lineG_order
  have hv : valuesOf plain consts [some x] 1 = some x := by simp [valuesOf, ho]
  have : aSim plain consts [some x] q = ((q.1, q.2 + 1), (valuesOf plain consts [some x] 1).getD 0) := rfl
  rw [this, hv]
  rfl

/-- All tasks of a map are handed out in order. -/
theorem scheduled_none (n : Nat) : Scheduled n none := fun l h => by simp at h

theorem scheduled_two : Scheduled 2 (some [(1, 1), (0, 0)]) := fun l h => by
  simp only [Option.some.injEq] at h
  subst h
  exact List.Perm.swap 0 1 []

/-- A run of `APMCABC` with two particles and two steps, of which the first is mapped on two processes: the particle 45 is carried over, the second step adds 49. -/
theorem apmc_run_example (consts : Nat → Option Int) (kern : Pmc.Pop (List (Option Int)) → List (Option Int) → List (Option Int) → ℝ) :
    ∃ st s, apmcRun plain (fun _ _ => 0) kern ⟨2, 2, 1 / 2, 0, true⟩ 1 (fun t => if t = 0 then [3, 45] else [49]) (fun t => if t = 0 then some [(1, 1), (0, 0)] else none) (fresh consts) = some (st, s) ∧
      s.journal.map Apmc.Rec.params = [[[some 3], [some 45]], [[some 45], [some 49]]] ∧ s.journal.map Apmc.Rec.distances = [[47, 5], [5, 1]] := by
  let c : Apmc.Config := ⟨2, 2, 1 / 2, 0, true⟩
  let env := apmcEnv plain consts (fun _ _ => 0) kern
  have key := C146_apmcabc plain plain_plain consts (plain_draws consts) (plain_inside consts) (fun _ _ => 0) kern c 1 (fun t => if t = 0 then [3, 45] else [49]) (fun t => if t = 0 then some [(1, 1), (0, 0)] else none)
    (fun t => by
      by_cases h : t = 0
      · subst h; exact scheduled_two
      · simp only [if_neg h]; exact scheduled_none _) (fresh consts) (fresh_good plain consts)
  have hd : ∀ x q, env.dist (env.sim [some x] q).2 = |(x : ℝ) - 50| := by
    intro x q
    rw [show env.sim [some x] q = ((q.1, q.2 + 1), x) from plain_sim consts x q]
    rfl
  have task : ∀ k x, ((k % 101 : ℕ) : Int) = x → Apmc.accept env 1 none (k, 0) = some ⟨[some x], |(x : ℝ) - 50|, 1⟩ := by
    intro k x hk
    have hp : (env.prior (k, 0)).2 = [some x] := by
      rw [show (env.prior (k, 0)).2 = (aPrior plain consts (k, 0)).2 from rfl, plain_draw, ← hk]
      simp
    simp only [Apmc.accept, hp, hd]
  have task' : ∃ v, Apmc.accept env 1 (some ⟨[[some 45]], [1]⟩) (49, 0) = some ⟨[some 49], 1, v⟩ := by
    have hi : env.choose [1] (49, 0) = ((49, 0), 0) := rfl
    have h1 : env.perturb ⟨[[some 45]], [1]⟩ 0 (49, 0) = ((49, 1), some [some 49]) := plain_perturb consts 0 49 0 (by norm_num)
    have h2 : env.pdf [some 49] = 1 := plain_pdf consts 49 (by norm_num)
    have h3 : |((49 : Int) : ℝ) - 50| = 1 := by norm_num
    refine ⟨1 * env.pdf [some 49] / Apmc.mixture env ⟨[[some 45]], [1]⟩ [some 49], ?_⟩
    simp [Apmc.accept, hi, Smc.propose, h1, h2, hd]
    exact h3
  have h12 : ⌊(1 / 2 : ℝ)⌋₊ = 0 := Nat.floor_eq_zero.2 (by norm_num)
  have e1 : Pmc.percentile [47, 5] (1 / 2 * 100) = some 26 := by
    norm_num [Pmc.percentile, List.insertionSort, List.orderedInsert, h12]
  have e2 : Pmc.percentile [5, 1] (1 / 2 * 100) = some 3 := by
    norm_num [Pmc.percentile, List.insertionSort, List.orderedInsert, h12]
  have w1 : Apmc.wanted c 1 = 1 := by
    norm_num [Apmc.wanted, c, Rsmc.pyRound]
  have first : Apmc.step env c 1 0 [(3, 0), (45, 0)] ⟨[], [], [], false⟩ =
      some ⟨[26], [⟨26, [[some 3], [some 45]], [47, 5], [1, 1], [[some 45]], [5], [1]⟩], [⟨26, [[some 3], [some 45]], [47, 5], [1, 1], [[some 45]], [5], [1]⟩], false⟩ := by
    have t1 := task 3 3 rfl
    have t2 := task 45 45 rfl
    have a1 : |((3 : Int) : ℝ) - 50| = 47 := by norm_num
    have a2 : |((45 : Int) : ℝ) - 50| = 5 := by norm_num
    rw [a1] at t1
    rw [a2] at t2
    unfold Apmc.step
    rw [if_neg (by simp [Apmc.wanted, c])]
    simp only [Apmc.seen, List.getLast?_nil, Option.map_none, List.map_cons, List.map_nil, t1, t2, collect, Option.map_some, Apmc.merge, c, List.length_cons, List.length_nil, Nat.reduceAdd, if_true]
    rw [e1]
    norm_num [Apmc.keep, Apmc.select, Pmc.normalise, Apmc.acceptance]
  obtain ⟨v, task'⟩ := task'
  have second : ∀ s : Apmc.State (List (Option Int)), s = ⟨[26], [⟨26, [[some 3], [some 45]], [47, 5], [1, 1], [[some 45]], [5], [1]⟩], [⟨26, [[some 3], [some 45]], [47, 5], [1, 1], [[some 45]], [5], [1]⟩], false⟩ →
      ∃ s', Apmc.step env c 1 1 [(49, 0)] s = some s' ∧ s'.journal.map Apmc.Rec.params = [[[some 3], [some 45]], [[some 45], [some 49]]] ∧ s'.journal.map Apmc.Rec.distances = [[47, 5], [5, 1]] := by
    rintro s rfl
    unfold Apmc.step
    rw [if_neg (by simp [w1])]
    simp only [Apmc.seen, List.getLast?_singleton, Option.map_some, List.map_cons, List.map_nil, task', collect, Apmc.merge, c, List.length_cons, List.length_nil, zero_add]
    rw [if_neg (by norm_num)]
    simp only [List.cons_append, List.nil_append]
    rw [e2]
    exact ⟨_, rfl, by simp [Apmc.keep], by simp [Apmc.keep]⟩
  obtain ⟨s2, k1, k2⟩ := second _ rfl
  have hrun : Apmc.run env c 1 (fun t => starts (if t = 0 then [3, 45] else [49])) = some s2 := by
    unfold Apmc.run
    rw [show c.steps = 1 + 1 from rfl, Apmc.loop]
    rw [if_neg (by simp)]
    rw [show starts (if (0 : ℕ) = 0 then [3, 45] else [49]) = [(3, 0), (45, 0)] from rfl, first]
    simp only
    rw [Apmc.loop]
    rw [if_neg (by simp)]
    rw [show starts (if (0 + 1 : ℕ) = 0 then [3, 45] else [49]) = [(49, 0)] from rfl, show (0 + 1 : ℕ) = 1 from rfl, k1]
    rfl
  rw [hrun, Option.map_eq_some_iff] at key
  obtain ⟨⟨st, s⟩, h1, h2⟩ := key
  simp only at h2
  subst h2
  exact ⟨st, s, h1, k2⟩

/-- C147 applies to it. -/
example (consts : Nat → Option Int) (kern : Pmc.Pop (List (Option Int)) → List (Option Int) → List (Option Int) → ℝ) : Backed plain consts [some 49] 1 := by
  obtain ⟨st, s, h, hp, hd⟩ := apmc_run_example consts kern
  have key := (C147_apmcabc plain plain_plain consts (plain_draws consts) (plain_inside consts) (fun _ _ => 0) kern _ (by norm_num) 1 _ _ (fun t => by
      by_cases h : t = 0
      · subst h; exact scheduled_two
      · simp only [if_neg h]; exact scheduled_none _) (fresh consts) (fresh_good plain consts) st s h).2
  have hp1 := congrArg (fun l => l[1]?) hp
  have hd1 := congrArg (fun l => l[1]?) hd
  simp only [List.getElem?_map, List.getElem?_cons_succ, List.getElem?_cons_zero, Option.map_eq_some_iff] at hp1 hd1
  obtain ⟨b, hb, hp1⟩ := hp1
  obtain ⟨b', hb', hd1⟩ := hd1
  rw [hb, Option.some.injEq] at hb'
  subst hb'
  exact (key b (List.mem_of_getElem? hb)).2 1 _ _ (by rw [hp1]; rfl) (by rw [hd1]; rfl)

/-- A run of `SABC` with two particles and one step on two processes. -/
theorem sabc_run_example (consts : Nat → Option Int) (pick : Nat → List ℝ → List Nat) :
    ∃ st s, sabcRun plain lucky consts (fun _ _ => 0) (fun u => u) pick ⟨2, 1, 2, 10, 1, 1, 0, true⟩ 1 (fun _ => [3, 45]) (fun _ => some [(1, 1), (0, 0)]) (fresh consts) = some (st, s) ∧
      s.journal = [([[some 3], [some 45]], [47, 5])] := by
  let c : Sabc.Config := ⟨2, 1, 2, 10, 1, 1, 0, true⟩
  let env := sabcEnv plain lucky consts (fun _ _ => 0) (fun u => u) pick
  have key := C146_sabc plain lucky plain_plain consts (plain_draws consts) (plain_inside consts) (fun _ _ => 0) (fun u => u) pick c 1 (fun _ => [3, 45]) (fun _ => some [(1, 1), (0, 0)])
    (fun _ => scheduled_two) (fresh consts) (fresh_good plain consts)
  have task : ∀ k x, ((k % 101 : ℕ) : Int) = x → Sabc.first env 1 0 1 (k, 0) [] 0 = some ⟨[some x], |(x : ℝ) - 50|, [|(x : ℝ) - 50|], 0, true, 1⟩ := by
    intro k x hk
    have hp : (env.prior (k, 0)).2 = [some x] := by
      rw [show (env.prior (k, 0)).2 = (aPrior plain consts (k, 0)).2 from rfl, plain_draw, ← hk]
      simp
    have hd : ∀ q, env.dist (env.sim [some x] q).2 = |(x : ℝ) - 50| := by
      intro q
      rw [show env.sim [some x] q = ((q.1, q.2 + 1), x) from plain_sim consts x q]
      rfl
    have hu : ∀ a q, (env.bern a q).2 = true := fun _ _ => rfl
    simp only [Sabc.first, hp, hd, hu, if_true, List.nil_append, zero_add]
  have t1 := task 3 3 rfl
  have t2 := task 45 45 rfl
  rw [show |((3 : Int) : ℝ) - 50| = 47 by norm_num] at t1
  rw [show |((45 : Int) : ℝ) - 50| = 5 by norm_num] at t2
  have hr : ∃ s, Sabc.run env c 1 (fun _ => starts [3, 45]) = some s ∧ s.journal = [([[some 3], [some 45]], [47, 5])] := by
    unfold Sabc.run
    rw [show c.steps = 0 + 1 from rfl, Sabc.loop, if_neg (by simp)]
    have hs : ∀ d, Sabc.smooth [47, 5] d = some (Sabc.smoothAt 5 [47, 5] d) := by
      intro d
      norm_num [Sabc.smooth, List.min?]
    have hstep : ∃ s, Sabc.step env c 1 0 (starts [3, 45]) ⟨[], [], [], [], c.eps, 0, 0, [], 0, false⟩ = some s ∧ s.journal = [([[some 3], [some 45]], [47, 5])] := by
      unfold Sabc.step
      rw [if_neg (by simp [starts, c])]
      simp only [starts, List.map_cons, List.map_nil, if_true]
      rw [show c.eps = 1 from rfl, t1, t2]
      simp only [collect, Option.map_some, Sabc.begin_, List.map_cons, List.map_nil, List.flatten_cons, List.flatten_nil, List.append_nil, List.cons_append, List.nil_append, hs]
      unfold Sabc.finish
      rw [if_neg (by simp [c])]
      exact ⟨_, rfl, rfl⟩
    obtain ⟨s, h1, h2⟩ := hstep
    rw [h1]
    exact ⟨s, rfl, h2⟩
  obtain ⟨s, hs, h⟩ := hr
  rw [hs, Option.map_eq_some_iff] at key
  obtain ⟨⟨st, s'⟩, k1, k2⟩ := key
  simp only at k2
  subst k2
  exact ⟨st, s', k1, h⟩

/-- C147 applies to it. -/
example (consts : Nat → Option Int) : Backed plain consts [some 45] 5 := by
  obtain ⟨st, s, h, hj⟩ := sabc_run_example consts (fun _ _ => [])
  have key := C147_sabc plain lucky plain_plain consts (plain_draws consts) (plain_inside consts) _ _ _ _ (by norm_num) 1 (fun _ => [3, 45]) (fun _ => some [(1, 1), (0, 0)]) (fun _ => scheduled_two) (fresh consts) (fresh_good plain consts) st s h
  exact (key _ (by rw [hj]; exact List.mem_singleton.2 rfl)).2 1 _ _ rfl rfl

/-- A run of `ABCsubsim` with four particles and one step, the ten tasks for the covariance matrices included. -/
theorem subsim_run_example (consts : Nat → Option Int) (kern : List ℝ → List (Option Int) → List (Option Int) → ℝ) :
    ∃ st s, subsimRun plain lucky (fun _ _ => 0) kern (fun _ => [1]) (fun k m => m / 4 ^ k) ⟨4, 1, 2, 0, true⟩ 1 (fun _ => [3, 45, 20, 30]) (fun _ => [0, 1, 2, 3, 4, 5, 6, 7, 8, 9]) (fun _ => none) (fun _ => none) (fresh consts) = some (st, s) ∧
      s.journal.map Subsim.Rec.params = [[[some 45], [some 30], [some 20], [some 3]]] ∧ s.journal.map Subsim.Rec.distances = [[5, 20, 30, 47]] := by
  let c : Subsim.Config := ⟨4, 1, 2, 0, true⟩
  let env := subsimEnv plain lucky consts (fun _ _ => 0) kern (fun _ => [(1 : ℝ)]) (fun k m => m / 4 ^ k)
  have key := C146_subsim plain lucky plain_plain consts (plain_draws consts) (plain_inside consts) (fun _ _ => 0) kern (fun _ => [(1 : ℝ)]) (fun k m => m / 4 ^ k) c 1 (fun _ => [3, 45, 20, 30])
    (fun _ => [0, 1, 2, 3, 4, 5, 6, 7, 8, 9]) (fun _ => none) (fun _ => none) (fun _ => scheduled_none _) (fun _ => scheduled_none _) (fresh consts) (fresh_good plain consts)
  have task : ∀ k x, ((k % 101 : ℕ) : Int) = x → Subsim.first env (k, 0) = ([[some x]], [|(x : ℝ) - 50|]) := by
    intro k x hk
    have hp : (env.prior (k, 0)).2 = [some x] := by
      rw [show (env.prior (k, 0)).2 = (aPrior plain consts (k, 0)).2 from rfl, plain_draw, ← hk]
      simp
    have hd : ∀ q, env.dist (env.sim [some x] q).2 = |(x : ℝ) - 50| := by
      intro q
      rw [show env.sim [some x] q = ((q.1, q.2 + 1), x) from plain_sim consts x q]
      rfl
    simp only [Subsim.first, hp, hd]
  have prop : ∀ covs base seed k, seed + k ≤ 100 → Smc.propose env.pdf (env.perturb covs base) 1 (seed, k) = some ((seed, k + 1), [some ((seed + k : ℕ) : Int)]) := by
    intro covs base seed k hk
    have h1 : env.perturb covs base (seed, k) = ((seed, k + 1), some [some ((0 + seed + k : ℕ) : Int)]) := plain_perturb consts 0 seed k (by omega)
    have h2 : env.pdf [some ((0 + seed + k : ℕ) : Int)] = 1 := plain_pdf consts _ (by omega)
    rw [Smc.propose, h1]
    simp only
    rw [if_pos (by rw [h2]; exact one_ne_zero), Nat.zero_add]
  have tries : ∀ covs anneal base seed θ, seed ≤ 10 → Subsim.trials env 1 covs anneal base 2 (seed, 0) θ = some 2 := by
    intro covs anneal base seed θ hk
    have hu : ∀ a q, env.bern a q = (q, true) := fun _ _ => rfl
    have hy : ∀ x q, env.sim [some x] q = ((q.1, q.2 + 1), x) := fun x q => plain_sim consts x q
    rw [Subsim.trials, prop _ _ _ _ (by omega)]
    simp only [hu, if_true, hy]
    rw [Subsim.trials, prop _ _ _ _ (by omega)]
    simp only [hu, if_true, hy, Subsim.trials, Option.map_some]
  have t1 := task 3 3 rfl
  have t2 := task 45 45 rfl
  have t3 := task 20 20 rfl
  have t4 := task 30 30 rfl
  rw [show |((3 : Int) : ℝ) - 50| = 47 by norm_num] at t1
  rw [show |((45 : Int) : ℝ) - 50| = 5 by norm_num] at t2
  rw [show |((20 : Int) : ℝ) - 50| = 30 by norm_num] at t3
  rw [show |((30 : Int) : ℝ) - 50| = 20 by norm_num] at t4
  have hstep : ∃ s, Subsim.step env c 1 0 (starts [3, 45, 20, 30]) (starts [0, 1, 2, 3, 4, 5, 6, 7, 8, 9]) ⟨[], [], [], false⟩ = some s ∧
      s.journal.map Subsim.Rec.params = [[[some 45], [some 30], [some 20], [some 3]]] ∧ s.journal.map Subsim.Rec.distances = [[5, 20, 30, 47]] := by
    have hsort : Subsim.sorted [[some (3 : Int)], [some 45], [some 20], [some 30]] [47, 5, 30, 20] = [(5, [some 45]), (20, [some 30]), (30, [some 20]), (47, [some 3])] := by
      norm_num [Subsim.sorted, List.insertionSort, List.orderedInsert]
    unfold Subsim.step
    rw [if_neg (by simp [starts, c])]
    simp only [starts, List.map_cons, List.map_nil, List.getLast?_nil, t1, t2, t3, t4, List.flatten_cons, List.flatten_nil, List.append_nil, List.cons_append, List.nil_append, hsort]
    have hc1 : c.n / c.length = 2 := by norm_num [c]
    have hc2 : c.length = 2 := rfl
    rw [hc1]
    simp only [List.getElem?_cons_succ, List.getElem?_cons_zero, Nat.reduceAdd]
    have htune : ∀ covs anneal base pop b p i seed, base[0]? = some b → pop[0]? = some p → seed ≤ 10 → Subsim.tune env 1 c.length covs anneal base pop i (seed, 0) = some (covs.map (env.scale i), false) := by
      intro covs anneal base pop b p i seed hb hp hk
      rw [hc2, Subsim.tune, hp, hb]
      simp only [Option.bind_some, tries _ _ _ _ _ hk, Option.map_some]
      norm_num
    simp only [List.zipIdx_cons, List.zipIdx_nil, List.map_cons, List.map_nil]
    rw [htune _ _ _ _ _ _ _ 0 rfl rfl (by omega), htune _ _ _ _ _ _ _ 1 rfl rfl (by omega), htune _ _ _ _ _ _ _ 2 rfl rfl (by omega), htune _ _ _ _ _ _ _ 3 rfl rfl (by omega),
      htune _ _ _ _ _ _ _ 4 rfl rfl (by omega), htune _ _ _ _ _ _ _ 5 rfl rfl (by omega), htune _ _ _ _ _ _ _ 6 rfl rfl (by omega), htune _ _ _ _ _ _ _ 7 rfl rfl (by omega),
      htune _ _ _ _ _ _ _ 8 rfl rfl (by omega), htune _ _ _ _ _ _ _ 9 rfl rfl (by omega)]
    simp only [collect, Option.map_some]
    rw [if_neg (by norm_num)]
    exact ⟨_, rfl, rfl, rfl⟩
  obtain ⟨s1, h1, h2, h3⟩ := hstep
  have hr : ∃ s, Subsim.run env c 1 (fun _ => starts [3, 45, 20, 30]) (fun _ => starts [0, 1, 2, 3, 4, 5, 6, 7, 8, 9]) = some s ∧
      s.journal.map Subsim.Rec.params = [[[some 45], [some 30], [some 20], [some 3]]] ∧ s.journal.map Subsim.Rec.distances = [[5, 20, 30, 47]] := by
    unfold Subsim.run
    rw [show c.steps = 0 + 1 from rfl, Subsim.loop, if_neg (by simp), h1]
    exact ⟨_, rfl, h2, h3⟩
  obtain ⟨s, hs, h⟩ := hr
  rw [hs, Option.map_eq_some_iff] at key
  obtain ⟨⟨st, s'⟩, k1, k2⟩ := key
  simp only at k2
  subst k2
  exact ⟨st, s', k1, h⟩

/-- C147 applies to it. -/
example (consts : Nat → Option Int) (kern : List ℝ → List (Option Int) → List (Option Int) → ℝ) : Backed plain consts [some 30] 20 := by
  obtain ⟨st, s, h, hp, hd⟩ := subsim_run_example consts kern
  have key := (C147_subsim plain lucky plain_plain consts (plain_draws consts) (plain_inside consts) _ _ _ _ _ (by norm_num) 1 _ _ _ _ (fun _ => scheduled_none _) (fun _ => scheduled_none _) (fresh consts)
    (fresh_good plain consts) st s h).2
  have hp1 := congrArg (fun l => l[0]?) hp
  have hd1 := congrArg (fun l => l[0]?) hd
  simp only [List.getElem?_map, List.getElem?_cons_zero, Option.map_eq_some_iff] at hp1 hd1
  obtain ⟨b, hb, hp1⟩ := hp1
  obtain ⟨b', hb', hd1⟩ := hd1
  rw [hb, Option.some.injEq] at hb'
  subst hb'
  exact (key b (List.mem_of_getElem? hb)).2 1 _ _ (by rw [hp1]; rfl) (by rw [hd1]; rfl)

/-- C147 for `RSMCABC` applies to the run of `C147_rsmcabc_violated`: the values of its particles are those of the first population. -/
example (consts : Nat → Option Int) (kern : Pmc.Pop (List (Option Int)) → List (Option Int) → List (Option Int) → ℝ) : ∃ s : Rsmc.State (List (Option Int)), ∃ r0, s.hist.head? = some r0 ∧ AllBacked plain consts r0.params r0.distances ∧
    ∀ r ∈ s.hist, ∀ θ ∈ r.params, θ ∈ r0.params ∧ Fits plain consts θ := by
  obtain ⟨st, s, h, -⟩ := C147_rsmcabc_violated consts kern
  obtain ⟨⟨r0, h0, hb⟩, hall⟩ := C147_rsmcabc_partial plain lucky plain_plain consts (plain_draws consts) (plain_inside consts) _ kern _ (by norm_num) (by norm_num) (by norm_num) rfl 2 _ _
    (fun _ => scheduled_none _) (fresh consts) (fresh_good plain consts) st s h
  exact ⟨s, r0, h0, hb, fun r hr θ hθ => ⟨C147_rsmcabc_no_new_values plain lucky plain_plain consts (plain_draws consts) (plain_inside consts) _ kern _ (by norm_num) (by norm_num) rfl 2 _ _
    (fun _ => scheduled_none _) (fresh consts) (fresh_good plain consts) st s h r0 h0 r hr θ hθ, (hall r hr).2.1 θ hθ⟩⟩

end Verif.Site
