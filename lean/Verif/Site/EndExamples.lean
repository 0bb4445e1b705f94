import Verif.Site.EndToEnd
import Verif.Site.RunExamples
/-
Runs on the graph of models that end, to which C147 applies.
-/
namespace Verif.Site

open Graph

/-- A run of `PMCABC` with two particles on two processes: it ends, and reports what it should. -/
theorem pmc_run_example (consts : Nat → Option Int) (kern : Pmc.Pop (List (Option Int)) → List (Option Int) → List (Option Int) → ℝ) :
    ∃ st s, pmcRun (plainFor (K := Pmc.Pop (List (Option Int)) × Nat) Prod.snd) kern 1 [100] 50 2 (fun _ => [3, 104]) (fun _ => some [(1, 1), (0, 0)]) (fun _ => none) none 0 (fresh consts) = some (st, s) ∧
      ∃ r, s.hist = [r] ∧ r.params = [[some 3], [some 3]] ∧ r.eps = 100 := by
  have key := C146_pmcabc (plainFor (K := Pmc.Pop (List (Option Int)) × Nat) Prod.snd) (plainFor_plain _) consts (plainFor_draws _ consts) (plainFor_inside _ consts) kern 1 [100] (fun _ _ => rfl) 50 2
    (fun _ => [3, 104]) (fun _ => some [(1, 1), (0, 0)]) (fun _ => none) (fun t l hl => by
      simp only [Option.some.injEq] at hl
      subst hl
      exact List.Perm.swap 0 1 []) (fun t l hl => by simp at hl) none 0 (fresh consts) (fresh_good _ consts)
  have ho : order plain.g plain.roots = [1] := lineG_order
  have hp : ∀ seed c, (aPrior plain consts (seed, c)).2 = [some (((seed + c) % 101 : ℕ) : Int)] := by
    intro seed c
    obtain ⟨s, hs, hv⟩ := plain_prior consts seed c
    unfold aPrior
    simp only
    rw [hs]
    simp only [ho, List.map_cons, List.map_nil, hv]
  have hd : ∀ c, |((aSim (plainFor (K := Pmc.Pop (List (Option Int)) × Nat) Prod.snd) consts [some 3] c).2 : ℝ) - 50| = 47 := by
    intro c
    have hv : valuesOf (plainFor (K := Pmc.Pop (List (Option Int)) × Nat) Prod.snd) consts [some 3] 1 = some 3 := by
      have ho' : order (plainFor (K := Pmc.Pop (List (Option Int)) × Nat) Prod.snd).g (plainFor (K := Pmc.Pop (List (Option Int)) × Nat) Prod.snd).roots = [1] := lineG_order
      simp [valuesOf, ho']
    have : (aSim (plainFor (K := Pmc.Pop (List (Option Int)) × Nat) Prod.snd) consts [some 3] c).2 = (valuesOf (plainFor (K := Pmc.Pop (List (Option Int)) × Nat) Prod.snd) consts [some 3] 1).getD 0 := rfl
    rw [this, hv]
    norm_num
  have task : ∀ k, (k % 101 : ℕ) = 3 → Pmc.resampleTask (pmcEnv (plainFor (K := Pmc.Pop (List (Option Int)) × Nat) Prod.snd) consts kern) 100 none 2 (k, 0) = some ([some 3], 47, 1) := by
    intro k hk
    have hp' : ((pmcEnv (plainFor (K := Pmc.Pop (List (Option Int)) × Nat) Prod.snd) consts kern).prior (k, 0)).2 = [some 3] := by
      rw [show ((pmcEnv (plainFor (K := Pmc.Pop (List (Option Int)) × Nat) Prod.snd) consts kern).prior (k, 0)).2 = (aPrior plain consts (k, 0)).2 from rfl, hp]
      simp [hk]
    have hd' : ∀ c, (pmcEnv (plainFor (K := Pmc.Pop (List (Option Int)) × Nat) Prod.snd) consts kern).dist ((pmcEnv (plainFor (K := Pmc.Pop (List (Option Int)) × Nat) Prod.snd) consts kern).sim [some 3] c).2 = 47 := hd
    have hm : (pmcEnv (plainFor (K := Pmc.Pop (List (Option Int)) × Nat) Prod.snd) consts kern).distMax = none := rfl
    have ha : ¬ Pmc.above (some 47) 100 = true := by simp [Pmc.above]; norm_num
    rw [Pmc.resampleTask, hm, Pmc.resampleLoop, if_pos (by rfl)]
    simp only
    rw [hp', hd', Pmc.resampleLoop, if_neg ha]
  have hr : ∃ s, Pmc.pmcRun (pmcEnv (plainFor (K := Pmc.Pop (List (Option Int)) × Nat) Prod.snd) consts kern) 1 [100] 50 2 (fun _ => starts [3, 104]) none 0 = some s ∧
      ∃ r, s.hist = [r] ∧ r.params = [[some 3], [some 3]] ∧ r.eps = 100 := by
    have h1 := task 3 rfl
    have h2 := task 104 rfl
    have hi : Pmc.initEps [100] 1 = some [some 100] := by simp [Pmc.initEps]
    rw [Pmc.pmcRun, hi]
    simp only
    rw [Pmc.pmcLoop]
    simp [Pmc.pmcStep, starts, h1, h2, collect, Pmc.nextEps, Pmc.pmcLoop]
  obtain ⟨s, hs, h⟩ := hr
  unfold starts at hs
  rw [hs, Option.map_eq_some_iff] at key
  obtain ⟨⟨st, s'⟩, k1, k2⟩ := key
  simp only at k2
  subst k2
  exact ⟨st, s', k1, h⟩

/-- C147 applies to it. -/
example (consts : Nat → Option Int) (kern : Pmc.Pop (List (Option Int)) → List (Option Int) → List (Option Int) → ℝ) : ∃ θ d, θ = [some 3] ∧ d ≤ 100 ∧
    Backed (plainFor (K := Pmc.Pop (List (Option Int)) × Nat) Prod.snd) consts θ d := by
  obtain ⟨st, s, h, r, h1, h2, h3⟩ := pmc_run_example consts kern
  obtain ⟨-, key⟩ := C147_pmcabc _ (plainFor_plain _) consts (plainFor_draws _ consts) (plainFor_inside _ consts) kern 1 (by omega) [100] (fun _ _ => rfl) 50 2
    (fun _ => [3, 104]) (fun _ => some [(1, 1), (0, 0)]) (fun _ => none) (fun t l hl => by
      simp only [Option.some.injEq] at hl
      subst hl
      exact List.Perm.swap 0 1 []) (fun t l hl => by simp at hl) none 0 (fresh consts) (fresh_good _ consts) st s h
  obtain ⟨⟨hl, hb⟩, he⟩ := key r (by rw [h1]; simp)
  have hlen : 0 < r.distances.length := by rw [← hl, h2]; simp
  exact ⟨[some 3], r.distances[0], rfl, h3 ▸ he _ (List.getElem_mem hlen), hb 0 _ _ (by rw [h2]; rfl) (List.getElem?_eq_getElem hlen)⟩

/-- C147 for `SMCABC` applies to the run of `smc_run_example`. -/
example (consts : Nat → Option Int) (kern : Pmc.Pop (List (Option Int)) → List (Option Int) → List (Option Int) → ℝ) (dr : Smc.Draws) (fuel : Nat) :
    ∃ (s : Smc.State (List (Option Int)) Int) (p : Smc.Rec (List (Option Int)) Int), s.journal = [p] ∧ p.params = [[some 3], [some 3]] ∧
      ∀ (i : Nat) θ y d, p.params[i]? = some θ → p.sims[i]? = some y → p.distances[i]? = some d → Fits plain consts θ ∧ From plain consts θ y ∧ d = plain.dist y := by
  obtain ⟨st, s, h, p, h1, h2, h3⟩ := smc_run_example consts kern dr 0 fuel
  refine ⟨s, p, h2, h3, C147_smcabc plain lucky plain_plain consts (plain_draws consts) (plain_inside consts) _ _ kern _ _ rfl le_rfl dr fuel _ _ (fun t l hl => ?_) _ (fresh_good plain consts) st s h p (by simp [h2])⟩
  simp only [Option.some.injEq] at hl
  subst hl
  exact List.Perm.swap 0 1 []

/-- A perturbation of the value on the graph of `plain`. -/
theorem plain_perturb (consts : Nat → Option Int) (k seed c : Nat) (hx : k + seed + c ≤ 100) : aPerturb plain consts k (seed, c) = ((seed, c + 1), some [some ((k + seed + c : ℕ) : Int)]) := by
  have ho : order plain.g plain.roots = [1] := lineG_order
  have hc : ∀ vals v, plain.chk vals v ((k + seed + c : ℕ) : Int) = .accept := fun _ _ => by
    simp only [plain]
    exact if_pos (by omega)
  obtain ⟨s, h1, -, -⟩ := perturb_first plain lineG_apart k ⟨seed, fresh consts, c⟩ (fun _ => rfl) [(1, [((k + seed + c : ℕ) : Int)])] (c + 1) rfl [((k + seed + c : ℕ) : Int)]
    (by
      have p2 : plain.g.parents 2 = [1] := rfl
      have p1 : plain.g.parents 1 = [0] := rfl
      have p0 : plain.g.parents 0 = [] := rfl
      have r : plain.roots = [2] := rfl
      simp [r, unfold_eq, p2, p1, p0, List.eraseDups_cons, firstParams])
    _ 1 (by rw [ho]; simp only [assignInOrder, List.getElem?_cons_zero, hc]; rfl)
  unfold aPerturb
  rw [h1]
  rfl

/-- Its prior density. -/
theorem plain_pdf (consts : Nat → Option Int) (x : Int) (hx : 0 ≤ x ∧ x ≤ 100) : aPdf plain consts [some x] = 1 := by
  have ho : order plain.g plain.roots = [1] := lineG_order
  have hc : ∀ vals v, plain.chk vals v x = .accept := fun _ _ => by simp only [plain, if_pos hx]
  obtain ⟨s, h1, -, -⟩ := pdf_ok plain lineG_apart [x] (fresh consts) (fun _ => rfl) _ 1 (by rw [ho]; simp only [assignInOrder, List.getElem?_cons_zero, hc]; rfl)
  unfold aPdf
  rw [show ([some x] : List (Option Int)).reduceOption = [x] from rfl, h1]
  simp only [Option.getD_some]
  have hone : ∀ (val : Nat → Option Int) v, plain.dens val v (if v ∈ order plain.g plain.roots then [x][(order plain.g plain.roots).idxOf v]? else none) = 1 := by
    intro val v
    rw [ho]
    by_cases hv : v ∈ [1]
    · rw [if_pos hv]
      simp only [List.mem_singleton] at hv
      subst hv
      simp [plain, hx]
    · rw [if_neg hv]
      rfl
  simp only [hone]
  simp [pdfVal, prodOver]

/-- C147 fails for `RSMCABC`, in a run on a graph with two particles and two steps: data are the value itself, and the distance is that to 50. Both particles are drawn with value 3; the second population has a particle with value 3 and
distance 1, which is that of the accepted proposal 49. -/
theorem C147_rsmcabc_violated (consts : Nat → Option Int) (kern : Pmc.Pop (List (Option Int)) → List (Option Int) → List (Option Int) → ℝ) :
    ∃ st s, rsmcRun plain lucky (fun _ i => i) kern ⟨2, 2, 1 / 2, 100, 0, 1 / 2, true⟩ 2 (fun t => if t = 0 then [3, 104] else [49]) (fun _ => none) (fresh consts) = .ok (st, s) ∧
      ∃ r ∈ s.journal, r.params[1]? = some [some 3] ∧ r.distances[1]? = some 1 ∧ ¬ Backed plain consts [some 3] 1 ∧ Backed plain consts [some 49] 1 := by
  let c : Rsmc.Config := ⟨2, 2, 1 / 2, 100, 0, 1 / 2, true⟩
  let env := rsmcEnv plain lucky consts (fun _ i => i) kern
  have key := C146_rsmcabc plain lucky plain_plain consts (plain_draws consts) (plain_inside consts) (fun _ i => i) kern c (by norm_num [c]) (by norm_num [c]) rfl [] 2
    (fun t => if t = 0 then [3, 104] else [49]) (fun _ => none) (fun t l hl => by simp at hl) (fresh consts) (fresh_good _ consts)
  have ho : order plain.g plain.roots = [1] := lineG_order
  have hp : ∀ seed c, (aPrior plain consts (seed, c)).2 = [some (((seed + c) % 101 : ℕ) : Int)] := by
    intro seed c
    obtain ⟨s, hs, hv⟩ := plain_prior consts seed c
    unfold aPrior
    simp only
    rw [hs]
    simp only [ho, List.map_cons, List.map_nil, hv]
  have hy : ∀ x q, (aSim plain consts [some x] q).2 = x := by
    intro x q
    have hv : valuesOf plain consts [some x] 1 = some x := by simp [valuesOf, ho]
    have : (aSim plain consts [some x] q).2 = (valuesOf plain consts [some x] 1).getD 0 := rfl
    rw [this, hv]
    rfl
  have hd : ∀ x q, env.dist (env.sim [some x] q).2 = |(x : ℝ) - 50| := by
    intro x q
    rw [show env.dist (env.sim [some x] q).2 = |((aSim plain consts [some x] q).2 : ℝ) - 50| from rfl, hy]
  have hdrop : c.drop = 1 := by
    unfold Rsmc.Config.drop Rsmc.pyRound
    norm_num [c]
  have task : ∀ k, (k % 101 : ℕ) = 3 → ∀ held, Rsmc.accept env 2 100 none 1 (k, 0) held = some ⟨[some 3], some 47, 1, 1⟩ := by
    intro k hk held
    have hp' : (env.prior (k, 0)).2 = [some 3] := by
      rw [show (env.prior (k, 0)).2 = (aPrior plain consts (k, 0)).2 from rfl, hp]
      simp [hk]
    have hm : env.distMax = none := rfl
    have ha : ¬ Pmc.above (some 47) 100 = true := by simp [Pmc.above]; norm_num
    have hd' : ∀ q, env.dist (env.sim [some 3] q).2 = 47 := fun q => by rw [hd]; norm_num
    simp only [Rsmc.accept, hm]
    rw [Rsmc.priorLoop, if_pos (by rfl)]
    simp only
    rw [hp', hd', Rsmc.priorLoop, if_neg ha]
    rfl
  have task' : ∀ held, Rsmc.accept env 2 47 (some (⟨[[some 3]], [1]⟩, [47])) 1 (49, 0) held = some ⟨[some 3], some 1, 1, 1⟩ := by
    intro held
    have hi : env.choose 1 (49, 0) = ((49, 0), 0) := rfl
    have hpr : Smc.propose env.pdf (env.perturb ⟨[[some 3]], [1]⟩ 0) 2 (49, 0) = some ((49, 1), [some 49]) := by
      have h1 : env.perturb ⟨[[some 3]], [1]⟩ 0 (49, 0) = ((49, 1), some [some 49]) := plain_perturb consts 0 49 0 (by norm_num)
      have h2 : env.pdf [some 49] = 1 := plain_pdf consts 49 (by norm_num)
      rw [Smc.propose, h1]
      simp [h2]
    have hd' : ∀ q, env.dist (env.sim [some 49] q).2 = 1 := fun q => by rw [hd]; norm_num
    have hu : ∀ a q, (env.bern a q).2 = true := fun _ _ => rfl
    simp only [Rsmc.accept, List.length_cons, List.length_nil, zero_add, hi, List.getElem?_cons_zero, Option.bind_some]
    rw [Rsmc.moveLoop, hpr]
    simp only [hd', hu, if_true]
    rw [if_pos (by norm_num), Rsmc.moveLoop]
  have first : Rsmc.step env c 2 0 [((3, 0), []), ((104, 0), [])] ⟨[], none, 1, [], [], 0⟩ =
      .ok ⟨[100], some ([[some 3]], [47]), 1, [⟨100, 1, [[some 3], [some 3]], [47, 47]⟩], [⟨100, 1, [[some 3], [some 3]], [47, 47]⟩], 2⟩ := by
    have ht : Rsmc.trim c [[some (3 : Int)], [some 3]] [47, 47] = ([[some 3]], [47]) := by
      unfold Rsmc.trim
      rw [hdrop]
      simp [c, List.insertionSort]
    have hm : Rsmc.nextMoves c 1 2 2 = some 1 := by
      unfold Rsmc.nextMoves
      norm_num
    have t1 := task 3 rfl []
    have t2 := task 104 rfl []
    simp only [Rsmc.step, Rsmc.threshold, Rsmc.wanted, Rsmc.seen, Option.isNone_none, if_true, Option.map_none, List.map_cons, List.map_nil, Int.toNat_one, List.length_cons, List.length_nil]
    rw [if_neg (by norm_num [c]), if_neg (by simp [c])]
    rw [show c.epsInit = 100 from rfl, t1, t2]
    simp only [collect, Option.map_some, List.map_cons, List.map_nil, List.sum_cons, List.sum_nil, List.length_cons, List.length_nil, Nat.reduceAdd]
    rw [hm]
    have hn : c.n = 2 := rfl
    have hf : c.full = true := rfl
    simp only [Rsmc.base, hn, hf, if_true, List.nil_append, ht]
  have second : ∀ s : Rsmc.State (List (Option Int)), s = ⟨[100], some ([[some 3]], [47]), 1, [⟨100, 1, [[some 3], [some 3]], [47, 47]⟩], [⟨100, 1, [[some 3], [some 3]], [47, 47]⟩], 2⟩ →
      ∃ s', Rsmc.step env c 2 1 [((49, 0), [])] s = .ok s' ∧ s'.journal = s.journal ++ [⟨47, 1, [[some 3], [some 3]], [47, 1]⟩] := by
    rintro s rfl
    have hm : Rsmc.nextMoves c 1 1 1 = some 1 := by
      unfold Rsmc.nextMoves
      norm_num
    have t1 := task' []
    have hn : c.n = 2 := rfl
    have hf : c.full = true := rfl
    have hr : List.replicate 1 (1 / ((1 : ℕ) : ℝ)) = [1] := by simp
    simp only [Rsmc.step, Rsmc.threshold, Rsmc.wanted, Rsmc.seen, Option.isNone_some, Option.map_some, List.map_cons, List.map_nil, Int.toNat_one, List.length_cons, List.length_nil, List.getLast?_singleton, zero_add]
    rw [if_neg (by norm_num [c]), if_neg (by simp [hdrop]), hr, t1]
    simp only [collect, Option.map_some, List.map_cons, List.map_nil, List.sum_cons, List.sum_nil, List.length_cons, List.length_nil, Nat.reduceAdd]
    rw [hm]
    refine ⟨_, rfl, ?_⟩
    simp [Rsmc.base, hn, hf]
  obtain ⟨s2, k1, k2⟩ := second _ rfl
  have hrun : Rsmc.run env c 2 (fun t => (starts (if t = 0 then [3, 104] else [49])).map fun p => (p, [])) = .ok s2 := by
    unfold Rsmc.run
    rw [show c.steps = 1 + 1 from rfl, Rsmc.loop]
    rw [show ((starts (if (0 : ℕ) = 0 then [3, 104] else [49])).map fun p => (p, ([] : List (Option Int)))) = [((3, 0), []), ((104, 0), [])] from rfl, first]
    simp only
    rw [Rsmc.loop]
    rw [show ((starts (if (0 + 1 : ℕ) = 0 then [3, 104] else [49])).map fun p => (p, ([] : List (Option Int)))) = [((49, 0), [])] from rfl]
    rw [show (0 + 1 : ℕ) = 1 from rfl, k1]
    rfl
  rw [hrun] at key
  cases hk : rsmcRun plain lucky (fun _ i => i) kern c 2 (fun t => if t = 0 then [3, 104] else [49]) (fun _ => none) (fresh consts) with
  | error e => rw [hk] at key; cases key
  | ok q =>
    rw [hk] at key
    obtain ⟨st, s⟩ := q
    simp only [Except.map, Except.ok.injEq] at key
    subst key
    refine ⟨st, s, rfl, ⟨47, 1, [[some 3], [some 3]], [47, 1]⟩, by rw [k2]; simp, rfl, rfl, ?_, plain_fits consts 49 (by norm_num), 49, ⟨0, 0, (hy 49 (0, 0)).symm⟩, ?_⟩
    · rintro ⟨-, y, ⟨seed, clock, rfl⟩, h⟩
      have := hy 3 (seed, clock)
      rw [show (plain.simulate seed (valuesOf plain consts [some 3]) clock).2 = 3 from this] at h
      norm_num [plain] at h
    · norm_num [plain]

end Verif.Site
