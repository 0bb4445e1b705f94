import Verif.PmcLik.Run
import Verif.Site.RunMcmc
/-
C156: runs of `PMC` on the graph of models.
-/
namespace Verif.Site

open Graph

variable {α Y : Type}

/-! ### Model -/

/-- What else the sampler uses: `many k w n c` is `rng.choice` of `n` indices with weights `w` (inferences.py 1292), `draw k n c` are `n` seeds for tasks (1305), with the generator of seed `k` at position `c`. `loglik` is the
logarithm of the approximate likelihood of the observations for simulated data. -/
structure Extras (Y : Type) where
  many : Nat → List ℝ → Nat → Nat → Nat × List Nat
  draw : Nat → Nat → Nat → Nat × List Nat
  loglik : Y → ℝ

/-- The request for a kernel: population and index. -/
abbrev Req (α : Type) := Pmc.Pop (List (Option α)) × Nat

/-- Lines 1222-1225: draws from the prior, one after the other. -/
def drawMany (S : Site α Y (Req α)) : Nat → Worker α → Option (Worker α × List (List (Option α)))
  | 0, w => some (w, [])
  | n + 1, w => (priorDraw S w).bind fun a => (drawMany S n a.1).map fun r => (r.1, a.2 :: r.2)

/-- Lines 1295-1301: a proposal for each of the indices. -/
noncomputable def proposeMany (S : Site α Y (Req α)) (p : Pmc.Pop (List (Option α))) (fuel : Nat) : List Nat → Worker α → Option (Worker α × List (List (Option α)))
  | [], w => some (w, [])
  | i :: l, w => (propose S (p, i) fuel w).bind fun a => (proposeMany S p fuel l a.1).map fun r => (r.1, a.2.map some :: r.2)

/-- `_approx_log_lik_calc`, lines 1391-1429, for a vector and a seed. -/
noncomputable def likTask (S : Site α Y (Req α)) (X : Extras Y) (t : List (Option α) × Nat) (st : St α) : St α × Option ℝ :=
  match store S t.1 ⟨t.2, st, 0⟩ with
  | none => (st, none)
  | some w =>
    let r := simulate S w
    match density S t.1 r.1 with
    | none => (r.1.st, none)
    | some (w, d) => (w.st, some (Real.log d + X.loglik r.2))

/-- Lines 1330-1340. -/
noncomputable def newWeights (raw lik : List ℝ) : List ℝ :=
  let logw := List.zipWith (fun r l => Real.log r + l) raw lik
  let m := logw.foldr max (logw.headD 0)
  Pmc.normalise (logw.map fun x => Real.exp (x - m))

/-- An iteration, lines 1290-1370; the maps of lines 1312 and 1327 have schedules of their own. -/
noncomputable def likStep (S : Site α Y (Req α)) (kern : Pmc.Pop (List (Option α)) → List (Option α) → List (Option α) → ℝ) (X : Extras Y) (n fuel : Nat) (schedule schedule' : Option (List (Nat × Nat))) (w : Worker α)
    (p : Pmc.Pop (List (Option α))) : Option (Worker α × Pmc.Pop (List (Option α))) :=
  if p.params.length = n ∧ p.weights.length = n then
    let c := X.many w.seed p.weights n w.clock
    (proposeMany S p fuel c.2 ⟨w.seed, w.st, c.1⟩).bind fun r =>
      let d := X.draw r.1.seed n r.1.clock
      let m := runMap (likTask S X) (r.2.zip d.2) schedule r.1.st
      (collect m.2).bind fun lik =>
        let m' := runMap (weightTask S kern n (some p)) r.2 schedule' m.1
        (collect m'.2).bind fun raw => some (⟨r.1.seed, m'.1, d.1⟩, ⟨r.2, newWeights raw lik⟩)
  else none

/-- The loop of lines 1258-1386, as in `PmcLik.loop`. -/
noncomputable def likLoop (S : Site α Y (Req α)) (kern : Pmc.Pop (List (Option α)) → List (Option α) → List (Option α) → ℝ) (X : Extras Y) (perParam n steps fuel : Nat) (full : Bool)
    (schedule schedule' : Nat → Option (List (Nat × Nat))) : Nat → Nat → Worker α → Pmc.Pop (List (Option α)) → Nat → PmcLik.Journal (List (Option α)) →
      Option (Worker α × List (Pmc.Pop (List (Option α))) × Nat × PmcLik.Journal (List (Option α)))
  | 0, _, w, _, c, j => some (w, [], c, j)
  | k + 1, t, w, p, c, j => (likStep S kern X n fuel (schedule t) (schedule' t) w p).bind fun q =>
    (likLoop S kern X perParam n steps fuel full schedule schedule' k (t + 1) q.1 q.2 (c + n * perParam) (PmcLik.write full steps t q.2 (c + n * perParam) j)).map
      fun r => (r.1, q.2 :: r.2.1, r.2.2.1, r.2.2.2)

/-- `PMC.sample` without `iniPoints`, lines 1190-1388: a draw of the prior to find the dimension (1217), the first particles, the iterations. -/
noncomputable def likRun (S : Site α Y (Req α)) (kern : Pmc.Pop (List (Option α)) → List (Option α) → List (Option α) → ℝ) (X : Extras Y) (perParam n steps fuel : Nat) (full : Bool)
    (schedule schedule' : Nat → Option (List (Nat × Nat))) (w : Worker α) (counter : Nat) (file : Option (PmcLik.Journal (List (Option α)))) :
    Option (Worker α × List (Pmc.Pop (List (Option α))) × Nat × PmcLik.Journal (List (Option α))) :=
  (priorDraw S w).bind fun a => (drawMany S n a.1).bind fun r =>
    match file with
    | none => likLoop S kern X perParam n steps fuel full schedule schedule' steps 0 r.1 ⟨r.2, List.replicate n (1 / (n : ℝ))⟩ counter ⟨full, [], []⟩
    | some j => if steps = 0 then some (r.1, [], counter, j) else match j.pops.getLast? with
      | none => none
      | some p => likLoop S kern X perParam n steps fuel full schedule schedule' steps 0 r.1 p counter j

/-! ### Specification: the same without a graph that stores values -/

/-- The environment of `Verif.PmcLik`, of which C115 and C116 speak; generators are given by seed and position. -/
noncomputable def likEnv (S : Site α Y (Req α)) (consts : Nat → Option α) (kern : Pmc.Pop (List (Option α)) → List (Option α) → List (Option α) → ℝ) (X : Extras Y) (perParam : Nat) :
    PmcLik.Env (Nat × Nat) (Nat × Nat) (List (Option α)) Y where
  pdf := aPdf S consts
  kernel := kern
  prior := aPrior S consts
  choose l n p := ((p.1, (X.many p.1 l n p.2).1), (X.many p.1 l n p.2).2)
  perturb p i := aPerturb S consts (p, i)
  seeds n p := ((p.1, (X.draw p.1 n p.2).1), (X.draw p.1 n p.2).2.map fun k => (k, 0))
  sim θ p := (aSim S consts θ p).2
  loglik := X.loglik
  perParam := perParam
  dim := (order S.g S.roots).length

/-- As many indices and seeds are drawn as are asked for. -/
structure Extras.Full (X : Extras Y) : Prop where
  many : ∀ k w n c, (X.many k w n c).2.length = n
  draw : ∀ k n c, (X.draw k n c).2.length = n

/-! ### Proofs -/

theorem map_some_comp {A B : Type} (f : A → B) (l : List A) : (l.map fun a => some (f a)) = (l.map f).map some := by rw [List.map_map]; rfl

section
variable (S : Site α Y (Req α)) (hS : Plain S) (consts : Nat → Option α) (kern : Pmc.Pop (List (Option α)) → List (Option α) → List (Option α) → ℝ) (X : Extras Y) (perParam : Nat)

theorem proposeLoop_smc {M W Θ : Type} (env : PmcLik.Env M W Θ Y) (p : Pmc.Pop Θ) (i fuel : Nat) : ∀ m, PmcLik.proposeLoop env p i fuel m = Smc.propose env.pdf (env.perturb p i) fuel m := by
  induction fuel with
  | zero => intro m; rfl
  | succ fuel ih =>
    intro m
    rw [PmcLik.proposeLoop, Smc.propose]
    rcases env.perturb p i m with ⟨m', o⟩
    cases o with
    | none => exact ih m'
    | some θ =>
      simp only
      split
      · rfl
      · exact ih m'

theorem proposeLoop_eq (p : Pmc.Pop (List (Option α))) (i fuel : Nat) (m : Nat × Nat) :
    PmcLik.proposeLoop (likEnv S consts kern X perParam) p i fuel m = Smc.propose (aPdf S consts) (aPerturb S consts (p, i)) fuel m := proposeLoop_smc _ p i fuel m

include hS in
theorem proposeMany_same (p : Pmc.Pop (List (Option α))) (fuel : Nat) (l : List Nat) : ∀ (w : Worker α), Good S consts w.st →
    (proposeMany S p fuel l w = none ∧ PmcLik.proposals (likEnv S consts kern X perParam) p fuel l w.pos = none) ∨
    ∃ w' θs, proposeMany S p fuel l w = some (w', θs) ∧ PmcLik.proposals (likEnv S consts kern X perParam) p fuel l w.pos = some (w'.pos, θs) ∧ Good S consts w'.st ∧ θs.length = l.length ∧ ∀ θ ∈ θs, Fits S consts θ := by
  induction l with
  | nil => intro w hw; exact .inr ⟨w, [], rfl, rfl, hw, rfl, by simp⟩
  | cons i l ih =>
    intro w hw
    rw [proposeMany, PmcLik.proposals, proposeLoop_eq]
    rcases propose_fits S hS consts (p, i) fuel w hw with ⟨h1, h2⟩ | ⟨w', ps, h1, h2, h3, -, h5⟩
    · rw [h1, h2]; exact .inl ⟨rfl, rfl⟩
    · rw [h1, h2, Option.bind_some]
      simp only
      rcases ih w' h3 with ⟨a1, a2⟩ | ⟨w2, θs, a1, a2, a3, a4, a5⟩
      · rw [a1, a2]; exact .inl ⟨rfl, rfl⟩
      · rw [a1, a2]
        refine .inr ⟨w2, ps.map some :: θs, rfl, rfl, a3, by simp [a4], ?_⟩
        intro θ hθ
        rcases List.mem_cons.1 hθ with rfl | hθ
        · exact h5
        · exact a5 θ hθ

include hS in
theorem drawMany_same (hd : Draws S consts) (n : Nat) : ∀ (w : Worker α), Good S consts w.st → ∃ w' θs, drawMany S n w = some (w', θs) ∧ PmcLik.initial (likEnv S consts kern X perParam) n w.pos = (w'.pos, θs) ∧ Good S consts w'.st := by
  induction n with
  | zero => intro w hw; exact ⟨w, [], rfl, rfl, hw⟩
  | succ n ih =>
    intro w hw
    obtain ⟨w1, θ, p1, p2, p3, -, -⟩ := prior_same S hS consts hd w hw
    obtain ⟨w2, θs, a1, a2, a3⟩ := ih w1 p3
    refine ⟨w2, θ :: θs, ?_, ?_, a3⟩
    · rw [drawMany, p1, Option.bind_some, a1]; rfl
    · rw [PmcLik.initial]
      have : (likEnv S consts kern X perParam).prior w.pos = (w1.pos, θ) := p2
      simp only [this, a2]

include hS in
theorem likTask_same (θ : List (Option α)) (hθ : Fits S consts θ) (seed : Nat) (st : St α) (hst : Good S consts st) :
    (likTask S X (θ, seed) st).2 = some (Real.log (aPdf S consts θ) + X.loglik (aSim S consts θ (seed, 0)).2) ∧ Good S consts (likTask S X (θ, seed) st).1 := by
  obtain ⟨s, h1, h2, h3⟩ := store_same S hS consts θ hθ ⟨seed, st, 0⟩ hst
  have hsim := simulate_same S hS.toSound consts ⟨seed, s, 0⟩ θ h2 h3
  obtain ⟨s', d1, d2, -⟩ := density_same S hS consts θ hθ (simulate S ⟨seed, s, 0⟩).1 h2
  unfold likTask
  simp only
  rw [h1]
  simp only
  rw [d1]
  have : (aSim S consts θ (seed, 0)).2 = (simulate S ⟨seed, s, 0⟩).2 := congrArg Prod.snd hsim
  rw [this]
  exact ⟨rfl, d2⟩

theorem newWeights_eq (p : Pmc.Pop (List (Option α))) (n : Nat) (θs : List (List (Option α))) (seeds : List Nat) (hl : θs.length = seeds.length) :
    newWeights (θs.map fun θ => Pmc.rawWeight (pmcEnv S consts kern) n (some p) θ) ((θs.zip seeds).map fun t => Real.log (aPdf S consts t.1) + X.loglik (aSim S consts t.1 (t.2, 0)).2) =
      PmcLik.weights (likEnv S consts kern X perParam) p θs (seeds.map fun k => (k, 0)) := by
  unfold newWeights PmcLik.weights Pmc.pmcWeights
  have key : List.zipWith (fun r l => Real.log r + l) (θs.map fun θ => Pmc.rawWeight (pmcEnv S consts kern) n (some p) θ)
        ((θs.zip seeds).map fun t => Real.log (aPdf S consts t.1) + X.loglik (aSim S consts t.1 (t.2, 0)).2) =
      (List.zipWith (fun θ w => ((likEnv S consts kern X perParam).loglik ((likEnv S consts kern X perParam).sim θ w), (likEnv S consts kern X perParam).pdf θ, PmcLik.mixture (likEnv S consts kern X perParam) p θ)) θs
        (seeds.map fun k => (k, 0))).map fun (loglik, prior, mix) => Real.log (1 * prior / mix) + (Real.log prior + loglik) := by
    apply List.ext_getElem
    · simp [hl]
    · intro i h1 h2
      simp only [List.getElem_zipWith, List.getElem_map, List.getElem_zip, one_mul]
      rfl
  simp only [key]

include hS in
theorem likStep_same (hX : X.Full) (n fuel : Nat) (schedule schedule' : Option (List (Nat × Nat))) (hc : Scheduled n schedule) (hc' : Scheduled n schedule') (w : Worker α) (hw : Good S consts w.st)
    (p : Pmc.Pop (List (Option α))) :
    (likStep S kern X n fuel schedule schedule' w p = none ∧ PmcLik.step (likEnv S consts kern X perParam) n fuel w.pos p = none) ∨
    ∃ w' q, likStep S kern X n fuel schedule schedule' w p = some (w', q) ∧ PmcLik.step (likEnv S consts kern X perParam) n fuel w.pos p = some (w'.pos, q) ∧ Good S consts w'.st := by
  unfold likStep PmcLik.step
  by_cases hlen : p.params.length = n ∧ p.weights.length = n
  · rw [if_pos hlen, if_pos hlen]
    simp only
    have hch : (likEnv S consts kern X perParam).choose p.weights n w.pos = ((w.seed, (X.many w.seed p.weights n w.clock).1), (X.many w.seed p.weights n w.clock).2) := rfl
    rw [hch]
    simp only
    rcases proposeMany_same S hS consts kern X perParam p fuel (X.many w.seed p.weights n w.clock).2 ⟨w.seed, w.st, (X.many w.seed p.weights n w.clock).1⟩ hw with ⟨h1, h2⟩ | ⟨w1, θs, h1, h2, h3, h4, h5⟩
    · rw [h1]
      rw [show PmcLik.proposals (likEnv S consts kern X perParam) p fuel (X.many w.seed p.weights n w.clock).2 (w.seed, (X.many w.seed p.weights n w.clock).1) = none from h2]
      exact .inl ⟨rfl, rfl⟩
    · rw [h1]
      rw [show PmcLik.proposals (likEnv S consts kern X perParam) p fuel (X.many w.seed p.weights n w.clock).2 (w.seed, (X.many w.seed p.weights n w.clock).1) = some (w1.pos, θs) from h2, Option.bind_some]
      simp only
      rw [hX.many] at h4
      have hdl := hX.draw w1.seed n w1.clock
      obtain ⟨m1, m2⟩ := runMap_spec (likTask S X) (θs.zip (X.draw w1.seed n w1.clock).2) (Good S consts)
        (fun t => some (Real.log (aPdf S consts t.1) + X.loglik (aSim S consts t.1 (t.2, 0)).2))
        (fun t ht s hs => likTask_same S hS consts X t.1 (h5 t.1 (List.of_mem_zip ht).1) t.2 s hs) schedule (by rw [List.length_zip, h4, hdl, Nat.min_self]; exact hc) w1.st h3
      rw [m1, map_some_comp, collect_map_some, Option.bind_some]
      generalize runMap (likTask S X) (θs.zip (X.draw w1.seed n w1.clock).2) schedule w1.st = m at m1 m2
      obtain ⟨v1, v2⟩ := runMap_spec (weightTask S kern n (some p)) θs (Good S consts) (fun θ => some (Pmc.rawWeight (pmcEnv S consts kern) n (some p) θ))
        (fun θ hθ s hs => weight_same S hS consts kern n (some p) θ (h5 θ hθ) s hs) schedule' (by rw [h4]; exact hc') m.1 m2
      rw [v1, map_some_comp, collect_map_some, Option.bind_some]
      refine .inr ⟨_, _, rfl, ?_, v2⟩
      rw [newWeights_eq S consts kern X perParam p n θs _ (by rw [h4, hdl])]
      rfl
  · rw [if_neg hlen, if_neg hlen]; exact .inl ⟨rfl, rfl⟩

include hS in
theorem likLoop_same (hX : X.Full) (n steps fuel : Nat) (full : Bool) (schedule schedule' : Nat → Option (List (Nat × Nat))) (hc : ∀ t, Scheduled n (schedule t)) (hc' : ∀ t, Scheduled n (schedule' t)) (k : Nat) :
    ∀ (t : Nat) (w : Worker α), Good S consts w.st → ∀ (p : Pmc.Pop (List (Option α))) (c : Nat) (j : PmcLik.Journal (List (Option α))),
    (likLoop S kern X perParam n steps fuel full schedule schedule' k t w p c j).map (fun r => (r.1.pos, r.2)) = PmcLik.loop (likEnv S consts kern X perParam) n steps fuel full k t w.pos p c j := by
  induction k with
  | zero => intro t w hw p c j; rfl
  | succ k ih =>
    intro t w hw p c j
    rw [likLoop, PmcLik.loop]
    rcases likStep_same S hS consts kern X perParam hX n fuel (schedule t) (schedule' t) (hc t) (hc' t) w hw p with ⟨h1, h2⟩ | ⟨w', q, h1, h2, h3⟩
    · rw [h1, h2]; rfl
    · rw [h1, h2, Option.bind_some]
      simp only
      have := ih (t + 1) w' h3 q (c + n * perParam) (PmcLik.write full steps t q (c + n * perParam) j)
      rw [show (likEnv S consts kern X perParam).perParam = perParam from rfl, ← this]
      cases likLoop S kern X perParam n steps fuel full schedule schedule' k (t + 1) w' q (c + n * perParam) (PmcLik.write full steps t q (c + n * perParam) j) <;> rfl

end

/-- **C156**: on the graph of models, with the sequential backend, and with the MPI backend for every number of processes and order of tasks in every map, whatever the graph held before, a run of `PMC` makes the populations,
the journal and the count of simulations of a run over parameter vectors (to which C115 and C116 apply), or neither returns. -/
theorem C156 (S : Site α Y (Req α)) (hS : Plain S) (consts : Nat → Option α) (hd : Draws S consts) (kern : Pmc.Pop (List (Option α)) → List (Option α) → List (Option α) → ℝ) (X : Extras Y) (hX : X.Full)
    (perParam n steps fuel : Nat) (full : Bool) (schedule schedule' : Nat → Option (List (Nat × Nat))) (hc : ∀ t, Scheduled n (schedule t)) (hc' : ∀ t, Scheduled n (schedule' t)) (w : Worker α) (hw : Good S consts w.st)
    (counter : Nat) (file : Option (PmcLik.Journal (List (Option α)))) :
    (likRun S kern X perParam n steps fuel full schedule schedule' w counter file).map (fun r => (r.1.pos, r.2)) =
      PmcLik.sample (likEnv S consts kern X perParam) n steps fuel full none (w.seed, w.clock) counter file := by
  obtain ⟨w1, θ, p1, p2, p3, -, -⟩ := prior_same S hS consts hd w hw
  obtain ⟨w2, θs, a1, a2, a3⟩ := drawMany_same S hS consts kern X perParam hd n w1 p3
  unfold likRun PmcLik.sample PmcLik.first
  have hp : ((likEnv S consts kern X perParam).prior (w.seed, w.clock)).1 = w1.pos := congrArg Prod.fst p2
  rw [p1, Option.bind_some]
  simp only
  rw [a1, Option.bind_some, hp, a2]
  simp only
  cases file with
  | none => exact likLoop_same S hS consts kern X perParam hX n steps fuel full schedule schedule' hc hc' steps 0 w2 a3 _ counter _
  | some j =>
    simp only
    by_cases h0 : steps = 0
    · rw [if_pos h0, if_pos h0]; rfl
    · rw [if_neg h0, if_neg h0]
      cases j.pops.getLast? with
      | none => rfl
      | some p => exact likLoop_same S hS consts kern X perParam hX n steps fuel full schedule schedule' hc hc' steps 0 w2 a3 p counter j

/-- **C156**, in terms of two runs: the same seed gives the same populations and journal on two backends, with two schedules and two graphs. -/
theorem C156_reproducible (S : Site α Y (Req α)) (hS : Plain S) (consts : Nat → Option α) (hd : Draws S consts) (kern : Pmc.Pop (List (Option α)) → List (Option α) → List (Option α) → ℝ) (X : Extras Y) (hX : X.Full)
    (perParam n steps fuel : Nat) (full : Bool) (a a' b b' : Nat → Option (List (Nat × Nat))) (ha : ∀ t, Scheduled n (a t)) (ha' : ∀ t, Scheduled n (a' t)) (hb : ∀ t, Scheduled n (b t)) (hb' : ∀ t, Scheduled n (b' t))
    (seed clock : Nat) (st st' : St α) (hs : Good S consts st) (hs' : Good S consts st') (counter : Nat) (file : Option (PmcLik.Journal (List (Option α)))) :
    (likRun S kern X perParam n steps fuel full a a' ⟨seed, st, clock⟩ counter file).map Prod.snd = (likRun S kern X perParam n steps fuel full b b' ⟨seed, st', clock⟩ counter file).map Prod.snd := by
  have h1 := C156 S hS consts hd kern X hX perParam n steps fuel full a a' ha ha' ⟨seed, st, clock⟩ hs counter file
  have h2 := C156 S hS consts hd kern X hX perParam n steps fuel full b b' hb hb' ⟨seed, st', clock⟩ hs' counter file
  have := congrArg (Option.map Prod.snd) (h1.trans h2.symm)
  simpa only [Option.map_map, Function.comp_def] using this

/-! ### An instance -/

/-- The first particles are chosen. -/
noncomputable def exExtras : Extras Int where
  many _ _ n c := (c + 1, List.range n)
  draw k n c := (c + n, (List.range n).map fun i => k + c + i)
  loglik y := -(y : ℝ) ^ 2

theorem exExtras_full : exExtras.Full := ⟨fun _ _ _ _ => by simp [exExtras], fun _ _ _ => by simp [exExtras]⟩

/-- The hypotheses are met; the first map of every iteration is run by two processes in reverse order, the second one by the sequential backend. -/
example (consts : Nat → Option Int) (kern : Pmc.Pop (List (Option Int)) → List (Option Int) → List (Option Int) → ℝ) (seed fuel : Nat) :
    (likRun (plainFor Prod.snd) kern exExtras 5 2 3 fuel true (fun _ => some [(1, 1), (0, 0)]) (fun _ => none) ⟨seed, fresh consts, 0⟩ 0 none).map (fun r => (r.1.pos, r.2)) =
      PmcLik.sample (likEnv (plainFor Prod.snd) consts kern exExtras 5) 2 3 fuel true none (seed, 0) 0 none :=
  C156 _ (plainFor_plain _) consts (plainFor_draws _ consts) kern exExtras exExtras_full 5 2 3 fuel true _ _
    (fun _ l hl => by simp only [Option.some.injEq] at hl; subst hl; exact List.Perm.swap 0 1 []) (fun _ l hl => by cases hl) _ (fresh_good _ consts) 0 none

end Verif.Site
