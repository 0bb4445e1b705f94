import Verif.Mcmc.Follow
import Verif.Site.Likelihood
import Verif.Site.RunExamples
/-
C155: runs of `MCMCMetropoliHastings` on the graph of models.
-/
namespace Verif.Site

open Graph

variable {α Y R Cov : Type}

/-! ### Model -/

/-- What else the sampler uses: `draw k n c` are `n` seeds for tasks, drawn from the generator with seed `k` at position `c` (inferences.py 4543), `unif` is the uniform number of line 4394, `lik` the logarithm of the
approximate likelihood of the observations for simulated data (one data set for each observed model), and the methods of the transformer. -/
structure Rest (α R Cov : Type) where
  names : List String
  draw : Nat → Nat → Nat → Nat × List Nat
  unif : Nat → Nat → Nat × ℝ
  lik : List (List R) → ℝ
  tr : List α → Option (List α)
  inv : List α → Option (List α)
  jac : List α → Option ℝ
  adapt : List (List α) → Cov
  eye : List α → Cov

/-- `_simulate_and_compute_log_lik`, inferences.py 4509-4560: all samples at once by the process of the sampler (`speedup_dummy` and the dummy backend), or one task for each sample. -/
noncomputable def graphLik (S : Site α Y (Cov × List α)) (Z : Simulators α R) (X : Rest α R Cov) (n : Nat) (atOnce : Bool) (schedule : Option (List (Nat × Nat))) (θ : List α) (w : Worker α) :
    Option (Worker α × ℝ) :=
  if atOnce then (dataAtOnce S Z (θ.map some) n w).map fun r => (r.1, X.lik r.2)
  else
    let d := X.draw w.seed n w.clock
    let m := dataParallel S Z (θ.map some) d.2 schedule w.st
    m.2.map fun y => (⟨w.seed, m.1, d.1⟩, X.lik y)

/-- The chain on the graph. The kernel is asked with the covariance matrices and the transformed current state (4357); marks are removed (4359) before the values are ordered (4362). A draw of the prior that leaves
a parameter without value is an exception here. -/
noncomputable def graphChain (S : Site α Y (Cov × List α)) (Z : Simulators α R) (X : Rest α R Cov) (n : Nat) (atOnce : Bool) (schedule : Nat → Option (List (Nat × Nat))) : Mcmc.Obj (Worker α) α (List α) Cov where
  names := X.names
  prior w := (priorDraw S w).bind fun r => (collect r.2).map fun θ => (r.1, θ)
  pdf θ w := density S (θ.map some) w
  loglik i θ w := graphLik S Z X n atOnce (schedule i) θ w
  tr := X.tr
  inv := X.inv
  jac := X.jac
  propose c t w := (S.update (c, t) w.seed w.clock).2.map fun pairs =>
    let o := correctOrdering S.g S.roots pairs (resetFlags S.g S.roots w.st)
    (⟨w.seed, o.1, (S.update (c, t) w.seed w.clock).1⟩, o.2)
  unif w := (⟨w.seed, w.st, (X.unif w.seed w.clock).1⟩, (X.unif w.seed w.clock).2)
  adapt := X.adapt
  eye := X.eye

/-! ### Specification: the same without a graph that stores values -/

/-- The likelihood of a vector. -/
noncomputable def vectorLik (S : Site α Y (Cov × List α)) (consts : Nat → Option α) (Z : Simulators α R) (X : Rest α R Cov) (n : Nat) (atOnce : Bool) (θ : List α) (p : Nat × Nat) : (Nat × Nat) × ℝ :=
  if atOnce then
    ((p.1, (dataAt S consts Z (θ.map some) p.1 n p.2).1), X.lik ((dataAt S consts Z (θ.map some) p.1 n p.2).2.getD []))
  else
    ((p.1, (X.draw p.1 n p.2).1), X.lik ((reshape (X.draw p.1 n p.2).2.length S.roots.length ((X.draw p.1 n p.2).2.map fun seed => (dataAt S consts Z (θ.map some) seed 1 0).2)).getD []))

/-- The environment of `Verif.Mcmc`, of which the theorems about chains speak; the generator is given by its seed and position. -/
noncomputable def mcmcEnv (S : Site α Y (Cov × List α)) (consts : Nat → Option α) (Z : Simulators α R) (X : Rest α R Cov) (n : Nat) (atOnce : Bool) : Mcmc.Env (Nat × Nat) α (List α) Cov where
  names := X.names
  prior p := ((aPrior S consts p).1, (aPrior S consts p).2.reduceOption)
  pdf θ := aPdf S consts (θ.map some)
  loglik := vectorLik S consts Z X n atOnce
  tr := X.tr
  inv := X.inv
  jac := X.jac
  propose c t p := ((p.1, (S.update (c, t) p.1 p.2).1), (correctOrdering S.g S.roots ((S.update (c, t) p.1 p.2).2.getD []) (fresh consts)).2)
  unif p := ((p.1, (X.unif p.1 p.2).1), (X.unif p.1 p.2).2)
  adapt := X.adapt
  eye := X.eye

/-- What is asked of the parts: the simulators return as many samples as they are asked for and take the parameters that the priors accept, as many seeds are drawn as are asked for, and the inverse
transformation keeps the number of parameters. -/
structure Usable (S : Site α Y (Cov × List α)) (consts : Nat → Option α) (Z : Simulators α R) (X : Rest α R Cov) : Prop where
  counts : Counts Z
  takes : ∀ θ, Fits S consts θ → Compatible S consts Z θ
  draws : ∀ k n c, (X.draw k n c).2.length = n
  inv : ∀ t θ, X.inv t = some θ → θ.length = t.length

/-- A process in order, at a position of the generator. -/
def At (S : Site α Y (Cov × List α)) (consts : Nat → Option α) (w : Worker α) (p : Nat × Nat) : Prop := Good S consts w.st ∧ w.pos = p

/-! ### Proofs -/

theorem dataParallel_eq (S : Site α Y (Cov × List α)) (hS : Plain S) (consts : Nat → Option α) (Z : Simulators α R) (θ : List (Option α)) (hθ : Fits S consts θ) (seeds : List Nat)
    (schedule : Option (List (Nat × Nat))) (hc : Scheduled seeds.length schedule) (st : St α) (hst : Good S consts st) :
    (dataParallel S Z θ seeds schedule st).2 = reshape seeds.length S.roots.length (seeds.map fun seed => (dataAt S consts Z θ seed 1 0).2) := by
  obtain ⟨m1, -⟩ := runMap_spec (dataTask S Z 1 θ) seeds (Good S consts) (fun seed => some (dataAt S consts Z θ seed 1 0).2) (fun seed _ s hs => dataTask_same S hS consts Z 1 θ hθ seed s hs) schedule hc st hst
  unfold dataParallel
  simp only
  rw [m1, show (seeds.map fun seed => some (dataAt S consts Z θ seed 1 0).2) = (seeds.map fun seed => (dataAt S consts Z θ seed 1 0).2).map some by rw [List.map_map]; rfl, collect_map_some, Option.bind_some]

theorem lik_same (S : Site α Y (Cov × List α)) (hS : Plain S) (consts : Nat → Option α) (Z : Simulators α R) (X : Rest α R Cov) (hX : Usable S consts Z X) (n : Nat) (atOnce : Bool)
    (schedule : Option (List (Nat × Nat))) (hc : Scheduled n schedule) (θ : List α) (hθ : Fits S consts (θ.map some)) (w : Worker α) (p : Nat × Nat) (hw : At S consts w p) :
    ∃ w', graphLik S Z X n atOnce schedule θ w = some (w', (vectorLik S consts Z X n atOnce θ p).2) ∧ At S consts w' (vectorLik S consts Z X n atOnce θ p).1 := by
  obtain ⟨hg, rfl⟩ := hw
  unfold graphLik vectorLik
  cases atOnce with
  | true =>
    obtain ⟨s, h1, h2, h3⟩ := store_same S hS consts _ hθ w hg
    have hcongr := simulateAll_congr S.g Z w.seed n s.value (valuesOf S consts (θ.map some)) S.roots (inputs_held S hS.toSound consts _ s h2 h3) w.clock
    obtain ⟨data, d1, -⟩ := (dataAt_spec S consts Z (θ.map some) w.seed n w.clock).1 (hX.takes _ hθ)
    simp only [if_true]
    unfold dataAtOnce
    rw [h1]
    simp only
    have e : simulateAll S.g Z w.seed n s.value S.roots w.clock = dataAt S consts Z (θ.map some) w.seed n w.clock := hcongr
    have hp : w.pos = (w.seed, w.clock) := rfl
    rw [e, hp]
    simp only [d1, Option.map_some, Option.getD_some]
    exact ⟨_, rfl, h2, rfl⟩
  | false =>
    simp only [Bool.false_eq_true, if_false]
    have hl := hX.draws w.seed n w.clock
    have hc' : Scheduled (X.draw w.seed n w.clock).2.length schedule := by rw [hl]; exact hc
    obtain ⟨g1, g2, -⟩ := C154_parallel_partial S hS consts Z hX.counts _ hθ (X.draw w.seed n w.clock).2 schedule hc' w.st hg
    obtain ⟨data, d1, -⟩ := g2 (hX.takes _ hθ)
    have he := dataParallel_eq S hS consts Z _ hθ (X.draw w.seed n w.clock).2 schedule hc' w.st hg
    have hp : w.pos = (w.seed, w.clock) := rfl
    rw [hp]
    simp only
    rw [← he, d1]
    exact ⟨_, rfl, g1, rfl⟩

theorem chain_follows (S : Site α Y (Cov × List α)) (hS : Plain S) (consts : Nat → Option α) (hd : Draws S consts) (hin : Inside S consts) (Z : Simulators α R) (X : Rest α R Cov) (hX : Usable S consts Z X) (n : Nat)
    (atOnce : Bool) (schedule : Nat → Option (List (Nat × Nat))) (hc : ∀ i, Scheduled n (schedule i)) :
    Mcmc.Follows (graphChain S Z X n atOnce schedule) (mcmcEnv S consts Z X n atOnce) (At S consts) (fun θ => θ.length = (order S.g S.roots).length) (fun θ => Fits S consts (θ.map some)) where
  names := rfl
  tr := rfl
  inv := rfl
  jac := rfl
  adapt := rfl
  eye := rfl
  prior w p hw := by
    obtain ⟨hg, rfl⟩ := hw
    obtain ⟨w', θ, p1, p2, p3, -, -⟩ := prior_same S hS consts hd w hg
    obtain ⟨ps, hps, hl, hk⟩ := hin w.pos
    have hθ : θ = ps.map some := by rw [p2] at hps; exact hps
    subst hθ
    refine ⟨w', ?_, ?_, ?_⟩
    · simp only [graphChain, mcmcEnv, p1, p2, Option.bind_some, collect_map_some, Option.map_some, reduce_map_some]
    · simp only [mcmcEnv, p2]
      exact ⟨p3, rfl⟩
    · simp only [mcmcEnv, p2, reduce_map_some]
      exact ⟨ps, rfl, hl, hk⟩
  pdf w p θ hw hl := by
    obtain ⟨hg, rfl⟩ := hw
    obtain ⟨s, p1, p2, -⟩ := pdf_same S hS consts θ hl w.st hg
    refine ⟨⟨w.seed, s, w.clock⟩, ?_, ⟨p2, rfl⟩, fits_of_pdf S hS consts θ hl⟩
    simp only [graphChain, mcmcEnv, density, reduce_map_some, p1]
  loglik i w p θ hw hθ := lik_same S hS consts Z X hX n atOnce (schedule i) (hc i) θ hθ w p hw
  propose c t w p hw := by
    obtain ⟨hg, rfl⟩ := hw
    cases hu : (S.update (c, t) w.seed w.clock).2 with
    | none => exact absurd hu (hS.noFail _ _ _)
    | some pairs =>
      have hcl := Kernel.clean_reset S.g S.roots w.st hg.clean
      obtain ⟨-, o2, o3⟩ := correctOrdering_eq S.g pairs S.roots _ hcl
      have he := ordering_same S pairs _ (fresh consts) hcl (fun _ => rfl)
      have hl := ordering_length S hS.toSound (c, t) w.seed w.clock pairs hu _ (fresh_good S consts).clean
      have hp : w.pos = (w.seed, w.clock) := rfl
      refine ⟨⟨w.seed, (correctOrdering S.g S.roots pairs (resetFlags S.g S.roots w.st)).1, (S.update (c, t) w.seed w.clock).1⟩, ?_, ⟨⟨o2, fun q hq => ?_⟩, ?_⟩, ?_⟩
      · simp only [graphChain, mcmcEnv, hp, hu, Option.map_some, Option.getD_some, he]
      · rw [o3, resetFlags_eq]
        exact hg.consts q hq
      · simp only [mcmcEnv, hp]
        rfl
      · intro θ hi
        simp only [mcmcEnv, hp, hu, Option.getD_some] at hi
        exact (hX.inv _ _ hi).trans hl
  unif w p hw := by
    obtain ⟨hg, rfl⟩ := hw
    exact ⟨rfl, hg, rfl⟩
  lenOk θ h := by
    obtain ⟨ps, h1, h2, -⟩ := h
    rw [List.map_inj_right (fun _ _ h => Option.some.inj h)] at h1
    rw [h1]
    exact h2

/-- **C155**, a call without journal file: on the graph of models, with the sequential backend, and with the MPI backend for every number of processes and order of tasks in every map, whatever the graph held before, the
journal is that of a chain over parameter vectors (to which C49, C72 and the other theorems about chains apply), or both raise. -/
theorem C155_fresh_partial (S : Site α Y (Cov × List α)) (hS : Plain S) (consts : Nat → Option α) (hd : Draws S consts) (hin : Inside S consts) (Z : Simulators α R) (X : Rest α R Cov) (hX : Usable S consts Z X) (n : Nat)
    (atOnce : Bool) (schedule : Nat → Option (List (Nat × Nat))) (hc : ∀ i, Scheduled n (schedule i)) (a : Mcmc.Args α Cov) (hini : ∀ θ, a.ini = some θ → Fits S consts (θ.map some)) (w : Worker α)
    (hw : Good S consts w.st) (counter : Nat) :
    ((graphChain S Z X n atOnce schedule).fresh a w counter).map (fun r => (r.1.pos, r.2)) = Mcmc.fresh (mcmcEnv S consts Z X n atOnce) a (w.seed, w.clock) counter := by
  rcases Mcmc.fresh_follows _ _ _ _ _ (chain_follows S hS consts hd hin Z X hX n atOnce schedule hc) a hini w w.pos ⟨hw, rfl⟩ counter with ⟨h1, h2⟩ | ⟨w', p, j, h1, h2, -, h3⟩
  · rw [h1]; exact h2.symm
  · rw [h1, Option.map_some, h3]; exact h2.symm

/-- **C155**, a call that continues a journal: the same. -/
theorem C155_restart_partial (S : Site α Y (Cov × List α)) (hS : Plain S) (consts : Nat → Option α) (hd : Draws S consts) (hin : Inside S consts) (Z : Simulators α R) (X : Rest α R Cov) (hX : Usable S consts Z X) (n : Nat)
    (atOnce : Bool) (schedule : Nat → Option (List (Nat × Nat))) (hc : ∀ i, Scheduled n (schedule i)) (a : Mcmc.Args α Cov) (w : Worker α) (hw : Good S consts w.st) (j : Mcmc.Jrn α Cov)
    (hj : ∀ θ ∈ j.chain, θ.length = (order S.g S.roots).length) :
    ((graphChain S Z X n atOnce schedule).restart a w j).map (fun r => (r.1.pos, r.2)) = Mcmc.restart (mcmcEnv S consts Z X n atOnce) a (w.seed, w.clock) j := by
  rcases Mcmc.restart_follows _ _ _ _ _ (chain_follows S hS consts hd hin Z X hX n atOnce schedule hc) a w w.pos ⟨hw, rfl⟩ j hj with ⟨h1, h2⟩ | ⟨w', p, j', h1, h2, -, h3⟩
  · rw [h1]; exact h2.symm
  · rw [h1, Option.map_some, h3]; exact h2.symm

/-- **C155**, in terms of two runs: the same seed gives the same journal on two backends, with two schedules and two graphs. -/
theorem C155_reproducible_partial (S : Site α Y (Cov × List α)) (hS : Plain S) (consts : Nat → Option α) (hd : Draws S consts) (hin : Inside S consts) (Z : Simulators α R) (X : Rest α R Cov) (hX : Usable S consts Z X) (n : Nat)
    (atOnce : Bool) (schedule schedule' : Nat → Option (List (Nat × Nat))) (hc : ∀ i, Scheduled n (schedule i)) (hc' : ∀ i, Scheduled n (schedule' i)) (a : Mcmc.Args α Cov)
    (hini : ∀ θ, a.ini = some θ → Fits S consts (θ.map some)) (seed clock : Nat) (st st' : St α) (hs : Good S consts st) (hs' : Good S consts st') (counter : Nat) :
    ((graphChain S Z X n atOnce schedule).fresh a ⟨seed, st, clock⟩ counter).map Prod.snd = ((graphChain S Z X n atOnce schedule').fresh a ⟨seed, st', clock⟩ counter).map Prod.snd := by
  have h1 := C155_fresh_partial S hS consts hd hin Z X hX n atOnce schedule hc a hini ⟨seed, st, clock⟩ hs counter
  have h2 := C155_fresh_partial S hS consts hd hin Z X hX n atOnce schedule' hc' a hini ⟨seed, st', clock⟩ hs' counter
  have := congrArg (Option.map Prod.snd) (h1.trans h2.symm)
  simpa only [Option.map_map, Function.comp_def] using this

/-! ### Instances -/

/-- The sum of the data as likelihood, no transformation. -/
noncomputable def exRest : Rest Int Int Unit where
  names := ["a"]
  draw k n c := (c + n, (List.range n).map fun i => k + c + i)
  unif _ c := (c + 1, 1 / 2)
  lik y := ((y.flatten.sum : ℤ) : ℝ)
  tr := some
  inv := some
  jac _ := some 0
  adapt _ := ()
  eye _ := ()

theorem ex_usable (f : Unit × List Int → Nat) (consts : Nat → Option Int) : Usable (plainFor f) consts exSims exRest :=
  ⟨fun _ _ _ _ _ => by simp [exSims], fun _ _ _ _ => rfl, fun _ _ _ => by simp [exRest], fun t θ h => by simp only [exRest, Option.some.injEq] at h; rw [h]⟩

/-- The hypotheses of the theorems are met, with the MPI backend and two tasks in reverse order. -/
example (consts : Nat → Option Int) (seed : Nat) :
    ((graphChain (plainFor fun _ => 3) exSims exRest 2 false fun _ => some [(1, 1), (0, 0)]).fresh ⟨3, 1, none, some [7], none⟩ ⟨seed, fresh consts, 0⟩ 0).map Prod.snd =
      ((graphChain (plainFor fun _ => 3) exSims exRest 2 false fun _ => none).fresh ⟨3, 1, none, some [7], none⟩ ⟨seed, fresh consts, 0⟩ 0).map Prod.snd :=
  C155_reproducible_partial _ (plainFor_plain _) consts (plainFor_draws _ consts) (plainFor_inside _ consts) exSims exRest (ex_usable _ consts) 2 false _ _
    (fun _ l hl => by simp only [Option.some.injEq] at hl; subst hl; exact List.Perm.swap 0 1 []) (fun _ l hl => by cases hl) _
    (fun θ h => by simp only [Option.some.injEq] at h; subst h; exact plain_fits consts 7 (by decide)) seed 0 _ _ (fresh_good _ consts) (fresh_good _ consts) 0

/-- A graph that holds `x`. -/
def holding (x : Int) : St Int := ⟨fun _ => false, fun _ => false, fun v => if v = 1 then some x else none⟩

theorem holding_good {K : Type} (f : K → Nat) (x : Int) : Good (plainFor f) (fun _ => none) (holding x) := by
  refine ⟨fun _ => rfl, fun q hq => ?_⟩
  have : q ≠ 1 := by rintro rfl; exact absurd hq (by simp [plainFor, plain, lineG])
  simp [holding, this]

theorem not_fits {K : Type} (f : K → Nat) (x : Int) (hx : 100 < x) : ¬ Fits (plainFor f) (fun _ => none) [some x] := by
  rintro ⟨ps, h1, -, k, hk⟩
  have hps : ps = [x] := by
    have : ([x].map some : List (Option Int)) = ps.map some := h1
    rw [List.map_inj_right (fun _ _ h => Option.some.inj h)] at this
    exact this.symm
  subst hps
  have ho : order (plainFor f).g (plainFor f).roots = [1] := lineG_order
  have key := setParameters_eq (plainFor f).g (plainFor f).chk [x] (plainFor f).roots lineG_apart (fresh fun _ => none) (fun _ => rfl)
  have hn : ¬ (0 ≤ x ∧ x ≤ 100) := by omega
  rw [ho] at key
  simp only [assignInOrder, List.getElem?_cons_zero, plainFor, plain, hn, if_false] at key
  rw [show (setParameters (plainFor f).g (plainFor f).chk (plainFor f).roots [x] (fresh fun _ => none)).2 = _ from key.1] at hk
  cases hk

/-- **C155** fails for a starting point that a prior refuses: with the starting point 150 and two graphs that hold 5 and 6 the journals differ (in the likelihood of the last state, from which a restart goes on). -/
theorem C155_refused_violated : ∃ w w' j j', Good (plainFor fun _ : Unit × List Int => 200) (fun _ => none) (holding 5) ∧ Good (plainFor fun _ : Unit × List Int => 200) (fun _ => none) (holding 6) ∧
    (graphChain (plainFor fun _ => 200) exSims exRest 1 true fun _ => none).fresh ⟨1, 0, none, some [150], none⟩ ⟨0, holding 5, 0⟩ 0 = some (w, j) ∧
    (graphChain (plainFor fun _ => 200) exSims exRest 1 true fun _ => none).fresh ⟨1, 0, none, some [150], none⟩ ⟨0, holding 6, 0⟩ 0 = some (w', j') ∧ j.ll = 5 ∧ j'.ll = 6 := by
  have main : ∀ x : Int, ∃ w j, (graphChain (plainFor fun _ : Unit × List Int => 200) exSims exRest 1 true fun _ => none).fresh ⟨1, 0, none, some [150], none⟩ ⟨0, holding x, 0⟩ 0 = some (w, j) ∧ j.ll = x := by
    intro x
    have hF := chain_follows (plainFor fun _ : Unit × List Int => 200) (plainFor_plain _) (fun _ => none) (plainFor_draws _ _) (plainFor_inside _ _) exSims exRest (ex_usable _ _) 1 true (fun _ => none) (fun _ l hl => by cases hl)
    have ho : order (plainFor fun _ : Unit × List Int => 200).g (plainFor fun _ : Unit × List Int => 200).roots = [1] := lineG_order
    have hlik : ∃ st, Good (plainFor fun _ : Unit × List Int => 200) (fun _ => none) st ∧ graphLik (plainFor fun _ : Unit × List Int => 200) exSims exRest 1 true none [150] ⟨0, holding x, 0⟩ = some (⟨0, st, 1⟩, (x : ℝ)) := by
      have key := setParameters_eq plain.g plain.chk [150] plain.roots plain_plain.apart (holding x) (fun _ => rfl)
      rw [show order plain.g plain.roots = [1] from lineG_order] at key
      have hn : ¬ ((0:ℤ) ≤ 150 ∧ (150:ℤ) ≤ 100) := by omega
      simp only [assignInOrder, List.getElem?_cons_zero, plain, hn, if_false] at key
      obtain ⟨k1, k2, k3⟩ := key
      refine ⟨(setParameters plain.g plain.chk plain.roots [150] (holding x)).1, ⟨k3, fun q hq => ?_⟩, ?_⟩
      · have := (holding_good (fun _ : Unit × List Int => 200) x).consts q hq
        rw [← this]
        exact congrFun k2 q
      · have hst : store (plainFor fun _ : Unit × List Int => 200) ([150].map some) ⟨0, holding x, 0⟩ = some ⟨0, (setParameters plain.g plain.chk plain.roots [150] (holding x)).1, 0⟩ := by
          change store plain ([150].map some) ⟨0, holding x, 0⟩ = _
          unfold store
          rw [reduce_map_some]
          simp only
          have k1' : (setParameters plain.g plain.chk plain.roots [150] (holding x)).2 = _ := k1
          cases hsp : setParameters plain.g plain.chk plain.roots [150] (holding x) with
          | mk s r =>
            rw [hsp] at k1'
            simp only at k1'
            subst k1'
            rfl
        have k2' : (setParameters plain.g plain.chk plain.roots [150] (holding x)).1.value 1 = some x := (congrFun k2 1).trans rfl
        unfold graphLik dataAtOnce
        rw [hst]
        generalize setParameters plain.g plain.chk plain.roots [150] (holding x) = sp at k2'
        have hr : (plainFor fun _ : Unit × List Int => 200).roots = [2] := rfl
        have hp : (plainFor fun _ : Unit × List Int => 200).g.parents 2 = [1] := rfl
        simp [hr, hp, simulateAll, exSims, k2', exRest]
    obtain ⟨st, g1, l1⟩ := hlik
    obtain ⟨w1, d1, d2, -⟩ := hF.pdf ⟨0, st, 1⟩ _ [150] ⟨g1, rfl⟩ (by rw [ho]; rfl)
    obtain ⟨w2, p1, p2, p3⟩ := hF.propose () [150] w1 _ d2
    have hθ : ((mcmcEnv (plainFor fun _ : Unit × List Int => 200) (fun _ => none) exSims exRest 1 true).propose () [150] (Worker.pos (⟨0, st, 1⟩ : Worker Int))).2 = [201] := by
      simp only [mcmcEnv, Worker.pos]
      change (correctOrdering lineG [2] [(1, [((200 + 0 + 1 : ℕ) : Int)])] (fresh fun _ => none)).2 = [201]
      rw [(C09_ordering lineG [2] lineG_apart (fresh fun _ => none) (fun _ => rfl) [(1, [((200 + 0 + 1 : ℕ) : Int)])] (by simp) (by rw [lineG_order]; simp)).1, lineG_order]
      rfl
    rw [hθ] at p1
    obtain ⟨w3, e1, e2, e3⟩ := hF.pdf w2 _ [201] p2 (by rw [ho]; rfl)
    have h0 : (mcmcEnv (plainFor fun _ : Unit × List Int => 200) (fun _ => none) exSims exRest 1 true).pdf [201] = 0 := by
      by_contra hne
      exact not_fits _ 201 (by norm_num) (e3 hne)
    rw [h0] at e1
    have hstep : ∀ (s : Mcmc.State (Worker Int) Int (List Int) Unit), s.w = w1 → s.curT = [150] →
        (graphChain (plainFor fun _ : Unit × List Int => 200) exSims exRest 1 true fun _ => none).step 0 none 0 s = some ({ s with w := w3 }.record 0 0) := by
      intro s h1 h2
      unfold Mcmc.Obj.step
      rw [h1, h2]
      rw [show s.cov = () from rfl, p1, Option.bind_some]
      rw [show (graphChain (plainFor fun _ : Unit × List Int => 200) exSims exRest 1 true fun _ => none).inv [201] = some [201] from rfl, Option.bind_some, e1, Option.bind_some]
      simp only [if_true]
    unfold Mcmc.Obj.fresh Mcmc.Obj.initial
    simp only [Option.bind_some]
    rw [show (graphChain (plainFor fun _ : Unit × List Int => 200) exSims exRest 1 true fun _ => none).loglik 0 [150] ⟨0, holding x, 0⟩ = _ from l1, Option.bind_some]
    unfold Mcmc.Obj.begin_
    simp only
    rw [d1]
    rw [show (graphChain (plainFor fun _ : Unit × List Int => 200) exSims exRest 1 true fun _ => none).tr [150] = some [150] from rfl,
      show (graphChain (plainFor fun _ : Unit × List Int => 200) exSims exRest 1 true fun _ => none).jac [150] = some 0 from rfl]
    simp only [Option.bind_some]
    rw [show List.range (0 + 1) = [0] from rfl, Mcmc.Obj.loop, hstep _ rfl rfl, Option.bind_some, Mcmc.Obj.loop, Option.bind_some]
    simp only [one_ne_zero, if_false]
    exact ⟨_, _, rfl, rfl⟩
  obtain ⟨w, j, h1, h2⟩ := main 5
  obtain ⟨w', j', h1', h2'⟩ := main 6
  exact ⟨w, w', j, j', holding_good _ 5, holding_good _ 6, h1, h1', by simpa using h2, by simpa using h2'⟩

end Verif.Site
