import Verif.Site.Tasks
/-
Whole runs of the samplers on the graph of models: the process that runs `sample` has a graph of its own, and every map of tasks is run by the sequential backend on that graph or by the MPI backend on copies of it.
What `sample` does between the maps is as in `Verif.Pmc` and other directories; it reads populations only (the manager of the accepted parameters and the kernels do not read values of nodes).
-/
namespace Verif.Site

open Graph

variable {T A α Y K M : Type}

/-- A task, if there is one. -/
def onTask {S : Type} (run : T → S → S × Option A) : Option T → S → S × Option A
  | none, s => (s, none)
  | some t, s => run t s

/-- `map` and `collect` with the sequential backend (`none`; base.py 153-190) or the MPI backend with a schedule (mpi.py 307-331, 423-442): the new object of the calling process, and the results in the order of the
tasks. -/
def runMap {S : Type} (run : T → S → S × Option A) (tasks : List T) (schedule : Option (List (Nat × Nat))) (s : S) : S × List (Option A) :=
  match schedule with
  | none => Schedule.mapSequential (onTask run) (fun i => tasks[i]?) tasks.length s
  | some l => (s, (Schedule.mapMpi (onTask run) (fun i => tasks[i]?) tasks.length l s).map Option.join)

/-! ### PMCABC -/

/-- `_calculate_weight`, inferences.py 1028-1057: the density stores the vector. -/
noncomputable def weightTask (S : Site α Y K) (kern : Pmc.Pop (List (Option α)) → List (Option α) → List (Option α) → ℝ) (n : Nat) (pop : Option (Pmc.Pop (List (Option α)))) (θ : List (Option α)) (st : St α) :
    St α × Option ℝ :=
  match pop with
  | none => (st, some (1 / n))
  | some p => match density S θ ⟨0, st, 0⟩ with
    | none => (st, none)
    | some (w, d) => (w.st, some (d / (List.zipWith (fun w a => w * kern p a θ) p.weights p.params).sum))

/-- Iteration `t` of `PMCABC.sample`, lines 875-941, with two maps; `seeds` are drawn at 877. -/
noncomputable def pmcStep (S : Site α Y (Pmc.Pop (List (Option α)) × Nat)) (kern : Pmc.Pop (List (Option α)) → List (Option α) → List (Option α) → ℝ) (steps : Nat) (pct : ℝ) (fuel t : Nat) (seeds : List Nat)
    (schedule schedule' : Option (List (Nat × Nat))) (st : St α) (s : Pmc.State (List (Option α))) : Option (St α × Pmc.State (List (Option α))) :=
  match s.epsArr[t]? with
  | some (some eps) =>
    if s.pop.all fun p => p.weights.length = seeds.length ∧ p.params.length = seeds.length then
      let m := runMap (resampleTask S eps s.pop fuel) seeds schedule st
      match collect m.2 with
      | none => none
      | some res =>
        match Pmc.nextEps steps t pct (res.map (·.2.1)) s.epsArr with
        | none => none
        | some epsArr =>
          let m' := runMap (weightTask S kern seeds.length s.pop) (res.map (·.1)) schedule' m.1
          match collect m'.2 with
          | none => none
          | some raw => some (m'.1, ⟨epsArr, some ⟨res.map (·.1), Pmc.normalise raw⟩, s.counter + (res.map (·.2.2)).sum, s.hist ++ [⟨eps, res.map (·.1), res.map (·.2.1), Pmc.normalise raw⟩]⟩)
    else none
  | _ => none

/-- The loop of lines 847-963. -/
noncomputable def pmcLoop (S : Site α Y (Pmc.Pop (List (Option α)) × Nat)) (kern : Pmc.Pop (List (Option α)) → List (Option α) → List (Option α) → ℝ) (steps : Nat) (pct : ℝ) (fuel : Nat) (seeds : Nat → List Nat)
    (schedule schedule' : Nat → Option (List (Nat × Nat))) : Nat → Nat → St α → Pmc.State (List (Option α)) → Option (St α × Pmc.State (List (Option α)))
  | 0, _, st, s => some (st, s)
  | k + 1, t, st, s => match pmcStep S kern steps pct fuel t (seeds t) (schedule t) (schedule' t) st s with
    | none => none
    | some (st, s) => pmcLoop S kern steps pct fuel seeds schedule schedule' k (t + 1) st s

/-- `PMCABC.sample`, lines 770-965. -/
noncomputable def pmcRun (S : Site α Y (Pmc.Pop (List (Option α)) × Nat)) (kern : Pmc.Pop (List (Option α)) → List (Option α) → List (Option α) → ℝ) (steps : Nat) (epsInit : List ℝ) (pct : ℝ) (fuel : Nat)
    (seeds : Nat → List Nat) (schedule schedule' : Nat → Option (List (Nat × Nat))) (before : Option (Pmc.Pop (List (Option α)))) (counter : Nat) (st : St α) : Option (St α × Pmc.State (List (Option α))) :=
  match Pmc.initEps epsInit steps with
  | none => none
  | some arr => pmcLoop S kern steps pct fuel seeds schedule schedule' steps 0 st ⟨arr, before, counter, []⟩

/-! ### APMCABC -/

/-- Iteration `t` of `APMCABC.sample`, lines 2992-3083. -/
noncomputable def apmcStep (S : Site α Y K) (req : Pmc.Pop (List (Option α)) → Nat → K) (kern : Pmc.Pop (List (Option α)) → List (Option α) → List (Option α) → ℝ) (c : Apmc.Config) (fuel t : Nat) (seeds : List Nat)
    (schedule : Option (List (Nat × Nat))) (st : St α) (s : Apmc.State (List (Option α))) : Option (St α × Apmc.State (List (Option α))) :=
  if seeds.length ≠ Apmc.wanted c t ∨ seeds = [] then none
  else
    let m := runMap (runTask fun _ => apmcTask S req kern fuel (Apmc.seen s)) seeds.zipIdx schedule st
    match collect m.2 with
    | none => none
    | some out => match Pmc.percentile (Apmc.merge c s out).2.1 (c.alpha * 100) with
      | none => none
      | some eps =>
        let r := Apmc.keep eps (Apmc.merge c s out)
        some (m.1, ⟨(if out.length = c.n then [] else s.epsilons) ++ [eps], s.hist ++ [r],
          if c.full then s.journal ++ [r] else if t = c.steps - 1 then [r] else s.journal, Apmc.acceptance c s out < c.cutoff⟩)

noncomputable def apmcLoop (S : Site α Y K) (req : Pmc.Pop (List (Option α)) → Nat → K) (kern : Pmc.Pop (List (Option α)) → List (Option α) → List (Option α) → ℝ) (c : Apmc.Config) (fuel : Nat) (seeds : Nat → List Nat)
    (schedule : Nat → Option (List (Nat × Nat))) : Nat → Nat → St α → Apmc.State (List (Option α)) → Option (St α × Apmc.State (List (Option α)))
  | 0, _, st, s => some (st, s)
  | k + 1, t, st, s => if s.stopped then some (st, s) else match apmcStep S req kern c fuel t (seeds t) (schedule t) st s with
    | none => none
    | some (st, s) => apmcLoop S req kern c fuel seeds schedule k (t + 1) st s

/-- `APMCABC.sample`, lines 2891-3093. -/
noncomputable def apmcRun (S : Site α Y K) (req : Pmc.Pop (List (Option α)) → Nat → K) (kern : Pmc.Pop (List (Option α)) → List (Option α) → List (Option α) → ℝ) (c : Apmc.Config) (fuel : Nat) (seeds : Nat → List Nat)
    (schedule : Nat → Option (List (Nat × Nat))) (st : St α) : Option (St α × Apmc.State (List (Option α))) :=
  apmcLoop S req kern c fuel seeds schedule c.steps 0 st ⟨[], [], [], false⟩

/-! ### SMCABC -/

/-- Iteration `t` of `SMCABC.sample` after the test of line 3438; which of the tasks is mapped: 3539-3544 (with the default for `r`), and in the first step all three do the same. -/
noncomputable def smcStep (S : Site α Y K) (R : Rng) (consts : Nat → Option α) (req : Pmc.Pop (List (Option α)) → Nat → K) (around : Pmc.Pop (List (Option α)) → List (Option α) → K)
    (kern : Pmc.Pop (List (Option α)) → List (Option α) → List (Option α) → ℝ) (dists : Y → List ℝ) (c : Smc.Config) (dr : Smc.Draws) (fuel t : Nat) (seeds : List Nat) (schedule : Option (List (Nat × Nat)))
    (st : St α) (s : Smc.State (List (Option α)) Y) : Option (St α × Smc.State (List (Option α)) Y) :=
  match s.last with
  | none =>
    let m := runMap (runTask fun _ => smcFirst S) seeds.zipIdx schedule st
    match collect m.2 with
    | none => none
    | some l => some (m.1, Smc.save c t s s.past s.cur (Smc.equalWeights c.n) l)
  | some p =>
    match Smc.newEps (smcEnv S R consts req around kern dists) c dr fuel s.cur p with
    | none => none
    | some eps => match Smc.newWeights (smcEnv S R consts req around kern dists) c s.cur eps p with
      | none => none
      | some wts => match Smc.resampled c dr t p.params wts with
        | none => none
        | some q =>
          let m := runMap (runTask (smcTask S R req around kern dists c.which (if c.which = 1 then c.r.getD 3 else c.r.getD 2) fuel eps q p.sims)) seeds.zipIdx schedule st
          match collect m.2 with
          | none => none
          | some l => some (m.1, Smc.save c t s (s.past ++ [s.cur]) eps q.weights l)

/-- The loop of lines 3406-3574. -/
noncomputable def smcLoop (S : Site α Y K) (R : Rng) (consts : Nat → Option α) (req : Pmc.Pop (List (Option α)) → Nat → K) (around : Pmc.Pop (List (Option α)) → List (Option α) → K)
    (kern : Pmc.Pop (List (Option α)) → List (Option α) → List (Option α) → ℝ) (dists : Y → List ℝ) (c : Smc.Config) (dr : Smc.Draws) (fuel : Nat) (seeds : Nat → List Nat)
    (schedule : Nat → Option (List (Nat × Nat))) : Nat → Nat → St α → Smc.State (List (Option α)) Y → Option (St α × Smc.State (List (Option α)) Y)
  | 0, _, st, s => some (st, s)
  | k + 1, t, st, s =>
    if s.cur ≤ c.final then some (st, s)
    else match smcStep S R consts req around kern dists c dr fuel t (seeds t) (schedule t) st s with
      | none => none
      | some (st, s) => smcLoop S R consts req around kern dists c dr fuel seeds schedule k (t + 1) st s

open Classical in
/-- `SMCABC.sample`, lines 3273-3576; of the environment only the distances of the single data sets are used here. -/
noncomputable def smcRun (S : Site α Y K) (R : Rng) (consts : Nat → Option α) (req : Pmc.Pop (List (Option α)) → Nat → K) (around : Pmc.Pop (List (Option α)) → List (Option α) → K)
    (kern : Pmc.Pop (List (Option α)) → List (Option α) → List (Option α) → ℝ) (dists : Y → List ℝ) (c : Smc.Config) (dr : Smc.Draws) (fuel : Nat) (seeds : Nat → List Nat)
    (schedule : Nat → Option (List (Nat × Nat))) (st : St α) : Option (St α × Smc.State (List (Option α)) Y) :=
  if c.which ≤ 2 ∧ ¬ (c.bernton = true ∧ c.which = 0) ∧ ∀ t, (seeds t).length = c.n then
    smcLoop S R consts req around kern dists c dr fuel seeds schedule c.steps 0 st ⟨[], S.distMax.getD (10 ^ 5), none, [], 0, 0⟩
  else none

/-! ### RSMCABC -/

/-- Iteration `t` of `RSMCABC.sample`, lines 2590-2719. -/
noncomputable def rsmcStep (S : Site α Y K) (R : Rng) (req : Pmc.Pop (List (Option α)) → Nat → K) (kern : Pmc.Pop (List (Option α)) → List (Option α) → List (Option α) → ℝ) (c : Rsmc.Config) (fuel t : Nat)
    (seeds : List Nat) (schedule : Option (List (Nat × Nat))) (st : St α) (s : Rsmc.State (List (Option α))) : Except Rsmc.Fail (St α × Rsmc.State (List (Option α))) :=
  match Rsmc.threshold c s with
  | none => .error .other
  | some eps =>
    if eps < c.epsFinal then .error .stopping
    else if seeds.length ≠ Rsmc.wanted c s ∨ seeds = [] then .error .other
    else
      let m := runMap (runTask fun _ => rsmcTask S R req kern fuel eps (Rsmc.seen s) s.moves.toNat) seeds.zipIdx schedule st
      match collect m.2 with
      | none => .error .other
      | some out => match collect (out.map Rsmc.Out.d) with
        | none => .error .other
        | some ds => match Rsmc.nextMoves c s.moves seeds.length (out.map Rsmc.Out.accepted).sum with
          | none => .error .other
          | some moves =>
            let r : Rsmc.Rec (List (Option α)) := ⟨eps, s.moves, (Rsmc.base c s out.length).1 ++ out.map Rsmc.Out.θ, (Rsmc.base c s out.length).2 ++ ds⟩
            .ok (m.1, ⟨s.epsilons ++ [eps], some (Rsmc.trim c r.params r.distances), moves, s.hist ++ [r],
              if c.full then s.journal ++ [r] else if t = c.steps - 1 then [r] else s.journal, s.counter + (out.map Rsmc.Out.count).sum⟩)

noncomputable def rsmcLoop (S : Site α Y K) (R : Rng) (req : Pmc.Pop (List (Option α)) → Nat → K) (kern : Pmc.Pop (List (Option α)) → List (Option α) → List (Option α) → ℝ) (c : Rsmc.Config) (fuel : Nat)
    (seeds : Nat → List Nat) (schedule : Nat → Option (List (Nat × Nat))) : Nat → Nat → St α → Rsmc.State (List (Option α)) → Except Rsmc.Fail (St α × Rsmc.State (List (Option α)))
  | 0, _, st, s => .ok (st, s)
  | k + 1, t, st, s => match rsmcStep S R req kern c fuel t (seeds t) (schedule t) st s with
    | .error e => .error e
    | .ok (st, s) => rsmcLoop S R req kern c fuel seeds schedule k (t + 1) st s

/-- `RSMCABC.sample`, lines 2512-2737. -/
noncomputable def rsmcRun (S : Site α Y K) (R : Rng) (req : Pmc.Pop (List (Option α)) → Nat → K) (kern : Pmc.Pop (List (Option α)) → List (Option α) → List (Option α) → ℝ) (c : Rsmc.Config) (fuel : Nat)
    (seeds : Nat → List Nat) (schedule : Nat → Option (List (Nat × Nat))) (st : St α) : Except Rsmc.Fail (St α × Rsmc.State (List (Option α))) :=
  rsmcLoop S R req kern c fuel seeds schedule c.steps 0 st ⟨[], none, 1, [], [], 0⟩

/-! ### SABC -/

/-- Iteration `t` of `SABC.sample`, lines 1686-1857. -/
noncomputable def sabcStep (S : Site α Y K) (R : Rng) (consts : Nat → Option α) (req : Pmc.Pop (List (Option α)) → Nat → K) (temper : ℝ → ℝ) (pick : Nat → List ℝ → List Nat) (c : Sabc.Config) (fuel t : Nat)
    (seeds : List Nat) (schedule : Option (List (Nat × Nat))) (st : St α) (s : Sabc.State (List (Option α))) : Option (St α × Sabc.State (List (Option α))) :=
  if seeds.length ≠ (if t = 0 then c.n else c.nUpdate) ∨ seeds = [] then none
  else
    let m := if t = 0 then runMap (runTask fun _ w => sabcFirst S R c.eps 0 fuel w [] 0) seeds.zipIdx schedule st else runMap (runTask fun _ => sabcMove S R req fuel c.n s) seeds.zipIdx schedule st
    match collect m.2 with
    | none => none
    | some out => match (if t = 0 then Sabc.begin_ out else Sabc.replace s out) with
      | none => none
      | some p =>
        let counter := s.counter + (out.map Sabc.Out.count).sum
        if t = 0 then
          match collect (p.2.2.2.map (Sabc.smooth p.2.2.2)) with
          | none => none
          | some l =>
            let u := Sabc.average l c.eps
            (Sabc.finish (sabcEnv S R consts req temper pick) c t u ⟨p.1, p.2.1, p.2.2.1, p.2.2.2, temper u, 0, 0, s.journal, counter, false⟩).map fun s => (m.1, s)
        else
          let u := Sabc.mean p.2.2.1
          let accept := s.accept + out.countP Sabc.Out.accepted
          let s' : Sabc.State (List (Option α)) := ⟨p.1, p.2.1, p.2.2.1, p.2.2.2, temper u, accept, s.until_ + c.nUpdate, s.journal, counter, false⟩
          if (accept : ℝ) / (s.until_ + c.nUpdate : ℕ) < c.cutoff then some (m.1, { s' with stopped := true })
          else (Sabc.finish (sabcEnv S R consts req temper pick) c t u s').map fun s => (m.1, s)

noncomputable def sabcLoop (S : Site α Y K) (R : Rng) (consts : Nat → Option α) (req : Pmc.Pop (List (Option α)) → Nat → K) (temper : ℝ → ℝ) (pick : Nat → List ℝ → List Nat) (c : Sabc.Config) (fuel : Nat)
    (seeds : Nat → List Nat) (schedule : Nat → Option (List (Nat × Nat))) : Nat → Nat → St α → Sabc.State (List (Option α)) → Option (St α × Sabc.State (List (Option α)))
  | 0, _, st, s => some (st, s)
  | k + 1, t, st, s => if s.stopped then some (st, s) else match sabcStep S R consts req temper pick c fuel t (seeds t) (schedule t) st s with
    | none => none
    | some (st, s) => sabcLoop S R consts req temper pick c fuel seeds schedule k (t + 1) st s

/-- `SABC.sample`, lines 1561-1859. -/
noncomputable def sabcRun (S : Site α Y K) (R : Rng) (consts : Nat → Option α) (req : Pmc.Pop (List (Option α)) → Nat → K) (temper : ℝ → ℝ) (pick : Nat → List ℝ → List Nat) (c : Sabc.Config) (fuel : Nat)
    (seeds : Nat → List Nat) (schedule : Nat → Option (List (Nat × Nat))) (st : St α) : Option (St α × Sabc.State (List (Option α))) :=
  sabcLoop S R consts req temper pick c fuel seeds schedule c.steps 0 st ⟨[], [], [], [], c.eps, 0, 0, [], 0, false⟩

/-! ### ABCsubsim -/

/-- `_accept_parameter` in the first step, lines 2338-2343. -/
noncomputable def subsimFirst (S : Site α Y K) (w : Worker α) : Option (Worker α × List (List (Option α)) × List ℝ) :=
  match priorDraw S w with
  | none => none
  | some (w, _) =>
    let r := simulate S w
    let q := readOut S r.1
    some (q.1, [q.2], [S.dist r.2])

/-- Iteration `t` of `ABCsubsim.sample`, lines 2162-2282, with two maps. -/
noncomputable def subsimStep (S : Site α Y K) (R : Rng) (req : List M → List (Option α) → K) (kern : List M → List (Option α) → List (Option α) → ℝ)
    (cov : Pmc.Pop (List (Option α)) → List M) (scale : Nat → M → M) (c : Subsim.Config) (fuel t : Nat) (seeds seeds' : List Nat) (schedule schedule' : Option (List (Nat × Nat)))
    (st : St α) (s : Subsim.State (List (Option α)) M) : Option (St α × Subsim.State (List (Option α)) M) :=
  if seeds.length ≠ (if t = 0 then c.n else c.n / c.length) ∨ seeds = [] ∨ c.length = 0 ∨ seeds'.length ≠ 10 then none
  else
    let old := s.hist.getLast?
    let m := match old with
      | none => runMap (runTask fun _ => subsimFirst S) seeds.zipIdx schedule st
      | some o => runMap (runTask (subsimTask S R req kern fuel c.length o.1.covs o.2 s.base o.1.params)) seeds.zipIdx schedule st
    match collect m.2 with
    | none => none
    | some out =>
      let l := Subsim.sorted (out.map Prod.fst).flatten (out.map Prod.snd).flatten
      let params := l.map Prod.snd
      let distances := l.map Prod.fst
      let weights := List.replicate c.n (1 : ℝ)
      match distances[c.n / c.length]?, distances[c.n / c.length + 1]? with
      | some a, some b =>
        let anneal := (1 / 2) * (a + b)
        let base := match old with | none => params | some _ => s.base
        let covs := match old with | none => cov ⟨params, weights⟩ | some o => o.1.covs ++ o.1.covs
        let m' := runMap (runTask (subsimTune S R req kern scale fuel c.length covs anneal base (match old with | none => params | some o => o.1.params))) seeds'.zipIdx schedule' m.1
        match collect m'.2 with
        | none => none
        | some tuned =>
          let covs' := match tuned.find? Prod.snd with | some m => m.1 | none => covs
          let counter := (match old with | none => c.n | some o => o.1.counter + c.n / c.length * c.length) + 10 * c.length
          let r : Subsim.Rec (List (Option α)) M := ⟨params, distances, weights, covs', counter⟩
          if anneal = 0 then none
          else some (m'.1, ⟨s.hist ++ [(r, anneal)], if c.full then s.journal ++ [r] else s.journal, base,
            100 * |(old.map Prod.snd).getD 0 - anneal| / |anneal| < c.cutoff⟩)
      | _, _ => none

noncomputable def subsimLoop (S : Site α Y K) (R : Rng) (req : List M → List (Option α) → K) (kern : List M → List (Option α) → List (Option α) → ℝ)
    (cov : Pmc.Pop (List (Option α)) → List M) (scale : Nat → M → M) (c : Subsim.Config) (fuel : Nat) (seeds seeds' : Nat → List Nat) (schedule schedule' : Nat → Option (List (Nat × Nat))) :
    Nat → Nat → St α → Subsim.State (List (Option α)) M → Option (St α × Subsim.State (List (Option α)) M)
  | 0, _, st, s => some (st, s)
  | k + 1, t, st, s => if s.stopped then some (st, s) else match subsimStep S R req kern cov scale c fuel t (seeds t) (seeds' t) (schedule t) (schedule' t) st s with
    | none => none
    | some (st, s) => subsimLoop S R req kern cov scale c fuel seeds seeds' schedule schedule' k (t + 1) st s

/-- `ABCsubsim.sample`, lines 2094-2298. -/
noncomputable def subsimRun (S : Site α Y K) (R : Rng) (req : List M → List (Option α) → K) (kern : List M → List (Option α) → List (Option α) → ℝ)
    (cov : Pmc.Pop (List (Option α)) → List M) (scale : Nat → M → M) (c : Subsim.Config) (fuel : Nat) (seeds seeds' : Nat → List Nat) (schedule schedule' : Nat → Option (List (Nat × Nat))) (st : St α) :
    Option (St α × Subsim.State (List (Option α)) M) :=
  (subsimLoop S R req kern cov scale c fuel seeds seeds' schedule schedule' c.steps 0 st ⟨[], [], [], false⟩).map fun e =>
    (e.1, { e.2 with journal := if c.full then e.2.journal else (e.2.hist.getLast?.map Prod.fst).toList })

end Verif.Site
