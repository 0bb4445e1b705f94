import Verif.Site.Model
import Verif.Smc.Model
import Verif.Rsmc.Model
import Verif.Apmc.Model
import Verif.Sabc.Model
import Verif.Subsim.Model
/-
The tasks of SMCABC, RSMCABC, APMCABC, SABC and ABCsubsim on the graph of models. `req` says what a sampler asks the kernel for: a perturbation of a particle of a population. Particles are lists of optional values
(`get_parameters` returns `None` for a node without value); `pdf_of_prior` and `set_parameters` are called with the values that are there.
-/
namespace Verif.Site

open Graph

/-- Other uses of the stream of random numbers of a task: `rng.binomial(1, a)`, `rng.rand`, `rng.choice(n)`, `rng.choice(list)`, each with seed and position. -/
structure Rng where
  flip : ℝ → Nat → Nat → Nat × Bool
  uniform : Nat → Nat → Nat × ℝ
  index : Nat → Nat → Nat → Nat × Nat
  pick : List Nat → Nat → Nat → Nat × Nat

variable {α Y K : Type}

/-- A use of the stream. -/
def advance {A : Type} (f : Nat → Nat → Nat × A) (w : Worker α) : Worker α × A := (⟨w.seed, w.st, (f w.seed w.clock).1⟩, (f w.seed w.clock).2)

/-- `pdf_of_prior`, graphtools.py 90-187; it stores the vector. -/
noncomputable def density (S : Site α Y K) (θ : List (Option α)) (w : Worker α) : Option (Worker α × ℝ) :=
  match pdfOfPrior S.g S.chk S.dens S.roots θ.reduceOption w.st with
  | (_, none) => none
  | (s, some d) => some (⟨w.seed, s, w.clock⟩, d)

/-- `set_parameters`, graphtools.py 295-346; that it refuses is not noticed by the samplers. -/
def store (S : Site α Y K) (θ : List (Option α)) (w : Worker α) : Option (Worker α) :=
  match setParameters S.g S.chk S.roots θ.reduceOption w.st with
  | (_, .error .raised) => none
  | (s, _) => some ⟨w.seed, s, w.clock⟩

/-- `get_parameters`. -/
def readOut (S : Site α Y K) (w : Worker α) : Worker α × List (Option α) := (⟨w.seed, (getParameters S.g S.roots w.st).1, w.clock⟩, (getParameters S.g S.roots w.st).2)

/-! ### APMCABC -/

/-- `_accept_parameter`, inferences.py 3095-3149. -/
noncomputable def apmcTask (S : Site α Y K) (req : Pmc.Pop (List (Option α)) → Nat → K) (kern : Pmc.Pop (List (Option α)) → List (Option α) → List (Option α) → ℝ) (fuel : Nat)
    (pop : Option (Pmc.Pop (List (Option α)))) (w : Worker α) : Option (Worker α × Apmc.Out (List (Option α))) :=
  match pop with
  | none => match priorDraw S w with
    | none => none
    | some (w, _) =>
      let r := simulate S w
      let q := readOut S r.1
      some (q.1, ⟨q.2, S.dist r.2, 1⟩)
  | some p =>
    let i := advance (fun seed => S.choice seed p.weights) w
    match p.params[i.2]? with
    | none => none
    | some _ => match propose S (req p i.2) fuel i.1 with
      | none => none
      | some (w, ps) =>
        let r := simulate S w
        match density S (ps.map some) r.1 with
        | none => none
        | some (w, d) =>
          let q := readOut S w
          some (q.1, ⟨q.2, S.dist r.2, 1 * d / (List.zipWith (fun w a => w * kern p a (ps.map some)) p.weights p.params).sum⟩)

/-! ### RSMCABC -/

/-- The loop of lines 2764-2768. -/
noncomputable def rsmcPrior (S : Site α Y K) (eps : ℝ) : Nat → Worker α → Option ℝ → Nat → Option (Worker α × Option ℝ × Nat)
  | 0, _, _, _ => none
  | fuel + 1, w, d, c =>
    if Pmc.above d eps then match priorDraw S w with
      | none => none
      | some (w, _) =>
        let r := simulate S w
        rsmcPrior S eps fuel r.1 (some (S.dist r.2)) (c + 1)
    else some (w, d, c)

/-- The loop of lines 2775-2795: the second evaluation of the density stores the old particle; after a move that is not accepted it is stored again. `rng.binomial` is not called if the distance is too large. -/
noncomputable def rsmcMoves (S : Site α Y K) (R : Rng) (req : Pmc.Pop (List (Option α)) → Nat → K) (kern : Pmc.Pop (List (Option α)) → List (Option α) → List (Option α) → ℝ) (fuel : Nat)
    (eps : ℝ) (p : Pmc.Pop (List (Option α))) (i : Nat) (θ : List (Option α)) (dθ : ℝ) : Nat → Worker α → Option ℝ → Nat → Nat → Option (Worker α × Option ℝ × Nat × Nat)
  | 0, w, d, acc, c => some (w, d, acc, c)
  | r + 1, w, _, acc, c =>
    match propose S (req p i) fuel w with
    | none => none
    | some (w, ps) =>
      let y := simulate S w
      match density S (ps.map some) y.1 with
      | none => none
      | some (w, a) => match density S θ w with
        | none => none
        | some (w, b) =>
          let u := advance (R.flip (min 1 (a / b * (kern p (ps.map some) θ / kern p θ (ps.map some))))) w
          if S.dist y.2 < eps then
            if u.2 then rsmcMoves S R req kern fuel eps p i θ dθ r u.1 (some (S.dist y.2)) (acc + 1) (c + 1)
            else match store S θ u.1 with
              | none => none
              | some w => rsmcMoves S R req kern fuel eps p i θ dθ r w (some dθ) acc (c + 1)
          else match store S θ w with
            | none => none
            | some w => rsmcMoves S R req kern fuel eps p i θ dθ r w (some dθ) acc (c + 1)

/-- `_accept_parameter`, lines 2739-2797. -/
noncomputable def rsmcTask (S : Site α Y K) (R : Rng) (req : Pmc.Pop (List (Option α)) → Nat → K) (kern : Pmc.Pop (List (Option α)) → List (Option α) → List (Option α) → ℝ) (fuel : Nat)
    (eps : ℝ) (pop : Option (Pmc.Pop (List (Option α)) × List ℝ)) (r : Nat) (w : Worker α) : Option (Worker α × Rsmc.Out (List (Option α))) :=
  match pop with
  | none => match rsmcPrior S eps fuel w S.distMax 0 with
    | none => none
    | some (w, d, c) => some ((readOut S w).1, ⟨(readOut S w).2, d, 1, c⟩)
  | some (p, ds) =>
    let i := advance (R.index p.params.length) w
    match p.params[i.2]?, ds[i.2]? with
    | some θ, some dθ => match rsmcMoves S R req kern fuel eps p i.2 θ dθ r i.1 S.distMax 0 0 with
      | none => none
      | some (w, d, acc, c) => some ((readOut S w).1, ⟨(readOut S w).2, d, acc, c⟩)
    | _, _ => none

/-! ### SMCABC -/

/-- The first population, lines 3761-3764, 3840-3845, 3940-3945 and the last line of each task. -/
noncomputable def smcFirst (S : Site α Y K) (w : Worker α) : Option (Worker α × Smc.Out (List (Option α)) Y) :=
  match priorDraw S w with
  | none => none
  | some (w, _) =>
    let r := simulate S w
    let q := readOut S r.1
    some (q.1, ⟨q.2, r.2, S.dist r.2, 1⟩)

/-- The end of a task: a particle is stored and read again (3800-3808, 3892-3908, 4028-4044). -/
noncomputable def smcEnd (S : Site α Y K) (θ : List (Option α)) (y : Y) (c : Nat) (w : Worker α) : Option (Worker α × Smc.Out (List (Option α)) Y) :=
  match store S θ w with
  | none => none
  | some w => some ((readOut S w).1, ⟨(readOut S w).2, y, S.dist y, c⟩)

/-- `_accept_parameter`, lines 3765-3808. `dists` are the distances of the single data sets of a simulation. -/
noncomputable def smcTask0 (S : Site α Y K) (R : Rng) (req : Pmc.Pop (List (Option α)) → Nat → K) (kern : Pmc.Pop (List (Option α)) → List (Option α) → List (Option α) → ℝ) (dists : Y → List ℝ)
    (fuel : Nat) (eps : ℝ) (p : Pmc.Pop (List (Option α))) (i : Nat) (θ : List (Option α)) (wt : ℝ) (y : Y) (w : Worker α) : Option (Worker α × Smc.Out (List (Option α)) Y) :=
  if 0 < wt then
    match propose S (req p i) fuel w with
    | none => none
    | some (w, ps) =>
      let r := simulate S w
      match density S (ps.map some) r.1 with
      | none => none
      | some (w, a) => match density S θ w with
        | none => none
        | some (w, b) =>
          let prob := min 1 ((if Smc.below eps (dists y) = 0 then 1 else Smc.below eps (dists r.2) / Smc.below eps (dists y)) *
            (a / b * (kern p (ps.map some) θ / kern p θ (ps.map some))))
          let u := advance (R.flip prob) w
          if u.2 then smcEnd S (ps.map some) r.2 1 u.1 else smcEnd S θ y 1 u.1
  else smcEnd S θ y 0 w

/-- `_accept_parameter_r_hit_kernel`, lines 3846-3908. -/
noncomputable def smcTask1 (S : Site α Y K) (R : Rng) (req : Pmc.Pop (List (Option α)) → Nat → K) (kern : Pmc.Pop (List (Option α)) → List (Option α) → List (Option α) → ℝ)
    (r fuel : Nat) (eps : ℝ) (p : Pmc.Pop (List (Option α))) (i : Nat) (θ : List (Option α)) (wt : ℝ) (y : Y) (w : Worker α) : Option (Worker α × Smc.Out (List (Option α)) Y) :=
  if 0 < wt then
    match store S θ w with
    | none => none
    | some w => match Smc.hitLoop (fun w => some (simulate S w)) (fun y => decide (S.dist y < eps)) (r - 1) fuel w [] with
      | none => none
      | some (w, old) => match propose S (req p i) fuel w with
        | none => none
        | some (w, ps) => match Smc.hitLoop (fun w => some (simulate S w)) (fun y => decide (S.dist y < eps)) r fuel w [] with
          | none => none
          | some (w, new) => match density S (ps.map some) w with
            | none => none
            | some (w, a) => match density S θ w with
              | none => none
              | some (w, b) =>
                if new.length = 1 then none
                else
                  let u := advance (R.flip (min 1 ((old.length : ℝ) / (new.length - 1) * (a / b * (kern p (ps.map some) θ / kern p θ (ps.map some)))))) w
                  if u.2 then
                    match store S (ps.map some) u.1 with
                    | none => none
                    | some w => match (Smc.hits (fun y => decide (S.dist y < eps)) new).dropLast with
                      | [] => none
                      | first =>
                        let j := advance (R.pick first) w
                        match new[j.2]? with
                        | none => none
                        | some y' => some ((readOut S j.1).1, ⟨(readOut S j.1).2, y', S.dist y', old.length + new.length⟩)
                  else smcEnd S θ y (old.length + new.length) u.1
  else smcEnd S θ y 0 w

/-- `_accept_parameter_r_hit_kernel_version_2`, lines 3946-4044; `around` asks for a perturbation of a vector with the matrices of the population. -/
noncomputable def smcTask2 (S : Site α Y K) (R : Rng) (req : Pmc.Pop (List (Option α)) → Nat → K) (around : Pmc.Pop (List (Option α)) → List (Option α) → K)
    (kern : Pmc.Pop (List (Option α)) → List (Option α) → List (Option α) → ℝ)
    (r fuel : Nat) (eps : ℝ) (p : Pmc.Pop (List (Option α))) (i : Nat) (θ : List (Option α)) (wt : ℝ) (y : Y) (w : Worker α) : Option (Worker α × Smc.Out (List (Option α)) Y) :=
  if 0 < wt then
    match Smc.hitLoop (fun w => (propose S (req p i) fuel w).map fun e => ((simulate S e.1).1, e.2.map some, (simulate S e.1).2)) (fun a => decide (S.dist a.2 < eps)) r fuel w [] with
    | none => none
    | some (w, prime) => match (Smc.hits (fun a : List (Option α) × Y => decide (S.dist a.2 < eps)) prime).dropLast with
      | [] => none
      | first =>
        let l := advance (R.pick first) w
        match prime[l.2]? with
        | none => none
        | some (θ', y') =>
          match Smc.hitLoop (fun w => (propose S (around p θ') fuel w).map fun e => simulate S e.1) (fun y => decide (S.dist y < eps)) (r - 1) fuel l.1 [] with
          | none => none
          | some (w, back) => match density S θ' w with
            | none => none
            | some (w, a) => match density S θ w with
              | none => none
              | some (w, b) =>
                let u := advance (R.flip (min 1 ((back.length : ℝ) / (prime.length - 1) * (a / b * (kern p θ' θ / kern p θ θ'))))) w
                if u.2 then smcEnd S θ' y' (prime.length + back.length) u.1 else smcEnd S θ y (prime.length + back.length) u.1
  else smcEnd S θ y 0 w

/-! ### SABC -/

/-- Lines 1960-1974. -/
noncomputable def sabcFirst (S : Site α Y K) (R : Rng) (eps : ℝ) (index : Nat) : Nat → Worker α → List ℝ → Nat → Option (Worker α × Sabc.Out (List (Option α)))
  | 0, _, _, _ => none
  | fuel + 1, w, all, c =>
    match priorDraw S w with
    | none => none
    | some (w, θ) =>
      let r := simulate S w
      let d := S.dist r.2
      let u := advance (R.flip (Real.exp (-d / eps))) r.1
      if u.2 then some (u.1, ⟨θ, d, all ++ [d], index, true, c + 1⟩) else sabcFirst S R eps index fuel u.1 (all ++ [d]) (c + 1)

/-- Lines 1976-2004. -/
noncomputable def sabcMove (S : Site α Y K) (R : Rng) (req : Pmc.Pop (List (Option α)) → Nat → K) (fuel n : Nat) (s : Sabc.State (List (Option α))) (w : Worker α) :
    Option (Worker α × Sabc.Out (List (Option α))) :=
  let i := advance (R.index n) w
  match s.params[i.2]?, s.smooths[i.2]? with
  | some θ, some sθ => match propose S (req ⟨s.params, List.replicate n 1⟩ i.2) fuel i.1 with
    | none => none
    | some (w, ps) =>
      let r := simulate S w
      match Sabc.smooth s.all (S.dist r.2) with
      | none => none
      | some sd => match density S (ps.map some) r.1 with
        | none => none
        | some (w, a) => match density S θ w with
          | none => none
          | some (w, b) =>
            let u := advance R.uniform w
            some (u.1, ⟨ps.map some, S.dist r.2, [], i.2, if s.eps = 0 then sd < sθ else u.2 < a / b * Real.exp ((sθ - sd) / s.eps), 1⟩)
  | _, _ => none

/-! ### ABCsubsim -/

variable {M : Type}

/-- The acceptance probability, lines 2361-2370 and 2427-2434, from the two densities of the prior. -/
noncomputable def subsimProb (kern : List M → List (Option α) → List (Option α) → ℝ) (covs : List M) (anneal a b : ℝ) (θ θ' : List (Option α)) (d : ℝ) : ℝ :=
  min 1 (a / b * (kern covs θ' θ / kern covs θ θ')) * (if d < anneal then 1 else 0)

/-- The loop of lines 2352-2380. -/
noncomputable def subsimChain (S : Site α Y K) (R : Rng) (req : List M → List (Option α) → K) (kern : List M → List (Option α) → List (Option α) → ℝ) (fuel : Nat) (covs : List M) (anneal : ℝ)
    (base : List (Option α)) : Nat → Worker α → List (Option α) → ℝ → Option (Worker α × List (List (Option α)) × List ℝ)
  | 0, w, _, _ => some (w, [], [])
  | k + 1, w, θ, d =>
    match propose S (req covs base) fuel w with
    | none => none
    | some (w, ps) =>
      let r := simulate S w
      match density S (ps.map some) r.1 with
      | none => none
      | some (w, a) => match density S θ w with
        | none => none
        | some (w, b) =>
          let d' := S.dist r.2
          let u := advance (R.flip (subsimProb kern covs anneal a b θ (ps.map some) d')) w
          if u.2 then (subsimChain S R req kern fuel covs anneal base k u.1 (ps.map some) d').map fun e => (e.1, ps.map some :: e.2.1, d' :: e.2.2)
          else (subsimChain S R req kern fuel covs anneal base k u.1 θ d).map fun e => (e.1, θ :: e.2.1, d :: e.2.2)

/-- `_accept_parameter`, lines 2307-2381, in a step after the first. -/
noncomputable def subsimTask (S : Site α Y K) (R : Rng) (req : List M → List (Option α) → K) (kern : List M → List (Option α) → List (Option α) → ℝ) (fuel length : Nat) (covs : List M) (anneal : ℝ)
    (base pop : List (List (Option α))) (i : Nat) (w : Worker α) : Option (Worker α × List (List (Option α)) × List ℝ) :=
  match pop[i]?, base[i]? with
  | some θ, some θ0 => match store S θ w with
    | none => none
    | some w =>
      let r := simulate S w
      (subsimChain S R req kern fuel covs anneal θ0 (length - 1) r.1 θ (S.dist r.2)).map fun e => (e.1, θ :: e.2.1, S.dist r.2 :: e.2.2)
  | _, _ => none

/-- The loop of `_update_cov_mat`, lines 2415-2437. -/
noncomputable def subsimTrials (S : Site α Y K) (R : Rng) (req : List M → List (Option α) → K) (kern : List M → List (Option α) → List (Option α) → ℝ) (fuel : Nat) (covs : List M) (anneal : ℝ)
    (base : List (Option α)) : Nat → Worker α → List (Option α) → Nat → Option (Worker α × Nat)
  | 0, w, _, n => some (w, n)
  | k + 1, w, θ, n =>
    match propose S (req covs base) fuel w with
    | none => none
    | some (w, ps) =>
      let r := simulate S w
      match density S (ps.map some) r.1 with
      | none => none
      | some (w, a) => match density S θ w with
        | none => none
        | some (w, b) =>
          let u := advance (R.flip (subsimProb kern covs anneal a b θ (ps.map some) (S.dist r.2))) w
          if u.2 then subsimTrials S R req kern fuel covs anneal base k u.1 (ps.map some) (n + 1) else subsimTrials S R req kern fuel covs anneal base k u.1 θ n

/-- `_update_cov_mat`, lines 2383-2443. -/
noncomputable def subsimTune (S : Site α Y K) (R : Rng) (req : List M → List (Option α) → K) (kern : List M → List (Option α) → List (Option α) → ℝ) (scale : Nat → M → M) (fuel length : Nat) (covs : List M)
    (anneal : ℝ) (base pop : List (List (Option α))) (t : Nat) (w : Worker α) : Option (Worker α × List M × Bool) :=
  match pop[0]?, base[0]? with
  | some θ, some θ0 => (subsimTrials S R req kern fuel covs anneal θ0 length w θ 0).map fun e =>
      (e.1, covs.map (scale t), decide ((e.2 : ℝ) / 10 ≤ 5 / 10 ∧ 3 / 10 ≤ (e.2 : ℝ) / 10))
  | _, _ => none

end Verif.Site
