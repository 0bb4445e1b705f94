import Verif.Nan.Rsmc
import Verif.Subsim.Props
/-
`ABCsubsim` with distances that may be NaN or infinite: C199. Definitions are those of `Verif.Subsim` with distances and annealing parameters that are numbers of floating-point arithmetic. What does not depend on distances
is that of `Verif.Subsim`.
-/
namespace Verif.Nan.Subsim

open Verif.Pmc (Pop)
open Verif.Smc (propose)
open Verif.Subsim (Env Config)
open Rsmc (Sorts)

variable {W Θ Y M : Type}

open Classical in
/-- Lines 2361-2370 and 2427-2434: the product with `new_distance < self.anneal_parameter`. -/
noncomputable def prob (env : Env W Θ Y M) (covs : List M) (anneal : Num) (θ θ' : Θ) (d : Num) : ℝ :=
  min 1 (env.pdf θ' / env.pdf θ * (env.kernel covs θ' θ / env.kernel covs θ θ')) * (if d.lt anneal then 1 else 0)

/-- Lines 2352-2380, as `Subsim.chain`. -/
noncomputable def chain (env : Env W Θ Y M) (dist : Y → Num) (fuel : Nat) (covs : List M) (anneal : Num) (base : Θ) : Nat → W → Θ → Num → Option (List Θ × List Num)
  | 0, _, _, _ => some ([], [])
  | k + 1, w, θ, d =>
    match propose env.pdf (env.perturb covs base) fuel w with
    | none => none
    | some (w, θ') =>
      let b := env.sim θ' w
      let d' := dist b.2
      let u := env.bern (prob env covs anneal θ θ' d') b.1
      if u.2 then (chain env dist fuel covs anneal base k u.1 θ' d').map fun r => (θ' :: r.1, d' :: r.2)
      else (chain env dist fuel covs anneal base k u.1 θ d).map fun r => (θ :: r.1, d :: r.2)

/-- `_accept_parameter`, lines 2344-2381, as `Subsim.accept`. -/
noncomputable def accept (env : Env W Θ Y M) (dist : Y → Num) (fuel length : Nat) (covs : List M) (anneal : Num) (base pop : List Θ) (i : Nat) (w : W) : Option (List Θ × List Num) :=
  (pop[i]?).bind fun θ => (base[i]?).bind fun θ0 =>
    let b := env.sim θ w
    let d := dist b.2
    (chain env dist fuel covs anneal θ0 (length - 1) b.1 θ d).map fun r => (θ :: r.1, d :: r.2)

/-- `_accept_parameter` in the first step, lines 2338-2343. -/
def first (env : Env W Θ Y M) (dist : Y → Num) (w : W) : List Θ × List Num :=
  let a := env.prior w
  ([a.2], [dist (env.sim a.2 a.1).2])

/-- Lines 2415-2437, as `Subsim.trials`. -/
noncomputable def trials (env : Env W Θ Y M) (dist : Y → Num) (fuel : Nat) (covs : List M) (anneal : Num) (base : Θ) : Nat → W → Θ → Option Nat
  | 0, _, _ => some 0
  | k + 1, w, θ =>
    match propose env.pdf (env.perturb covs base) fuel w with
    | none => none
    | some (w, θ') =>
      let b := env.sim θ' w
      let u := env.bern (prob env covs anneal θ θ' (dist b.2)) b.1
      if u.2 then (trials env dist fuel covs anneal base k u.1 θ').map (· + 1) else trials env dist fuel covs anneal base k u.1 θ

/-- `_update_cov_mat`, lines 2383-2443, as `Subsim.tune`. -/
noncomputable def tune (env : Env W Θ Y M) (dist : Y → Num) (fuel length : Nat) (covs : List M) (anneal : Num) (base pop : List Θ) (i : Nat) (w : W) : Option (List M × Bool) :=
  (pop[0]?).bind fun θ => (base[0]?).bind fun θ0 =>
    (trials env dist fuel covs anneal θ0 length w θ).map fun (k : Nat) => (covs.map (env.scale i), decide ((k : ℝ) / 10 ≤ 5 / 10 ∧ 3 / 10 ≤ (k : ℝ) / 10))

structure Rec (Θ M : Type) where
  params : List Θ
  distances : List Num
  weights : List ℝ
  covs : List M
  counter : Nat

structure State (Θ M : Type) where
  hist : List (Rec Θ M × Num)
  journal : List (Rec Θ M)
  base : List Θ
  stopped : Bool

/-- Line 2217: the mean of two distances. -/
noncomputable def mid : Num → Num → Num
  | .num a, .num b => .num ((1 / 2) * (a + b))
  | .nan, _ => .nan
  | _, .nan => .nan
  | .inf, .negInf => .nan
  | .negInf, .inf => .nan
  | .inf, _ => .inf
  | _, .inf => .inf
  | .negInf, _ => .negInf
  | _, .negInf => .negInf

/-- Lines 2274-2279: whether the run stops. If one of the parameters is not a number or infinite, the change is NaN or infinite, and the comparison is false. -/
noncomputable def small (old new : Num) (cutoff : ℝ) : Bool :=
  match old, new with
  | .num o, .num a => decide (100 * |o - a| / |a| < cutoff)
  | _, _ => false

open Classical in
/-- Iteration `t`, lines 2162-2282, as `Subsim.step`. -/
noncomputable def step (env : Env W Θ Y M) (dist : Y → Num) (sort : List (Num × Θ) → List (Num × Θ)) (c : Config) (fuel t : Nat) (start tuneStart : List W) (s : State Θ M) : Option (State Θ M) :=
  if start.length ≠ (if t = 0 then c.n else c.n / c.length) ∨ start = [] ∨ c.length = 0 ∨ tuneStart.length ≠ 10 then none
  else
    let old := s.hist.getLast?
    match (match old with
      | none => some (start.map (first env dist))
      | some o => collect (start.zipIdx.map fun (e : W × Nat) => accept env dist fuel c.length o.1.covs o.2 s.base o.1.params e.2 e.1)) with
    | none => none
    | some out =>
      let l := sort ((out.map Prod.snd).flatten.zip (out.map Prod.fst).flatten)
      let params := l.map Prod.snd
      let distances := l.map Prod.fst
      let weights := List.replicate c.n (1 : ℝ)
      match distances[c.n / c.length]?, distances[c.n / c.length + 1]? with
      | some a, some b =>
        let anneal := mid a b
        let base := match old with | none => params | some _ => s.base
        let covs := match old with | none => env.cov ⟨params, weights⟩ | some o => o.1.covs ++ o.1.covs
        match collect (tuneStart.zipIdx.map fun (e : W × Nat) => tune env dist fuel c.length covs anneal base (match old with | none => params | some o => o.1.params) e.2 e.1) with
        | none => none
        | some tuned =>
          let covs' := match tuned.find? Prod.snd with | some m => m.1 | none => covs
          let counter := (match old with | none => c.n | some o => o.1.counter + c.n / c.length * c.length) + 10 * c.length
          let r : Rec Θ M := ⟨params, distances, weights, covs', counter⟩
          if anneal = .num 0 then none
          else some ⟨s.hist ++ [(r, anneal)], if c.full then s.journal ++ [r] else s.journal, base, small ((old.map Prod.snd).getD (.num 0)) anneal c.cutoff⟩
      | _, _ => none

noncomputable def loop (env : Env W Θ Y M) (dist : Y → Num) (sort : List (Num × Θ) → List (Num × Θ)) (c : Config) (fuel : Nat) (start tuneStart : Nat → List W) : Nat → Nat → State Θ M → Option (State Θ M)
  | 0, _, s => some s
  | k + 1, t, s => if s.stopped then some s else match step env dist sort c fuel t (start t) (tuneStart t) s with
    | none => none
    | some s => loop env dist sort c fuel start tuneStart k (t + 1) s

/-- `ABCsubsim.sample` without a journal file, on a sampler that has not been used before. -/
noncomputable def run (env : Env W Θ Y M) (dist : Y → Num) (sort : List (Num × Θ) → List (Num × Θ)) (c : Config) (fuel : Nat) (start tuneStart : Nat → List W) : Option (State Θ M) :=
  (loop env dist sort c fuel start tuneStart c.steps 0 ⟨[], [], [], false⟩).map fun s =>
    { s with journal := if c.full then s.journal else (s.hist.getLast?.map Prod.fst).toList }

/-! ### C199: what happens with a NaN -/

/-- C199 holds for single moves: proposals whose distance is NaN have acceptance probability zero. -/
theorem C199_move (env : Env W Θ Y M) (covs : List M) (anneal : Num) (θ θ' : Θ) : prob env covs anneal θ θ' .nan = 0 := by
  have : ¬ Num.nan.lt anneal := by cases anneal <;> exact id
  rw [prob, if_neg this, mul_zero]

/-- C199 holds for chains: every state of a chain after the first has the distance that the chain started with, or one below the annealing parameter. `hb`: with probability zero nothing is accepted. -/
theorem C199_chain (env : Env W Θ Y M) (hb : ∀ w, (env.bern 0 w).2 = false) (dist : Y → Num) (fuel : Nat) (covs : List M) (anneal : Num) (base : Θ) (k : Nat) : ∀ (w : W) (θ : Θ) (d : Num) (r : List Θ × List Num),
    chain env dist fuel covs anneal base k w θ d = some r → ∀ x ∈ r.2, x = d ∨ x.lt anneal := by
  induction k with
  | zero => intro w θ d r h; cases h; simp
  | succ k ih =>
    intro w θ d r h
    rw [chain] at h
    split at h
    · cases h
    · rename_i w' θ' hp
      simp only at h
      split at h
      · rename_i hu
        obtain ⟨r', h1, rfl⟩ := Option.map_eq_some_iff.1 h
        have hlt : (dist (env.sim θ' w').2).lt anneal := by
          by_contra hn
          rw [prob, if_neg hn, mul_zero, hb] at hu
          cases hu
        intro x hx
        rcases List.mem_cons.1 hx with rfl | hx
        · exact Or.inr hlt
        · rcases ih _ _ _ _ h1 x hx with rfl | h
          · exact Or.inr hlt
          · exact Or.inr h
      · obtain ⟨r', h1, rfl⟩ := Option.map_eq_some_iff.1 h
        intro x hx
        rcases List.mem_cons.1 hx with rfl | hx
        · exact Or.inl rfl
        · exact ih _ _ _ _ h1 x hx

/-- C199 fails for chains that start with a NaN: if no proposal is accepted, all states have the NaN. With a NaN as annealing parameter no proposal is accepted at all. -/
theorem C199_stuck_violated (env : Env W Θ Y M) (hb : ∀ w, (env.bern 0 w).2 = false) (dist : Y → Num) (fuel : Nat) (covs : List M) (base : Θ) (k : Nat) : ∀ (w : W) (θ : Θ) (d : Num) (r : List Θ × List Num),
    chain env dist fuel covs .nan base k w θ d = some r → r = (List.replicate k θ, List.replicate k d) := by
  induction k with
  | zero => intro w θ d r h; cases h; rfl
  | succ k ih =>
    intro w θ d r h
    rw [chain] at h
    split at h
    · cases h
    · rename_i w' θ' hp
      simp only at h
      have hn : ¬ (dist (env.sim θ' w').2).lt .nan := by cases dist (env.sim θ' w').2 <;> exact id
      have hz : prob env covs .nan θ θ' (dist (env.sim θ' w').2) = 0 := by rw [prob, if_neg hn, mul_zero]
      rw [hz, hb] at h
      simp only [Bool.false_eq_true, if_false] at h
      obtain ⟨r', h1, rfl⟩ := Option.map_eq_some_iff.1 h
      rw [ih _ _ _ _ h1]
      rfl

theorem trials_nan (env : Env W Θ Y M) (hb : ∀ w, (env.bern 0 w).2 = false) (dist : Y → Num) (fuel : Nat) (covs : List M) (base : Θ) (k : Nat) : ∀ (w : W) (θ : Θ) (m : Nat),
    trials env dist fuel covs .nan base k w θ = some m → m = 0 := by
  induction k with
  | zero => intro w θ m h; cases h; rfl
  | succ k ih =>
    intro w θ m h
    rw [trials] at h
    split at h
    · cases h
    · rename_i w' θ' hp
      simp only at h
      have hn : ¬ (dist (env.sim θ' w').2).lt .nan := by cases dist (env.sim θ' w').2 <;> exact id
      have hz : prob env covs .nan θ θ' (dist (env.sim θ' w').2) = 0 := by rw [prob, if_neg hn, mul_zero]
      rw [hz, hb] at h
      exact ih _ _ _ h

/-- C199 fails for whole steps: one NaN among the two distances that the annealing parameter is computed from makes it NaN. -/
theorem C199_anneal_violated (a b : Num) (h : a = .nan ∨ b = .nan) : mid a b = .nan := by
  rcases h with rfl | rfl
  · cases b <;> rfl
  · cases a <;> rfl

/-- What a step gives. -/
theorem step_eq (env : Env W Θ Y M) (dist : Y → Num) (sort : List (Num × Θ) → List (Num × Θ)) (c : Config) (fuel t : Nat) (start tuneStart : List W) (s s' : State Θ M) (o : Rec Θ M × Num) (ho : s.hist.getLast? = some o)
    (h : step env dist sort c fuel t start tuneStart s = some s') :
    ∃ (out : List (List Θ × List Num)) (r : Rec Θ M) (anneal : Num), start.length = (if t = 0 then c.n else c.n / c.length) ∧
      collect (start.zipIdx.map fun (e : W × Nat) => accept env dist fuel c.length o.1.covs o.2 s.base o.1.params e.2 e.1) = some out ∧
      r.params = (sort ((out.map Prod.snd).flatten.zip (out.map Prod.fst).flatten)).map Prod.snd ∧ r.distances = (sort ((out.map Prod.snd).flatten.zip (out.map Prod.fst).flatten)).map Prod.fst ∧
      s'.hist = s.hist ++ [(r, anneal)] ∧ s'.stopped = small o.2 anneal c.cutoff := by
  unfold step at h
  by_cases hl : start.length ≠ (if t = 0 then c.n else c.n / c.length) ∨ start = [] ∨ c.length = 0 ∨ tuneStart.length ≠ 10
  · rw [if_pos hl] at h; cases h
  · rw [if_neg hl] at h
    simp only [ho] at h
    split at h
    · cases h
    · rename_i out hout
      split at h
      · rename_i a b ha hb
        split at h
        · cases h
        · split at h
          · cases h
          · cases h
            exact ⟨out, _, _, not_not.1 (not_or.1 hl).1, hout, rfl, rfl, rfl, rfl⟩
      · cases h

/-- C199 fails for whole steps: after a step whose annealing parameter is NaN, every particle of the next step is a particle of the last one, each chain repeats one particle with one distance, which is not compared with
anything; the test for the end of the run is not met. -/
theorem C199_step_violated (env : Env W Θ Y M) (hb : ∀ w, (env.bern 0 w).2 = false) (dist : Y → Num) (sort : List (Num × Θ) → List (Num × Θ)) (hs : Sorts sort) (c : Config) (fuel t : Nat) (start tuneStart : List W)
    (s s' : State Θ M) (o : Rec Θ M × Num) (ho : s.hist.getLast? = some o) (hn : o.2 = .nan) (h : step env dist sort c fuel t start tuneStart s = some s') :
    ∃ (r : Rec Θ M) (anneal : Num) (l : List (Θ × W)), s'.hist = s.hist ++ [(r, anneal)] ∧ s'.stopped = false ∧ l.map Prod.snd = start ∧ (∀ (i : Nat) (e : Θ × W), l[i]? = some e → o.1.params[i]? = some e.1) ∧
      (r.distances.zip r.params).Perm (l.flatMap fun e => List.replicate (c.length - 1 + 1) (dist (env.sim e.1 e.2).2, e.1)) := by
  obtain ⟨out, r, anneal, h1, h2, h3, h4, h5, h6⟩ := step_eq env dist sort c fuel t start tuneStart s s' o ho h
  have h2 := (collect_eq_some _ _).1 h2
  have hlen : out.length = start.length := by
    have := congrArg List.length h2
    simpa using this.symm
  -- what every worker returns
  have hacc : ∀ i (hi : i < start.length), ∃ θ, o.1.params[i]? = some θ ∧ out[i]? = some (List.replicate (c.length - 1 + 1) θ, List.replicate (c.length - 1 + 1) (dist (env.sim θ start[i]).2)) := by
    intro i hi
    have hi' := congrArg (fun l => l[i]?) h2
    simp only [List.getElem?_map, List.getElem?_zipIdx, List.getElem?_eq_getElem hi, List.getElem?_eq_getElem (hlen ▸ hi), Option.map_some, Nat.zero_add, Option.some.injEq] at hi'
    unfold accept at hi'
    obtain ⟨θ, hθ, hi'⟩ := Option.bind_eq_some_iff.1 hi'
    obtain ⟨θ0, -, hi'⟩ := Option.bind_eq_some_iff.1 hi'
    obtain ⟨q, hq, hi'⟩ := Option.map_eq_some_iff.1 hi'
    rw [hn] at hq
    rw [C199_stuck_violated env hb dist fuel _ _ _ _ _ _ _ hq] at hi'
    refine ⟨θ, hθ, ?_⟩
    rw [List.getElem?_eq_getElem (hlen ▸ hi), ← hi']
    rfl
  choose θ hθ hθ' using hacc
  refine ⟨r, anneal, List.ofFn fun i : Fin start.length => (θ i i.2, start[i]), h5, ?_, ?_, ?_, ?_⟩
  · rw [h6, hn]; rfl
  · rw [List.map_ofFn]
    exact List.ofFn_getElem
  · intro i e he
    obtain ⟨hi, rfl⟩ := List.getElem?_eq_some_iff.1 he
    rw [List.getElem_ofFn]
    exact hθ i _
  · have hz : r.distances.zip r.params = sort ((out.map Prod.snd).flatten.zip (out.map Prod.fst).flatten) := by
      rw [h3, h4]
      exact (List.zip_of_prod rfl rfl).symm
    rw [hz]
    refine (hs.perm _).trans (List.Perm.of_eq ?_)
    have hout : out = List.ofFn fun i : Fin start.length => (List.replicate (c.length - 1 + 1) (θ i i.2), List.replicate (c.length - 1 + 1) (dist (env.sim (θ i i.2) start[i]).2)) := by
      refine List.ext_getElem (by simp [hlen]) fun i hi hi' => ?_
      rw [List.getElem_ofFn]
      have := hθ' i (hlen ▸ hi)
      rw [List.getElem?_eq_getElem hi] at this
      exact Option.some.inj this
    generalize hf : (List.ofFn fun i : Fin start.length => (θ i i.2, start[i])) = l
    have : out = l.map fun e => (List.replicate (c.length - 1 + 1) e.1, List.replicate (c.length - 1 + 1) (dist (env.sim e.1 e.2).2)) := by
      rw [← hf, List.map_ofFn]; exact hout
    rw [this, List.map_map, List.map_map]
    clear this hf hout
    induction l with
    | nil => rfl
    | cons e l ih =>
      simp only [List.map_cons, List.flatten_cons, List.flatMap_cons, Function.comp]
      rw [List.zip_append (by simp)]
      congr 1
      rw [List.zip_replicate']

/-! ### Distances that are numbers -/

def Rec.of (r : Verif.Subsim.Rec Θ M) : Rec Θ M := ⟨r.params, r.distances.map .num, r.weights, r.covs, r.counter⟩

theorem Rec.of_covs (r : Verif.Subsim.Rec Θ M) : (Rec.of r).covs = r.covs := rfl

theorem Rec.of_params (r : Verif.Subsim.Rec Θ M) : (Rec.of r).params = r.params := rfl

theorem Rec.of_counter (r : Verif.Subsim.Rec Θ M) : (Rec.of r).counter = r.counter := rfl

def State.of (s : Verif.Subsim.State Θ M) : State Θ M := ⟨s.hist.map fun e => (Rec.of e.1, .num e.2), s.journal.map Rec.of, s.base, s.stopped⟩

theorem prob_of (env : Env W Θ Y M) (covs : List M) (anneal : ℝ) (θ θ' : Θ) (d : ℝ) : prob env covs (.num anneal) θ θ' (.num d) = Verif.Subsim.prob env covs anneal θ θ' d := by
  unfold prob Verif.Subsim.prob
  by_cases h : d < anneal
  · rw [if_pos h, if_pos ((lt_num _ _).2 h)]
  · rw [if_neg h, if_neg (fun hh => h ((lt_num _ _).1 hh))]

theorem chain_of (env : Env W Θ Y M) (fuel : Nat) (covs : List M) (anneal : ℝ) (base : Θ) (k : Nat) : ∀ (w : W) (θ : Θ) (d : ℝ),
    chain env (fun y => .num (env.dist y)) fuel covs (.num anneal) base k w θ (.num d) = (Verif.Subsim.chain env fuel covs anneal base k w θ d).map fun r => (r.1, r.2.map .num) := by
  induction k with
  | zero => intros; rfl
  | succ k ih =>
    intro w θ d
    rw [chain, Verif.Subsim.chain]
    cases propose env.pdf (env.perturb covs base) fuel w with
    | none => rfl
    | some e =>
      simp only [prob_of]
      cases (env.bern (Verif.Subsim.prob env covs anneal θ e.2 (env.dist (env.sim e.2 e.1).2)) (env.sim e.2 e.1).1).2 with
      | true => simp only [if_true, ih, Option.map_map]; rfl
      | false => simp only [Bool.false_eq_true, if_false, ih, Option.map_map]; rfl

theorem accept_of (env : Env W Θ Y M) (fuel length : Nat) (covs : List M) (anneal : ℝ) (base pop : List Θ) (i : Nat) (w : W) :
    accept env (fun y => .num (env.dist y)) fuel length covs (.num anneal) base pop i w = (Verif.Subsim.accept env fuel length covs anneal base pop i w).map fun r => (r.1, r.2.map .num) := by
  unfold accept Verif.Subsim.accept
  cases pop[i]? with
  | none => rfl
  | some θ =>
    cases base[i]? with
    | none => rfl
    | some θ0 => simp only [Option.bind_some, chain_of, Option.map_map]; rfl

theorem trials_of (env : Env W Θ Y M) (fuel : Nat) (covs : List M) (anneal : ℝ) (base : Θ) (k : Nat) : ∀ (w : W) (θ : Θ),
    trials env (fun y => .num (env.dist y)) fuel covs (.num anneal) base k w θ = Verif.Subsim.trials env fuel covs anneal base k w θ := by
  induction k with
  | zero => intros; rfl
  | succ k ih =>
    intro w θ
    rw [trials, Verif.Subsim.trials]
    cases propose env.pdf (env.perturb covs base) fuel w with
    | none => rfl
    | some e => simp only [prob_of, ih]

theorem tune_of (env : Env W Θ Y M) (fuel length : Nat) (covs : List M) (anneal : ℝ) (base pop : List Θ) (i : Nat) (w : W) :
    tune env (fun y => .num (env.dist y)) fuel length covs (.num anneal) base pop i w = Verif.Subsim.tune env fuel length covs anneal base pop i w := by
  unfold tune Verif.Subsim.tune
  simp only [trials_of]

theorem step_of (env : Env W Θ Y M) (sort : List (Num × Θ) → List (Num × Θ)) (hs : Sorts sort) (c : Config) (fuel t : Nat) (start tuneStart : List W) (s : Verif.Subsim.State Θ M) :
    step env (fun y => .num (env.dist y)) sort c fuel t start tuneStart (State.of s) = (Verif.Subsim.step env c fuel t start tuneStart s).map State.of := by
  unfold step Verif.Subsim.step
  by_cases hl : start.length ≠ (if t = 0 then c.n else c.n / c.length) ∨ start = [] ∨ c.length = 0 ∨ tuneStart.length ≠ 10
  · rw [if_pos hl, if_pos hl]; rfl
  rw [if_neg hl, if_neg hl]
  have hlast : (State.of s).hist.getLast? = s.hist.getLast?.map fun e => (Rec.of e.1, .num e.2) := by
    simp only [State.of, List.getLast?_map]
  have hbase : (State.of s).base = s.base := rfl
  have hfl : ∀ out : List (List Θ × List ℝ), sort (((out.map fun r => ((r.1, r.2.map .num) : List Θ × List Num)).map Prod.snd).flatten.zip ((out.map fun r => ((r.1, r.2.map .num) : List Θ × List Num)).map Prod.fst).flatten) =
      (Verif.Subsim.sorted (out.map Prod.fst).flatten (out.map Prod.snd).flatten).map fun e => (.num e.1, e.2) := by
    intro out
    rw [Verif.Subsim.sorted, ← hs.numbers]
    congr 1
    have e1 : ((out.map fun r => ((r.1, r.2.map .num) : List Θ × List Num)).map Prod.snd).flatten = (out.map Prod.snd).flatten.map Num.num := by
      rw [List.map_flatten, List.map_map, List.map_map]; rfl
    have e2 : ((out.map fun r => ((r.1, r.2.map .num) : List Θ × List Num)).map Prod.fst).flatten = (out.map Prod.fst).flatten := by rw [List.map_map]; rfl
    rw [e1, e2, List.zip_map_left]
    rfl
  have hp : ∀ l : List (ℝ × Θ), (l.map fun e => ((.num e.1, e.2) : Num × Θ)).map Prod.snd = l.map Prod.snd := fun l => by rw [List.map_map]; rfl
  have hd : ∀ l : List (ℝ × Θ), (l.map fun e => ((.num e.1, e.2) : Num × Θ)).map Prod.fst = (l.map Prod.fst).map .num := fun l => by rw [List.map_map, List.map_map]; rfl
  rw [hlast]
  cases hold : s.hist.getLast? with
  | none =>
    simp only [Option.map_none]
    have hout : start.map (first env fun y => .num (env.dist y)) = (start.map (Verif.Subsim.first env)).map fun r => (r.1, r.2.map .num) := by rw [List.map_map]; rfl
    generalize start.map (Verif.Subsim.first env) = out at hout ⊢
    rw [hout]
    simp only [hfl, hp, hd, List.getElem?_map]
    cases (Verif.Subsim.sorted (out.map Prod.fst).flatten (out.map Prod.snd).flatten)[c.n / c.length]? with
    | none => rfl
    | some a =>
      cases (Verif.Subsim.sorted (out.map Prod.fst).flatten (out.map Prod.snd).flatten)[c.n / c.length + 1]? with
      | none => rfl
      | some b =>
        have hmid : mid (.num a.1) (.num b.1) = .num ((1 / 2) * (a.1 + b.1)) := rfl
        simp only [Option.map_some, hmid, tune_of, hbase, Rec.of_covs, Rec.of_params, Rec.of_counter]
        generalize collect _ = T
        cases T with
        | none => rfl
        | some T =>
          simp only
          by_cases ha : (1 / 2 : ℝ) * (a.1 + b.1) = 0
          · rw [if_pos ha, if_pos (by rw [hmid, ha])]; rfl
          · rw [if_neg ha, if_neg (by rw [hmid, Num.num.injEq]; exact ha)]
            simp only [hmid, Option.map_some, Option.map_none, Option.getD_some, Option.getD_none, State.of, List.map_append, List.map_cons, List.map_nil, small]
            congr 2
            · cases c.full with
              | true => simp only [if_true, List.map_append]; rfl
              | false => simp
  | some o =>
    simp only [Option.map_some]
    have hout : collect (start.zipIdx.map fun (e : W × Nat) => accept env (fun y => .num (env.dist y)) fuel c.length (Rec.of o.1).covs (.num o.2) (State.of s).base (Rec.of o.1).params e.2 e.1) =
        (collect (start.zipIdx.map fun (e : W × Nat) => Verif.Subsim.accept env fuel c.length o.1.covs o.2 s.base o.1.params e.2 e.1)).map (List.map fun r => (r.1, r.2.map .num)) := by
      rw [← Apmc.collect_map, List.map_map]
      congr 1
      exact List.map_congr_left fun e _ => accept_of env fuel _ _ _ _ _ _ _
    cases hc : collect (start.zipIdx.map fun (e : W × Nat) => Verif.Subsim.accept env fuel c.length o.1.covs o.2 s.base o.1.params e.2 e.1) with
    | none => rw [hc] at hout; rw [hout]; rfl
    | some out =>
    rw [hc, Option.map_some] at hout
    rw [hout]
    simp only [hfl, hp, hd, List.getElem?_map]
    cases (Verif.Subsim.sorted (out.map Prod.fst).flatten (out.map Prod.snd).flatten)[c.n / c.length]? with
    | none => rfl
    | some a =>
      cases (Verif.Subsim.sorted (out.map Prod.fst).flatten (out.map Prod.snd).flatten)[c.n / c.length + 1]? with
      | none => rfl
      | some b =>
        have hmid : mid (.num a.1) (.num b.1) = .num ((1 / 2) * (a.1 + b.1)) := rfl
        simp only [Option.map_some, hmid, tune_of, hbase, Rec.of_covs, Rec.of_params, Rec.of_counter]
        generalize collect _ = T
        cases T with
        | none => rfl
        | some T =>
          simp only
          by_cases ha : (1 / 2 : ℝ) * (a.1 + b.1) = 0
          · rw [if_pos ha, if_pos (by rw [hmid, ha])]; rfl
          · rw [if_neg ha, if_neg (by rw [hmid, Num.num.injEq]; exact ha)]
            simp only [hmid, Option.map_some, Option.map_none, Option.getD_some, Option.getD_none, State.of, List.map_append, List.map_cons, List.map_nil, small]
            congr 2
            · cases c.full with
              | true => simp only [if_true, List.map_append]; rfl
              | false => simp

theorem loop_of (env : Env W Θ Y M) (sort : List (Num × Θ) → List (Num × Θ)) (hs : Sorts sort) (c : Config) (fuel : Nat) (start tuneStart : Nat → List W) (k : Nat) : ∀ (t : Nat) (s : Verif.Subsim.State Θ M),
    loop env (fun y => .num (env.dist y)) sort c fuel start tuneStart k t (State.of s) = (Verif.Subsim.loop env c fuel start tuneStart k t s).map State.of := by
  induction k with
  | zero => intros; rfl
  | succ k ih =>
    intro t s
    rw [loop, Verif.Subsim.loop]
    have h0 : (State.of s).stopped = s.stopped := rfl
    rw [h0]
    by_cases h : s.stopped = true
    · rw [if_pos h, if_pos h]; rfl
    · rw [if_neg h, if_neg h, step_of env sort hs]
      cases Verif.Subsim.step env c fuel t (start t) (tuneStart t) s with
      | none => rfl
      | some s' => exact ih (t + 1) s'

/-- C199 for distances that are numbers: the run is that of `Verif.Subsim`. Missing: distances that are NaN, see the theorems above. -/
theorem C199_partial (env : Env W Θ Y M) (dist : Y → Num) (sort : List (Num × Θ) → List (Num × Θ)) (hs : Sorts sort) (c : Config) (fuel : Nat) (start tuneStart : Nat → List W)
    (hd : ∀ y, dist y = .num (env.dist y)) : run env dist sort c fuel start tuneStart = (Verif.Subsim.run env c fuel start tuneStart).map State.of := by
  obtain rfl : dist = fun y => .num (env.dist y) := funext hd
  unfold run Verif.Subsim.run
  have := loop_of env sort hs c fuel start tuneStart c.steps 0 ⟨[], [], [], false⟩
  rw [show (State.of ⟨[], [], [], false⟩ : State Θ M) = ⟨[], [], [], false⟩ from rfl] at this
  rw [this]
  cases Verif.Subsim.loop env c fuel start tuneStart c.steps 0 ⟨[], [], [], false⟩ with
  | none => rfl
  | some s =>
    simp only [Option.map_some, State.of, List.getLast?_map]
    congr 2
    split
    · rfl
    · cases s.hist.getLast? <;> rfl

/-! ### A run -/

open Verif.Subsim (exEnv exTune)
open Rsmc (exSort exSort_sorts)

open Classical in
/-- The simulation that gives 2 is the one whose distance is NaN. -/
noncomputable def exDist (y : ℝ) : Num := if y = 2 then .nan else .num y

noncomputable def exStart (t : Nat) : List ℝ := if t = 0 then [1, 3, 2, 4, 5] else [7, 6]

/-- Five samples in chains of two. One of the first simulations has the distance NaN, and is in the middle of the sorted list: the annealing parameter is NaN, and the second population has two particles of the first one, twice
each, whose new distances 6 and 7 are above all numbers of the first population. -/
theorem exRun : ∃ s, run exEnv exDist exSort ⟨5, 2, 2, 0, true⟩ 1 exStart exTune = some s ∧
    s.hist.map (fun e => (e.1.params, e.1.distances, e.2)) =
      [([1, 3, 2, 4, 5], [.num 1, .num 3, .nan, .num 4, .num 5], .nan), ([3, 3, 1, 1], [.num 6, .num 6, .num 7, .num 7], .num 7)] := by
  have hb : ∀ w, (exEnv.bern 0 w).2 = false := by simp [exEnv]
  have h0 : exDist 0 = .num 0 := if_neg (by norm_num)
  have h1 : exDist 1 = .num 1 := if_neg (by norm_num)
  have h2 : exDist 2 = .nan := if_pos rfl
  have h3 : exDist 3 = .num 3 := if_neg (by norm_num)
  have h4 : exDist 4 = .num 4 := if_neg (by norm_num)
  have h5 : exDist 5 = .num 5 := if_neg (by norm_num)
  have h6 : exDist 6 = .num 6 := if_neg (by norm_num)
  have h7 : exDist 7 = .num 7 := if_neg (by norm_num)
  have htuned : ∀ (anneal : Num) (_ : anneal = .nan ∨ anneal = .num 7) (covs base pop : List ℝ) (b p : ℝ) (_ : base[0]? = some b) (_ : pop[0]? = some p) (t : Nat),
      ∃ l, collect ((exTune t).zipIdx.map fun (e : ℝ × Nat) => tune exEnv exDist 1 2 covs anneal base pop e.2 e.1) = some l ∧ l.find? Prod.snd = none := by
    intro anneal ha covs base pop b p hb hp t
    have h1 : ∀ i, tune exEnv exDist 1 2 covs anneal base pop i 0 = some (covs.map (exEnv.scale i), false) := by
      intro i
      rcases ha with rfl | rfl
      · norm_num [tune, hb, hp, trials, propose, prob, exEnv, h0, Num.lt]
      · norm_num [tune, hb, hp, trials, propose, prob, exEnv, h0, Num.lt]
    refine ⟨_, by simp only [exTune, List.zipIdx_cons, List.zipIdx_nil, List.map_cons, List.map_nil, h1, collect]; rfl, by simp⟩
  have s1 : ∃ s, step exEnv exDist exSort ⟨5, 2, 2, 0, true⟩ 1 0 (exStart 0) (exTune 0) ⟨[], [], [], false⟩ = some s ∧
      s.hist = [(⟨[1, 3, 2, 4, 5], [.num 1, .num 3, .nan, .num 4, .num 5], [1, 1, 1, 1, 1], [1], 25⟩, .nan)] ∧ s.base = [1, 3, 2, 4, 5] ∧ s.stopped = false := by
    obtain ⟨l, hl, hf⟩ := htuned (mid .nan (.num 4)) (Or.inl rfl) [1] [1, 3, 2, 4, 5] [1, 3, 2, 4, 5] 1 1 rfl rfl 0
    have hout : exSort ((((exStart 0).map (first exEnv exDist)).map Prod.snd).flatten.zip (((exStart 0).map (first exEnv exDist)).map Prod.fst).flatten) =
        [(.num 1, 1), (.num 3, 3), (.nan, 2), (.num 4, 4), (.num 5, 5)] := by
      have : exSort [(.num 1, 1), (.num 3, 3), (.nan, 2), (.num 4, 4), (.num 5, 5)] = [(.num 1, 1), (.num 3, 3), (.nan, 2), (.num 4, 4), (.num 5, 5)] :=
        exSort_sorts.same _ (by norm_num [List.isChain_cons_cons, Num.lt])
      simpa [exStart, first, exEnv, h1, h2, h3, h4, h5] using this
    unfold step
    rw [if_neg (by simp [exStart, exTune])]
    simp only [List.getLast?_nil, hout]
    simp only [List.map_cons, List.map_nil, Nat.reduceDiv, Nat.reduceAdd, List.getElem?_cons_succ, List.getElem?_cons_zero]
    rw [show exEnv.cov ⟨[1, 3, 2, 4, 5], List.replicate 5 1⟩ = [1] from rfl, hl]
    simp only [hf]
    rw [if_neg (show ¬ mid .nan (.num 4) = Num.num 0 by simp [mid])]
    exact ⟨_, rfl, rfl, rfl, rfl⟩
  obtain ⟨s, s1, a1, a2, a3⟩ := s1
  have s2 : ∃ s', step exEnv exDist exSort ⟨5, 2, 2, 0, true⟩ 1 1 (exStart 1) (exTune 1) s = some s' ∧
      s'.hist.map (fun e => (e.1.params, e.1.distances, e.2)) =
        [([1, 3, 2, 4, 5], [.num 1, .num 3, .nan, .num 4, .num 5], .nan), ([3, 3, 1, 1], [.num 6, .num 6, .num 7, .num 7], .num 7)] := by
    have ha : mid (.num 7) (.num 7) = .num 7 := by rw [mid]; norm_num
    obtain ⟨l, hl, hf⟩ := htuned (mid (.num 7) (.num 7)) (Or.inr ha) [1, 1] [1, 3, 2, 4, 5] [1, 3, 2, 4, 5] 1 1 rfl rfl 1
    have hout : collect ((exStart 1).zipIdx.map fun (e : ℝ × Nat) => accept exEnv exDist 1 2 [1] .nan [1, 3, 2, 4, 5] [1, 3, 2, 4, 5] e.2 e.1) =
        some [([1, 1], [.num 7, .num 7]), ([3, 3], [.num 6, .num 6])] := by
      norm_num [exStart, List.zipIdx, accept, chain, propose, prob, exEnv, collect, h6, h7, Num.lt]
    have hsort : exSort [(.num 7, 1), (.num 7, 1), (.num 6, 3), (.num 6, 3)] = [(.num 6, 3), (.num 6, 3), (.num 7, 1), (.num 7, 1)] := by
      have := exSort_sorts.numbers [(7, 1), (7, 1), (6, 3), (6, 3)]
      simp only [List.map_cons, List.map_nil] at this
      rw [this]
      norm_num [List.insertionSort, List.orderedInsert]
    unfold step
    rw [if_neg (by simp [exStart, exTune])]
    simp only [a1, a2, List.getLast?_singleton, hout, List.map_cons, List.map_nil, List.flatten_cons, List.flatten_nil, List.cons_append, List.nil_append, List.zip_cons_cons, List.zip_nil_left, hsort, Nat.reduceDiv, Nat.reduceAdd,
      List.getElem?_cons_succ, List.getElem?_cons_zero, hl, hf]
    rw [if_neg (show ¬ mid (.num 7) (.num 7) = Num.num 0 by simp [ha])]
    exact ⟨_, rfl, by simp [ha]⟩
  obtain ⟨s', s2, b1⟩ := s2
  refine ⟨{ s' with journal := s'.journal }, ?_, b1⟩
  unfold run
  simp only
  rw [loop, s1]
  simp only [Bool.false_eq_true, if_false]
  rw [loop, s2, a3]
  simp [loop]

/-- The chains of `C199_step_violated` in the run: with the annealing parameter NaN, and `bern` that accepts nothing with probability zero. -/
example : (∀ w, (exEnv.bern 0 w).2 = false) ∧ Sorts exSort ∧ chain exEnv exDist 1 [1] .nan 1 3 0 1 .nan = some ([1, 1, 1], [.nan, .nan, .nan]) := by
  refine ⟨by simp [exEnv], exSort_sorts, ?_⟩
  have h0 : exDist 0 = .num 0 := if_neg (by norm_num)
  simp [chain, propose, exEnv, prob, h0, Num.lt]

end Verif.Nan.Subsim
