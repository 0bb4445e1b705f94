import Verif.Nan.Percentile
import Verif.Apmc.Props
/-
`APMCABC` with distances that may be NaN: C196. Definitions are those of `Verif.Apmc` with distances and thresholds that are numbers of floating-point arithmetic. Infinite distances are left out: `percentile` is
right for lists with a NaN and for lists of real numbers.
-/
namespace Verif.Nan.Apmc

open Verif.Pmc (Pop normalise)
open Verif.Smc (propose)
open Verif.Apmc (Env Config mixture select wanted)

variable {W Θ Y : Type}

/-- What a worker returns. -/
structure Out (Θ : Type) where
  θ : Θ
  d : Num
  weight : ℝ

/-- `_accept_parameter`, lines 3095-3149, as `Apmc.accept`. -/
noncomputable def accept (env : Env W Θ Y) (dist : Y → Num) (fuel : Nat) (pop : Option (Pop Θ)) (w : W) : Option (Out Θ) :=
  match pop with
  | none =>
    let a := env.prior w
    some ⟨a.2, dist (env.sim a.2 a.1).2, 1⟩
  | some p =>
    let i := env.choose p.weights w
    (p.params[i.2]?).bind fun _ => (propose env.pdf (env.perturb p i.2) fuel i.1).map fun a =>
      ⟨a.2, dist (env.sim a.2 a.1).2, 1 * env.pdf a.2 / mixture env p a.2⟩

/-- The population of a step with its threshold, and the particles that are carried over. -/
structure Rec (Θ : Type) where
  eps : Num
  params : List Θ
  distances : List Num
  weights : List ℝ
  keptParams : List Θ
  keptDistances : List Num
  keptWeights : List ℝ

structure State (Θ : Type) where
  epsilons : List Num
  hist : List (Rec Θ)
  journal : List (Rec Θ)
  stopped : Bool

/-- The particles that the workers see, line 3003. -/
def seen (s : State Θ) : Option (Pop Θ) := s.hist.getLast?.map fun r => ⟨r.keptParams, r.keptWeights⟩

/-- Lines 3022-3033: the population, from that carried over and the new one. -/
def merge (c : Config) (s : State Θ) (out : List (Out Θ)) : List Θ × List Num × List ℝ :=
  if out.length = c.n then (out.map Out.θ, out.map Out.d, out.map Out.weight)
  else match s.hist.getLast? with
    | none => (out.map Out.θ, out.map Out.d, out.map Out.weight)
    | some r => (r.keptParams ++ out.map Out.θ, r.keptDistances ++ out.map Out.d, r.keptWeights ++ out.map Out.weight)

open Classical in
/-- Lines 3027 and 3035. -/
noncomputable def acceptance (c : Config) (s : State Θ) (out : List (Out Θ)) : ℝ :=
  if out.length = c.n then 1
  else match s.epsilons.getLast? with
    | none => 1
    | some e => ((out.map Out.d).countP fun d => decide (d.lt e)) / (out.length : ℝ)

open Classical in
/-- Lines 3040-3043. The weights of an empty list of particles are an empty list. -/
noncomputable def keep (eps : Num) (p : List Θ × List Num × List ℝ) : Rec Θ :=
  let m := p.2.1.map fun d => decide (d.lt eps)
  ⟨eps, p.1, p.2.1, p.2.2, select m p.1, select m p.2.1, normalise (select m p.2.2)⟩

/-- Iteration `t`, lines 2992-3083, as `Apmc.step`. What the covariance of an empty list of particles gives (3058) is not modelled (if it is an exception, the run ends one step earlier). -/
noncomputable def step (env : Env W Θ Y) (dist : Y → Num) (c : Config) (fuel t : Nat) (start : List W) (s : State Θ) : Option (State Θ) :=
  if start.length ≠ wanted c t ∨ start = [] then none
  else
    match collect (start.map fun w => accept env dist fuel (seen s) w) with
    | none => none
    | some out => match percentile (merge c s out).2.1 (c.alpha * 100) with
      | none => none
      | some eps =>
        let r := keep eps (merge c s out)
        some ⟨(if out.length = c.n then [] else s.epsilons) ++ [eps], s.hist ++ [r],
          if c.full then s.journal ++ [r] else if t = c.steps - 1 then [r] else s.journal, acceptance c s out < c.cutoff⟩

noncomputable def loop (env : Env W Θ Y) (dist : Y → Num) (c : Config) (fuel : Nat) (start : Nat → List W) : Nat → Nat → State Θ → Option (State Θ)
  | 0, _, s => some s
  | k + 1, t, s => if s.stopped then some s else match step env dist c fuel t (start t) s with
    | none => none
    | some s => loop env dist c fuel start k (t + 1) s

/-- `APMCABC.sample` without a journal file, on a sampler that has not been used before. -/
noncomputable def run (env : Env W Θ Y) (dist : Y → Num) (c : Config) (fuel : Nat) (start : Nat → List W) : Option (State Θ) :=
  loop env dist c fuel start c.steps 0 ⟨[], [], [], false⟩

/-! ### C196 -/

theorem select_false {α β : Type} (l : List β) (xs : List α) (f : β → Bool) (h : ∀ d ∈ l, f d = false) : select (l.map f) xs = [] := by
  induction l generalizing xs with
  | nil => cases xs <;> rfl
  | cons d l ih =>
    cases xs with
    | nil => rw [List.map_cons, h d (by simp)]; rfl
    | cons x xs =>
      rw [List.map_cons, h d (by simp)]
      exact ih xs fun d hd => h d (List.mem_cons_of_mem _ hd)

theorem keep_nan (p : List Θ × List Num × List ℝ) : (keep .nan p).keptParams = [] := by
  unfold keep
  refine select_false _ _ _ ?_
  intro d _
  rw [decide_eq_false_iff_not]
  cases d <;> exact id

theorem step_eq (env : Env W Θ Y) (dist : Y → Num) (c : Config) (fuel t : Nat) (start : List W) (s s' : State Θ) (h : step env dist c fuel t start s = some s') :
    start ≠ [] ∧ ∃ (out : List (Out Θ)) (eps : Num), collect (start.map fun w => accept env dist fuel (seen s) w) = some out ∧ percentile (merge c s out).2.1 (c.alpha * 100) = some eps ∧
      s'.hist = s.hist ++ [keep eps (merge c s out)] ∧ s'.stopped = decide (acceptance c s out < c.cutoff) := by
  unfold step at h
  split at h
  · cases h
  · rename_i hc
    split at h
    · cases h
    · rename_i out ho
      split at h
      · cases h
      · rename_i eps he
        cases h
        exact ⟨fun h => hc (Or.inr h), out, eps, ho, he, rfl, rfl⟩

/-- Without particles to start from, a step raises. -/
theorem step_empty (env : Env W Θ Y) (dist : Y → Num) (c : Config) (fuel t : Nat) (start : List W) (s : State Θ) (r : Rec Θ) (hr : s.hist.getLast? = some r) (he : r.keptParams = []) :
    step env dist c fuel t start s = none := by
  cases h : step env dist c fuel t start s with
  | none => rfl
  | some s' =>
    obtain ⟨hne, out, eps, ho, -⟩ := step_eq env dist c fuel t start s s' h
    obtain ⟨w, ws, rfl⟩ := List.exists_cons_of_ne_nil hne
    have : accept env dist fuel (seen s) w = none := by
      unfold accept seen
      rw [hr]
      simp [he]
    rw [List.map_cons, this] at ho
    cases ho

/-- C196 fails for the threshold: after a step with a NaN among the distances of its population (particles carried over and new ones) the threshold is NaN, no particle is carried over, and every further step raises. -/
theorem C196_step_violated (env : Env W Θ Y) (dist : Y → Num) (c : Config) (fuel t : Nat) (start : List W) (s s' : State Θ) (h : step env dist c fuel t start s = some s') (r : Rec Θ)
    (hr : s'.hist.getLast? = some r) (hn : .nan ∈ r.distances) : r.eps = .nan ∧ r.keptParams = [] ∧ ∀ fuel' t' start', step env dist c fuel' t' start' s' = none := by
  obtain ⟨hne, out, eps, ho, hp, hh, -⟩ := step_eq env dist c fuel t start s s' h
  rw [hh, List.getLast?_concat] at hr
  cases hr
  have : eps = .nan := by
    rcases percentile_nan (merge c s out).2.1 (c.alpha * 100) hn with h | h
    · rw [h] at hp; cases hp
    · rw [h] at hp; cases hp; rfl
  subst this
  refine ⟨rfl, keep_nan _, fun fuel' t' start' => step_empty env dist c fuel' t' start' s' _ ?_ (keep_nan (merge c s out))⟩
  rw [hh, List.getLast?_concat]

/-- C196 fails for the run: if one of the first simulations has a distance that is NaN, a run of two or more steps ends with an exception, for every cutoff that is not above one. -/
theorem C196_run_violated (env : Env W Θ Y) (dist : Y → Num) (c : Config) (fuel : Nat) (start : Nat → List W) (hs : 2 ≤ c.steps) (hc : c.cutoff ≤ 1) (w : W) (hw : w ∈ start 0)
    (hd : dist (env.sim (env.prior w).2 (env.prior w).1).2 = .nan) : run env dist c fuel start = none := by
  obtain ⟨k, hk⟩ : ∃ k, c.steps = k + 2 := ⟨c.steps - 2, by omega⟩
  unfold run
  rw [hk, loop, if_neg (by simp)]
  cases h : step env dist c fuel 0 (start 0) ⟨[], [], [], false⟩ with
  | none => rfl
  | some s' =>
    simp only
    obtain ⟨hne, out, eps, ho, hp, hh, hst⟩ := step_eq env dist c fuel 0 (start 0) _ s' h
    have ho' : out = (start 0).map fun w => ⟨(env.prior w).2, dist (env.sim (env.prior w).2 (env.prior w).1).2, 1⟩ := by
      have : collect (((start 0).map fun w => (⟨(env.prior w).2, dist (env.sim (env.prior w).2 (env.prior w).1).2, 1⟩ : Out Θ)).map some) = some out := by
        rw [← ho, List.map_map]; rfl
      rw [collect_map_some] at this
      exact (Option.some.inj this).symm
    have hm : (merge c (⟨[], [], [], false⟩ : State Θ) out).2.1 = out.map Out.d := by unfold merge; split <;> rfl
    have hl : out.length = c.n := by
      unfold step at h
      split at h
      · cases h
      · rename_i hcond
        rw [ho', List.length_map]
        have := not_not.1 (not_or.1 hcond).1
        simpa [wanted] using this
    have ha : acceptance c (⟨[], [], [], false⟩ : State Θ) out = 1 := by unfold acceptance; rw [if_pos hl]
    rw [loop, hst, ha, if_neg (by simpa using hc)]
    have hlast : s'.hist.getLast? = some (keep eps (merge c ⟨[], [], [], false⟩ out)) := by rw [hh, List.getLast?_concat]
    have hn : .nan ∈ (keep eps (merge c (⟨[], [], [], false⟩ : State Θ) out)).distances := by
      show _ ∈ (merge c (⟨[], [], [], false⟩ : State Θ) out).2.1
      rw [hm, ho', List.map_map]
      exact List.mem_map.2 ⟨w, hw, hd⟩
    rw [(C196_step_violated env dist c fuel 0 (start 0) _ s' h _ hlast hn).2.2]

/-! ### Distances that are numbers -/

def Out.of (o : Verif.Apmc.Out Θ) : Out Θ := ⟨o.θ, .num o.d, o.weight⟩

def Rec.of (r : Verif.Apmc.Rec Θ) : Rec Θ := ⟨.num r.eps, r.params, r.distances.map .num, r.weights, r.keptParams, r.keptDistances.map .num, r.keptWeights⟩

def State.of (s : Verif.Apmc.State Θ) : State Θ := ⟨s.epsilons.map .num, s.hist.map Rec.of, s.journal.map Rec.of, s.stopped⟩

theorem accept_of (env : Env W Θ Y) (fuel : Nat) (pop : Option (Pop Θ)) (w : W) :
    accept env (fun y => .num (env.dist y)) fuel pop w = (Verif.Apmc.accept env fuel pop w).map Out.of := by
  unfold accept Verif.Apmc.accept
  cases pop with
  | none => rfl
  | some p =>
    simp only
    cases p.params[(env.choose p.weights w).2]? with
    | none => rfl
    | some _ =>
      simp only [Option.bind_some]
      cases propose env.pdf (env.perturb p (env.choose p.weights w).2) fuel (env.choose p.weights w).1 <;> rfl

theorem collect_map {A A' : Type} (f : A → A') (l : List (Option A)) : collect (l.map fun o => o.map f) = (collect l).map (List.map f) := by
  induction l with
  | nil => rfl
  | cons o l ih =>
    cases o with
    | none => rfl
    | some a =>
      simp only [List.map_cons, Option.map_some, collect, ih]
      cases collect l <;> rfl

theorem seen_of (s : Verif.Apmc.State Θ) : seen (State.of s) = Verif.Apmc.seen s := by
  unfold seen Verif.Apmc.seen State.of
  simp only [List.getLast?_map, Option.map_map]
  rfl

theorem merge_of (c : Config) (s : Verif.Apmc.State Θ) (out : List (Verif.Apmc.Out Θ)) :
    merge c (State.of s) (out.map Out.of) = ((Verif.Apmc.merge c s out).1, (Verif.Apmc.merge c s out).2.1.map .num, (Verif.Apmc.merge c s out).2.2) := by
  unfold merge Verif.Apmc.merge
  rw [List.length_map]
  by_cases h : out.length = c.n
  · rw [if_pos h, if_pos h]
    simp [Out.of, Function.comp_def]
  · rw [if_neg h, if_neg h]
    simp only [State.of, List.getLast?_map]
    cases s.hist.getLast? with
    | none => simp [Out.of, Function.comp_def]
    | some r => simp [Out.of, Rec.of, Function.comp_def]

theorem acceptance_of (c : Config) (s : Verif.Apmc.State Θ) (out : List (Verif.Apmc.Out Θ)) : acceptance c (State.of s) (out.map Out.of) = Verif.Apmc.acceptance c s out := by
  unfold acceptance Verif.Apmc.acceptance
  rw [List.length_map]
  by_cases h : out.length = c.n
  · rw [if_pos h, if_pos h]
  · rw [if_neg h, if_neg h]
    simp only [State.of, List.getLast?_map]
    cases s.epsilons.getLast? with
    | none => rfl
    | some e =>
      simp only [Option.map_some, List.countP_map]
      congr 2

theorem select_map {α β : Type} (f : α → β) : ∀ (m : List Bool) (l : List α), select m (l.map f) = (select m l).map f
  | [], l => by cases l <;> rfl
  | true :: m, [] => rfl
  | false :: m, [] => rfl
  | true :: m, x :: l => by simp only [List.map_cons, select, select_map f m l]
  | false :: m, x :: l => by simp only [List.map_cons, select, select_map f m l]

theorem keep_of (eps : ℝ) (p : List Θ × List ℝ × List ℝ) : keep (.num eps) (p.1, p.2.1.map .num, p.2.2) = Rec.of (Verif.Apmc.keep eps p) := by
  have hm : ((p.2.1.map Num.num).map fun d => @decide (d.lt (.num eps)) (Classical.propDecidable _)) = p.2.1.map fun d => decide (d < eps) := by
    rw [List.map_map]
    refine List.map_congr_left fun d _ => ?_
    simp only [Function.comp]
    exact decide_eq_decide.2 Iff.rfl
  unfold keep Verif.Apmc.keep Rec.of
  simp only [hm, select_map]

theorem step_of (env : Env W Θ Y) (c : Config) (fuel t : Nat) (start : List W) (s : Verif.Apmc.State Θ) :
    step env (fun y => .num (env.dist y)) c fuel t start (State.of s) = (Verif.Apmc.step env c fuel t start s).map State.of := by
  unfold step Verif.Apmc.step
  by_cases h : start.length ≠ wanted c t ∨ start = []
  · rw [if_pos h, if_pos h]; rfl
  · rw [if_neg h, if_neg h]
    have hc : collect (start.map fun w => accept env (fun y => .num (env.dist y)) fuel (seen (State.of s)) w) = (collect (start.map fun w => Verif.Apmc.accept env fuel (Verif.Apmc.seen s) w)).map (List.map Out.of) := by
      rw [← collect_map, List.map_map, seen_of]
      congr 2
      funext w
      exact accept_of env fuel _ w
    rw [hc]
    cases collect (start.map fun w => Verif.Apmc.accept env fuel (Verif.Apmc.seen s) w) with
    | none => rfl
    | some out =>
      simp only [Option.map_some, merge_of, percentile_num]
      cases Verif.Pmc.percentile (Verif.Apmc.merge c s out).2.1 (c.alpha * 100) with
      | none => rfl
      | some eps =>
        simp only [Option.map_some, keep_of, acceptance_of, List.length_map]
        congr 1
        unfold State.of
        simp only [List.map_append, List.map_cons, List.map_nil]
        congr 1
        · split <;> simp
        · split
          · simp
          · split <;> simp

theorem loop_of (env : Env W Θ Y) (c : Config) (fuel : Nat) (start : Nat → List W) (k : Nat) : ∀ (t : Nat) (s : Verif.Apmc.State Θ),
    loop env (fun y => .num (env.dist y)) c fuel start k t (State.of s) = (Verif.Apmc.loop env c fuel start k t s).map State.of := by
  induction k with
  | zero => intros; rfl
  | succ k ih =>
    intro t s
    rw [loop, Verif.Apmc.loop]
    have hs : (State.of s).stopped = s.stopped := rfl
    rw [hs]
    by_cases h : s.stopped = true
    · rw [if_pos h, if_pos h]; rfl
    · rw [if_neg h, if_neg h, step_of]
      cases Verif.Apmc.step env c fuel t (start t) s with
      | none => rfl
      | some s' => exact ih (t + 1) s'

/-- C196 for distances that are numbers: the run is that of `Verif.Apmc`. Missing: distances that are NaN, see `C196_run_violated`. -/
theorem C196_partial (env : Env W Θ Y) (dist : Y → Num) (c : Config) (fuel : Nat) (start : Nat → List W) (hd : ∀ y, dist y = .num (env.dist y)) :
    run env dist c fuel start = (Verif.Apmc.run env c fuel start).map State.of := by
  obtain rfl : dist = fun y => .num (env.dist y) := funext hd
  exact loop_of env c fuel start _ 0 ⟨[], [], [], false⟩

open Classical in
/-- The run of `Apmc.C49_size_violated` ends as it should, and raises if the distance of the last of the three first simulations is NaN. -/
example : (∃ s, run Verif.Apmc.exEnv (fun y => .num y) ⟨3, 2, 1 / 2, 0, true⟩ 1 Verif.Apmc.threeStart = some s ∧ s.journal.length = 2) ∧
    run Verif.Apmc.exEnv (fun y => if y = 2 then .nan else .num y) ⟨3, 2, 1 / 2, 0, true⟩ 1 Verif.Apmc.threeStart = none := by
  constructor
  · obtain ⟨-, -, s, h, hl, -⟩ := Verif.Apmc.C49_size_violated
    rw [C196_partial Verif.Apmc.exEnv (fun y => .num y) _ 1 _ (fun _ => rfl), h]
    exact ⟨_, rfl, by simp [State.of, hl]⟩
  · refine C196_run_violated _ _ _ _ _ le_rfl zero_le_one 2 (by simp [Verif.Apmc.threeStart]) ?_
    simp [Verif.Apmc.exEnv]

end Verif.Nan.Apmc
