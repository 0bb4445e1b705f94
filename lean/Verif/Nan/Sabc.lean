import Verif.Sabc.Props
import Verif.Nan.Apmc
/-
`SABC` with distances that may be NaN: C197. A distance is a real number or NaN (`none`); infinite distances are left out. Redefined distances, thresholds and the distances of all first tries are real numbers (a first try
with a NaN raises). What does not depend on distances is that of `Verif.Sabc`.
-/
namespace Verif.Nan.Sabc

open Verif.Pmc (Pop)
open Verif.Smc (propose)
open Verif.Sabc (Env Config assign mean average weights smoothAt)

variable {W Θ Y : Type}

/-- `_smoother_distance` of one distance, lines 1861-1889: comparisons with NaN are false, so that `np.mean(old < nan)` is 0. -/
noncomputable def smooth (old : List ℝ) (d : Option ℝ) : Option ℝ := old.min?.map fun m => d.elim 0 (smoothAt m old)

/-- What a worker returns; `all` are the distances of all tries. -/
structure Out (Θ : Type) where
  θ : Θ
  d : Option ℝ
  all : List ℝ
  index : Nat
  accepted : Bool
  count : Nat

/-- Lines 1963-1974, as `Sabc.first`: `rng.binomial(1, nan)` raises. -/
noncomputable def first (env : Env W Θ Y) (dist : Y → Option ℝ) (eps : ℝ) (index : Nat) : Nat → W → List ℝ → Nat → Option (Out Θ)
  | 0, _, _, _ => none
  | fuel + 1, w, all, c =>
    let a := env.prior w
    let b := env.sim a.2 a.1
    match dist b.2 with
    | none => none
    | some d =>
      let u := env.bern (Real.exp (-d / eps)) b.1
      if u.2 then some ⟨a.2, some d, all ++ [d], index, true, c + 1⟩ else first env dist eps index fuel u.1 (all ++ [d]) (c + 1)

structure State (Θ : Type) where
  params : List Θ
  distances : List (Option ℝ)
  smooths : List ℝ
  all : List ℝ
  eps : ℝ
  accept : Nat
  until_ : Nat
  journal : List (List Θ × List (Option ℝ))
  counter : Nat
  stopped : Bool

/-- Lines 1976-2004, as `Sabc.move`. -/
noncomputable def move (env : Env W Θ Y) (dist : Y → Option ℝ) (fuel n : Nat) (s : State Θ) (w : W) : Option (Out Θ) :=
  let i := env.choose n w
  (s.params[i.2]?).bind fun θ => (s.smooths[i.2]?).bind fun sθ =>
    (propose env.pdf (env.perturb ⟨s.params, List.replicate n 1⟩ i.2) fuel i.1).bind fun a =>
      let b := env.sim a.2 a.1
      let d := dist b.2
      let u := env.unif b.1
      (smooth s.all d).map fun sd =>
        ⟨a.2, d, [], i.2, if s.eps = 0 then sd < sθ else u.2 < env.pdf a.2 / env.pdf θ * Real.exp ((sθ - sd) / s.eps), 1⟩

/-- Lines 1729-1740 in the first step. -/
noncomputable def begin_ (out : List (Out Θ)) : Option (List Θ × List (Option ℝ) × List ℝ × List ℝ) :=
  let all := (out.map Out.all).flatten
  (collect (out.map fun o => smooth all o.d)).map fun sm => (out.map Out.θ, out.map Out.d, sm, all)

/-- Lines 1729-1740 in a later step. -/
noncomputable def replace (s : State Θ) (out : List (Out Θ)) : Option (List Θ × List (Option ℝ) × List ℝ × List ℝ) :=
  let acc := out.filter Out.accepted
  let ds := assign s.distances (acc.map fun o => (o.index, o.d))
  (collect (acc.map fun o => (ds[o.index]?).bind fun d => (smooth s.all d).map fun x => (o.index, x))).map fun m =>
    (assign s.params (acc.map fun o => (o.index, o.θ)), ds, assign s.smooths m, s.all)

/-- Lines 1764-1851. -/
noncomputable def finish (env : Env W Θ Y) (c : Config) (t : Nat) (u : ℝ) (s : State Θ) : Option (State Θ) :=
  let save (s : State Θ) : State Θ :=
    { s with journal := if c.full then s.journal ++ [(s.params, s.distances)] else [(s.params, s.distances)] }
  if c.resample ≤ s.accept ∧ 1 / 10 ^ 100 < u then
    let pick := env.pick t (weights c.delta u s.smooths)
    if pick.length = c.n then
      match collect (pick.map fun i => s.params[i]?), collect (pick.map fun i => s.smooths[i]?), collect (pick.map fun i => s.distances[i]?) with
      | some ps, some sm, some ds => some (save { s with params := ps, smooths := sm, distances := ds, eps := env.schedule (mean sm), accept := 0, until_ := 0 })
      | _, _, _ => none
    else none
  else some (save s)

/-- Iteration `t`, lines 1686-1857, as `Sabc.step`. -/
noncomputable def step (env : Env W Θ Y) (dist : Y → Option ℝ) (c : Config) (fuel t : Nat) (start : List W) (s : State Θ) : Option (State Θ) :=
  if start.length ≠ (if t = 0 then c.n else c.nUpdate) ∨ start = [] then none
  else
    match collect (start.map fun w => if t = 0 then first env dist c.eps 0 fuel w [] 0 else move env dist fuel c.n s w) with
    | none => none
    | some out => match (if t = 0 then begin_ out else replace s out) with
      | none => none
      | some p =>
        let counter := s.counter + (out.map Out.count).sum
        if t = 0 then
          match collect (p.2.2.2.map (Verif.Sabc.smooth p.2.2.2)) with
          | none => none
          | some l =>
            let u := average l c.eps
            finish env c t u ⟨p.1, p.2.1, p.2.2.1, p.2.2.2, env.schedule u, 0, 0, s.journal, counter, false⟩
        else
          let u := mean p.2.2.1
          let accept := s.accept + out.countP Out.accepted
          let s' : State Θ := ⟨p.1, p.2.1, p.2.2.1, p.2.2.2, env.schedule u, accept, s.until_ + c.nUpdate, s.journal, counter, false⟩
          if (accept : ℝ) / (s.until_ + c.nUpdate : ℕ) < c.cutoff then some { s' with stopped := true }
          else finish env c t u s'

noncomputable def loop (env : Env W Θ Y) (dist : Y → Option ℝ) (c : Config) (fuel : Nat) (start : Nat → List W) : Nat → Nat → State Θ → Option (State Θ)
  | 0, _, s => some s
  | k + 1, t, s => if s.stopped then some s else match step env dist c fuel t (start t) s with
    | none => none
    | some s => loop env dist c fuel start k (t + 1) s

/-- `SABC.sample` without a journal file, on a sampler that has not been used before. -/
noncomputable def run (env : Env W Θ Y) (dist : Y → Option ℝ) (c : Config) (fuel : Nat) (start : Nat → List W) : Option (State Θ) :=
  loop env dist c fuel start c.steps 0 ⟨[], [], [], [], c.eps, 0, 0, [], 0, false⟩

/-! ### C197: what happens with a NaN -/

/-- C197 fails for redefined distances: that of a NaN is zero, and no other one is smaller, for distances that are not negative. -/
theorem C197_smooth_violated (old : List ℝ) (hne : old ≠ []) (hold : ∀ x ∈ old, 0 ≤ x) : smooth old none = some 0 ∧ ∀ d x, 0 ≤ d → smooth old (some d) = some x → 0 ≤ x := by
  obtain ⟨m, hm⟩ : ∃ m, old.min? = some m := by
    cases h : old.min? with
    | none => exact absurd (List.min?_eq_none_iff.1 h) hne
    | some m => exact ⟨m, rfl⟩
  refine ⟨by simp [smooth, hm], ?_⟩
  intro d x hd hx
  simp only [smooth, hm, Option.map_some, Option.elim, Option.some.injEq] at hx
  rw [← hx]
  have hm0 : 0 ≤ m := hold m (List.min?_mem hm)
  unfold smoothAt
  split <;> positivity

/-- C197 fails for the first population: a worker whose first simulation has a NaN ends with an exception. -/
theorem C197_first_violated (env : Env W Θ Y) (dist : Y → Option ℝ) (eps : ℝ) (index fuel : Nat) (w : W) (all : List ℝ) (c : Nat) (hd : dist (env.sim (env.prior w).2 (env.prior w).1).2 = none) :
    first env dist eps index fuel w all c = none := by
  cases fuel with
  | zero => rfl
  | succ fuel => rw [first]; simp only [hd]

/-- C197 fails for the moves: a proposal whose distance is NaN is accepted with every random number below one if its prior density is at least that of the particle it starts from. -/
theorem C197_move_violated (env : Env W Θ Y) (dist : Y → Option ℝ) (fuel n : Nat) (s : State Θ) (w : W) (o : Out Θ) (h : move env dist fuel n s w = some o) (hd : o.d = none)
    (θ : Θ) (sθ : ℝ) (hθ : s.params[o.index]? = some θ) (hs : s.smooths[o.index]? = some sθ) (heps : 0 < s.eps) (h0 : 0 ≤ sθ) (hp : 0 < env.pdf θ) (hpr : env.pdf θ ≤ env.pdf o.θ)
    (hu : ∀ w, (env.unif w).2 < 1) : o.accepted = true := by
  unfold move at h
  obtain ⟨θ', h1, h⟩ := Option.bind_eq_some_iff.1 h
  obtain ⟨s', h2, h⟩ := Option.bind_eq_some_iff.1 h
  obtain ⟨a, h3, h⟩ := Option.bind_eq_some_iff.1 h
  obtain ⟨sd, h4, rfl⟩ := Option.map_eq_some_iff.1 h
  simp only at hd hθ hs hpr
  rw [h1] at hθ
  rw [h2] at hs
  cases hθ
  cases hs
  rw [hd] at h4
  have hsd : sd = 0 := by
    unfold smooth at h4
    obtain ⟨m, -, h5⟩ := Option.map_eq_some_iff.1 h4
    exact h5.symm
  simp only [if_neg heps.ne', hsd, sub_zero, decide_eq_true_eq]
  refine lt_of_lt_of_le (hu _) ?_
  have e1 : 1 ≤ env.pdf a.2 / env.pdf θ := (one_le_div hp).2 hpr
  have e2 : 1 ≤ Real.exp (sθ / s.eps) := Real.one_le_exp (div_nonneg h0 heps.le)
  nlinarith

/-- A particle whose distance is NaN has redefined distance zero: moves away from it to a numeric distance are accepted with probability at most the quotient of the prior densities times `exp (-sd / eps)`. -/
theorem C197_leave (env : Env W Θ Y) (dist : Y → Option ℝ) (fuel n : Nat) (s : State Θ) (w : W) (o : Out Θ) (h : move env dist fuel n s w = some o) (θ : Θ)
    (hθ : s.params[o.index]? = some θ) (hs : s.smooths[o.index]? = some 0) (heps : 0 < s.eps) (sd : ℝ) (hsd : smooth s.all o.d = some sd) :
    ∃ u, o.accepted = decide ((env.unif u).2 < env.pdf o.θ / env.pdf θ * Real.exp (-sd / s.eps)) := by
  unfold move at h
  obtain ⟨θ', h1, h⟩ := Option.bind_eq_some_iff.1 h
  obtain ⟨s', h2, h⟩ := Option.bind_eq_some_iff.1 h
  obtain ⟨a, h3, h⟩ := Option.bind_eq_some_iff.1 h
  obtain ⟨sd', h4, rfl⟩ := Option.map_eq_some_iff.1 h
  simp only at hsd hθ hs
  rw [h1] at hθ
  rw [h2] at hs
  rw [h4] at hsd
  cases hθ
  cases hs
  cases hsd
  refine ⟨(env.sim a.2 a.1).1, ?_⟩
  simp only [if_neg heps.ne', zero_sub]

/-! ### A NaN is treated as the smallest distance of the first tries -/

/-- The environment of `Verif.Sabc` in which a NaN is replaced by `m`. -/
def replaced (m : ℝ) (env : Env W Θ Y) (dist : Y → Option ℝ) : Env W Θ Y := { env with dist := fun y => (dist y).getD m }

def Out.real (m : ℝ) (o : Out Θ) : Verif.Sabc.Out Θ := ⟨o.θ, o.d.getD m, o.all, o.index, o.accepted, o.count⟩

/-- The state with NaN replaced by `m` in the distances; parameters, redefined distances, thresholds and counts are the same. -/
def State.real (m : ℝ) (s : State Θ) : Verif.Sabc.State Θ :=
  ⟨s.params, s.distances.map (·.getD m), s.smooths, s.all, s.eps, s.accept, s.until_, s.journal.map fun e => (e.1, e.2.map (·.getD m)), s.counter, s.stopped⟩

theorem smoothAt_min (m : ℝ) (old : List ℝ) (h : old.min? = some m) : smoothAt m old m = 0 := by
  unfold smoothAt
  rw [if_neg (lt_irrefl m)]
  have : old.countP (fun x => decide (x < m)) = 0 := by
    rw [List.countP_eq_zero]
    intro x hx
    have := (List.min?_eq_some_iff.1 h).2 x hx
    simpa using this
  rw [this]
  simp

theorem smooth_real (m : ℝ) (old : List ℝ) (h : old.min? = some m) (d : Option ℝ) : Verif.Sabc.smooth old (d.getD m) = smooth old d := by
  unfold Verif.Sabc.smooth smooth
  rw [h]
  cases d with
  | none => simp [smoothAt_min m old h]
  | some d => rfl

theorem move_real (m : ℝ) (env : Env W Θ Y) (dist : Y → Option ℝ) (fuel n : Nat) (s : State Θ) (h : s.all.min? = some m) (w : W) :
    Verif.Sabc.move (replaced m env dist) fuel n (s.real m) w = (move env dist fuel n s w).map (Out.real m) := by
  unfold Verif.Sabc.move move
  simp only [replaced, State.real]
  cases s.params[(env.choose n w).2]? with
  | none => rfl
  | some θ =>
    cases s.smooths[(env.choose n w).2]? with
    | none => rfl
    | some sθ =>
      simp only [Option.bind_some]
      cases propose env.pdf (env.perturb ⟨s.params, List.replicate n 1⟩ (env.choose n w).2) fuel (env.choose n w).1 with
      | none => rfl
      | some a =>
        simp only [Option.bind_some, smooth_real m s.all h]
        cases smooth s.all (dist (env.sim a.2 a.1).2) <;> rfl

theorem assign_map {α β : Type} (f : α → β) (l : List α) (m : List (Nat × α)) : assign (l.map f) (m.map fun e => (e.1, f e.2)) = (assign l m).map f := by
  unfold assign
  induction m generalizing l with
  | nil => rfl
  | cons e m ih => simp only [List.map_cons, List.foldl_cons, ← List.map_set, ih]

theorem replace_real (m : ℝ) (s : State Θ) (h : s.all.min? = some m) (out : List (Out Θ)) :
    Verif.Sabc.replace (s.real m) (out.map (Out.real m)) = (replace s out).map fun p => (p.1, p.2.1.map (·.getD m), p.2.2.1, p.2.2.2) := by
  unfold Verif.Sabc.replace replace
  have hf : (out.map (Out.real m)).filter Verif.Sabc.Out.accepted = (out.filter Out.accepted).map (Out.real m) := by
    rw [List.filter_map]; rfl
  have hd : assign (s.real m).distances (((out.filter Out.accepted).map (Out.real m)).map fun o => (o.index, o.d)) =
      (assign s.distances ((out.filter Out.accepted).map fun o => (o.index, o.d))).map (·.getD m) := by
    rw [← assign_map, List.map_map, List.map_map]
    rfl
  simp only [hf, hd]
  have hc : (((out.filter Out.accepted).map (Out.real m)).map fun o => (((assign s.distances ((out.filter Out.accepted).map fun o => (o.index, o.d))).map (·.getD m))[o.index]?).bind fun d =>
      (Verif.Sabc.smooth (s.real m).all d).map fun x => (o.index, x)) =
      (out.filter Out.accepted).map fun o => ((assign s.distances ((out.filter Out.accepted).map fun o => (o.index, o.d)))[o.index]?).bind fun d => (smooth s.all d).map fun x => (o.index, x) := by
    rw [List.map_map]
    refine List.map_congr_left fun o _ => ?_
    simp only [Function.comp, Out.real, List.getElem?_map]
    cases (assign s.distances ((out.filter Out.accepted).map fun o => (o.index, o.d)))[o.index]? with
    | none => rfl
    | some d => simp only [Option.map_some, Option.bind_some, State.real, smooth_real m s.all h]
  rw [hc]
  cases collect ((out.filter Out.accepted).map fun o => ((assign s.distances ((out.filter Out.accepted).map fun o => (o.index, o.d)))[o.index]?).bind fun d => (smooth s.all d).map fun x => (o.index, x)) with
  | none => rfl
  | some l =>
    simp only [Option.map_some, List.map_map]
    rfl

theorem finish_real (m : ℝ) (env : Env W Θ Y) (dist : Y → Option ℝ) (c : Config) (t : Nat) (u : ℝ) (s : State Θ) :
    Verif.Sabc.finish (replaced m env dist) c t u (s.real m) = (finish env c t u s).map (State.real m) := by
  unfold Verif.Sabc.finish finish
  by_cases hc : c.resample ≤ s.accept ∧ 1 / 10 ^ 100 < u
  · have hc' : c.resample ≤ (s.real m).accept ∧ 1 / 10 ^ 100 < u := hc
    rw [if_pos hc, if_pos hc']
    by_cases hl : (env.pick t (weights c.delta u s.smooths)).length = c.n
    · have hl' : ((replaced m env dist).pick t (weights c.delta u (s.real m).smooths)).length = c.n := hl
      rw [if_pos hl, if_pos hl']
      simp only [replaced, State.real]
      have hd : collect ((env.pick t (weights c.delta u s.smooths)).map fun i => (s.distances.map (·.getD m))[i]?) =
          (collect ((env.pick t (weights c.delta u s.smooths)).map fun i => s.distances[i]?)).map (List.map (·.getD m)) := by
        rw [← Apmc.collect_map, List.map_map]
        congr 1
        refine List.map_congr_left fun i _ => ?_
        simp [List.getElem?_map]
      rw [hd]
      cases collect ((env.pick t (weights c.delta u s.smooths)).map fun i => s.params[i]?) with
      | none => rfl
      | some ps =>
        cases collect ((env.pick t (weights c.delta u s.smooths)).map fun i => s.smooths[i]?) with
        | none => rfl
        | some sm =>
          cases collect ((env.pick t (weights c.delta u s.smooths)).map fun i => s.distances[i]?) with
          | none => rfl
          | some ds =>
            simp only [Option.map_some]
            congr 2
            split <;> simp
    · have hl' : ¬ ((replaced m env dist).pick t (weights c.delta u (s.real m).smooths)).length = c.n := hl
      rw [if_neg hl, if_neg hl']; rfl
  · have hc' : ¬ (c.resample ≤ (s.real m).accept ∧ 1 / 10 ^ 100 < u) := hc
    rw [if_neg hc, if_neg hc']
    simp only [State.real, Option.map_some]
    congr 2
    split <;> simp

theorem finish_all (env : Env W Θ Y) (c : Config) (t : Nat) (u : ℝ) (s s' : State Θ) (h : finish env c t u s = some s') : s'.all = s.all := by
  unfold finish at h
  simp only at h
  split at h
  · split at h
    · split at h
      · cases h; rfl
      · cases h
    · cases h
  · cases h; rfl

/-- A later step. -/
theorem step_real (m : ℝ) (env : Env W Θ Y) (dist : Y → Option ℝ) (c : Config) (fuel t : Nat) (ht : t ≠ 0) (start : List W) (s : State Θ) (h : s.all.min? = some m) :
    Verif.Sabc.step (replaced m env dist) c fuel t start (s.real m) = (step env dist c fuel t start s).map (State.real m) ∧
      ∀ s', step env dist c fuel t start s = some s' → s'.all = s.all := by
  unfold Verif.Sabc.step step
  simp only [if_neg ht]
  by_cases hl : start.length ≠ c.nUpdate ∨ start = []
  · rw [if_pos hl, if_pos hl]; exact ⟨rfl, by simp⟩
  · rw [if_neg hl, if_neg hl]
    have hc : collect (start.map fun w => Verif.Sabc.move (replaced m env dist) fuel c.n (s.real m) w) = (collect (start.map fun w => move env dist fuel c.n s w)).map (List.map (Out.real m)) := by
      rw [← Apmc.collect_map, List.map_map]
      congr 1
      exact List.map_congr_left fun w _ => move_real m env dist fuel c.n s h w
    rw [hc]
    cases collect (start.map fun w => move env dist fuel c.n s w) with
    | none => exact ⟨rfl, by simp⟩
    | some out =>
      simp only [Option.map_some, replace_real m s h]
      cases hr : replace s out with
      | none => exact ⟨rfl, by simp⟩
      | some p =>
        have ha : p.2.2.2 = s.all := by
          unfold replace at hr
          obtain ⟨l, -, rfl⟩ := Option.map_eq_some_iff.1 hr
          rfl
        have hcnt : (out.map (Out.real m)).countP Verif.Sabc.Out.accepted = out.countP Out.accepted := by rw [List.countP_map]; rfl
        have hsum : ((out.map (Out.real m)).map Verif.Sabc.Out.count).sum = (out.map Out.count).sum := by rw [List.map_map]; rfl
        simp only [Option.map_some, hcnt, hsum, State.real]
        by_cases hk : ((s.accept + out.countP Out.accepted : ℕ) : ℝ) / (s.until_ + c.nUpdate : ℕ) < c.cutoff
        · rw [if_pos hk, if_pos hk]
          refine ⟨rfl, ?_⟩
          rintro s' hs'
          cases hs'
          exact ha
        · rw [if_neg hk, if_neg hk]
          refine ⟨finish_real m env dist c t (mean p.2.2.1) ⟨p.1, p.2.1, p.2.2.1, p.2.2.2, env.schedule (mean p.2.2.1), s.accept + out.countP Out.accepted, s.until_ + c.nUpdate, s.journal, s.counter + (out.map Out.count).sum, false⟩, ?_⟩
          intro s' hs'
          rw [finish_all _ _ _ _ _ _ hs']
          exact ha

theorem loop_real (m : ℝ) (env : Env W Θ Y) (dist : Y → Option ℝ) (c : Config) (fuel : Nat) (start : Nat → List W) (k : Nat) : ∀ (t : Nat) (s : State Θ), t ≠ 0 → s.all.min? = some m →
    Verif.Sabc.loop (replaced m env dist) c fuel start k t (s.real m) = (loop env dist c fuel start k t s).map (State.real m) ∧ ∀ s', loop env dist c fuel start k t s = some s' → s'.all = s.all := by
  induction k with
  | zero => intro t s _ _; exact ⟨rfl, fun s' h => by cases h; rfl⟩
  | succ k ih =>
    intro t s ht hm
    rw [Verif.Sabc.loop, loop]
    have hs : (s.real m).stopped = s.stopped := rfl
    rw [hs]
    by_cases h : s.stopped = true
    · rw [if_pos h, if_pos h]; exact ⟨rfl, fun s' h => by cases h; rfl⟩
    · rw [if_neg h, if_neg h]
      obtain ⟨h1, h2⟩ := step_real m env dist c fuel t ht (start t) s hm
      rw [h1]
      cases hst : step env dist c fuel t (start t) s with
      | none => exact ⟨rfl, by simp⟩
      | some s1 =>
        have ha := h2 s1 hst
        obtain ⟨h3, h4⟩ := ih (t + 1) s1 (by omega) (by rw [ha]; exact hm)
        exact ⟨h3, fun s' hs' => by rw [h4 s' hs', ha]⟩

theorem first_real (m : ℝ) (env : Env W Θ Y) (dist : Y → Option ℝ) (eps : ℝ) (index fuel : Nat) : ∀ (w : W) (all : List ℝ) (c : Nat) (o : Out Θ), first env dist eps index fuel w all c = some o →
    Verif.Sabc.first (replaced m env dist) eps index fuel w all c = some (o.real m) ∧ (∃ d, o.d = some d) := by
  induction fuel with
  | zero => intro w all c o h; cases h
  | succ fuel ih =>
    intro w all c o h
    rw [first] at h
    rw [Verif.Sabc.first]
    rcases hd : dist (env.sim (env.prior w).2 (env.prior w).1).2 with _ | d
    · rw [hd] at h; cases h
    · rw [hd] at h
      have hd' : (replaced m env dist).dist (env.sim (env.prior w).2 (env.prior w).1).2 = d := by simp only [replaced, hd, Option.getD_some]
      have hp : (replaced m env dist).prior w = env.prior w := rfl
      have hsim : (replaced m env dist).sim = env.sim := rfl
      have hbe : (replaced m env dist).bern = env.bern := rfl
      simp only [hp, hsim, hbe, hd'] at h ⊢
      by_cases hb : (env.bern (Real.exp (-d / eps)) (env.sim (env.prior w).2 (env.prior w).1).1).2 = true
      · rw [if_pos hb] at h ⊢
        cases h
        exact ⟨rfl, d, rfl⟩
      · rw [if_neg hb] at h ⊢
        exact ih _ _ _ _ h

theorem collect_real {A B A' : Type} (f : A → Option B) (g : A → Option A') (r : B → A') (l : List A) (out : List B) (h : collect (l.map f) = some out) (hfg : ∀ a b, f a = some b → g a = some (r b)) :
    collect (l.map g) = some (out.map r) := by
  rw [collect_eq_some] at h ⊢
  rw [List.map_map]
  induction l generalizing out with
  | nil => cases out with
    | nil => rfl
    | cons => simp at h
  | cons a l ih =>
    cases out with
    | nil => simp at h
    | cons b out =>
      simp only [List.map_cons, List.cons.injEq] at h ⊢
      exact ⟨hfg a b h.1, ih out h.2⟩

/-- The first step, if it does not raise. -/
theorem step_first (env : Env W Θ Y) (dist : Y → Option ℝ) (c : Config) (fuel : Nat) (start : List W) (s0 s : State Θ) (h : step env dist c fuel 0 start s0 = some s) :
    (∃ m, s.all.min? = some m) ∧ ∀ m, Verif.Sabc.step (replaced m env dist) c fuel 0 start (s0.real m) = some (s.real m) := by
  unfold step at h
  simp only [if_true] at h
  by_cases hl : start.length ≠ c.n ∨ start = []
  · rw [if_pos hl] at h; cases h
  · rw [if_neg hl] at h
    cases ho : collect (start.map fun w => first env dist c.eps 0 fuel w [] 0) with
    | none => rw [ho] at h; cases h
    | some out =>
      rw [ho] at h
      simp only at h
      cases hb : begin_ out with
      | none => rw [hb] at h; cases h
      | some p =>
        rw [hb] at h
        simp only at h
        cases hu : collect (p.2.2.2.map (Verif.Sabc.smooth p.2.2.2)) with
        | none => rw [hu] at h; cases h
        | some l =>
          rw [hu] at h
          simp only at h
          have hd : ∀ o ∈ out, ∃ d, o.d = some d := by
            intro o hoo
            have : some o ∈ out.map some := List.mem_map_of_mem hoo
            rw [← (collect_eq_some _ _).1 ho] at this
            obtain ⟨w, -, hw⟩ := List.mem_map.1 this
            exact (first_real 0 env dist c.eps 0 fuel w [] 0 o hw).2
          have hall : p.2.2.2 = (out.map Out.all).flatten := by
            unfold begin_ at hb
            obtain ⟨sm, -, rfl⟩ := Option.map_eq_some_iff.1 hb
            rfl
          have hone : out ≠ [] := by
            rintro rfl
            have := congrArg List.length ((collect_eq_some _ _).1 ho)
            simp at this
            exact hl (Or.inr this)
          have hmin : ∃ m, ((out.map Out.all).flatten).min? = some m := by
            obtain ⟨o, out', rfl⟩ := List.exists_cons_of_ne_nil hone
            unfold begin_ at hb
            obtain ⟨sm, hsm, -⟩ := Option.map_eq_some_iff.1 hb
            cases hq : (((o :: out').map Out.all).flatten).min? with
            | some m => exact ⟨m, rfl⟩
            | none =>
              rw [List.map_cons] at hsm
              simp only [smooth] at hsm
              rw [hq] at hsm
              cases hsm
          refine ⟨by rw [finish_all _ _ _ _ _ _ h]; simp only [hall]; exact hmin, ?_⟩
          intro m
          unfold Verif.Sabc.step
          simp only [if_true]
          rw [if_neg hl, collect_real _ _ (Out.real m) _ out ho fun w o hw => (first_real m env dist c.eps 0 fuel w [] 0 o hw).1]
          have hb' : Verif.Sabc.begin_ (out.map (Out.real m)) = some (p.1, p.2.1.map (·.getD m), p.2.2.1, p.2.2.2) := by
            unfold begin_ at hb
            obtain ⟨sm, hsm, rfl⟩ := Option.map_eq_some_iff.1 hb
            unfold Verif.Sabc.begin_
            have e1 : ((out.map (Out.real m)).map Verif.Sabc.Out.all) = out.map Out.all := by rw [List.map_map]; rfl
            simp only [e1, List.map_map]
            have e2 : (out.map ((fun o => Verif.Sabc.smooth (out.map Out.all).flatten o.d) ∘ Out.real m)) = out.map fun o => smooth (out.map Out.all).flatten o.d := by
              refine List.map_congr_left fun o ho => ?_
              obtain ⟨d, hd⟩ := hd o ho
              simp only [Function.comp, Out.real, hd, Option.getD_some]
              rfl
            rw [e2, hsm]
            rfl
          simp only [hb', hu]
          have hsum : ((out.map (Out.real m)).map Verif.Sabc.Out.count).sum = (out.map Out.count).sum := by rw [List.map_map]; rfl
          rw [hsum]
          have := finish_real m env dist c 0 (average l c.eps) ⟨p.1, p.2.1, p.2.2.1, p.2.2.2, env.schedule (average l c.eps), 0, 0, s0.journal, s0.counter + (out.map Out.count).sum, false⟩
          rw [h] at this
          exact this

/-- C197, what happens exactly: if `SABC` ends, the run is the one in which every distance that is NaN is replaced by the smallest distance `m` of the first tries, that is by a distance at which
moves are accepted most easily; parameters, redefined distances, thresholds and counts are the same. -/
theorem C197_exact (env : Env W Θ Y) (dist : Y → Option ℝ) (c : Config) (fuel : Nat) (start : Nat → List W) (hs : 0 < c.steps) (s : State Θ) (h : run env dist c fuel start = some s) :
    ∃ m, s.all.min? = some m ∧ Verif.Sabc.run (replaced m env dist) c fuel start = some (s.real m) := by
  obtain ⟨k, hk⟩ : ∃ k, c.steps = k + 1 := ⟨c.steps - 1, by omega⟩
  unfold run at h
  rw [hk, loop, if_neg (by simp)] at h
  cases h1 : step env dist c fuel 0 (start 0) ⟨[], [], [], [], c.eps, 0, 0, [], 0, false⟩ with
  | none => rw [h1] at h; cases h
  | some s1 =>
    rw [h1] at h
    simp only at h
    obtain ⟨⟨m, hm⟩, h2⟩ := step_first env dist c fuel (start 0) _ s1 h1
    obtain ⟨h3, h4⟩ := loop_real m env dist c fuel start k 1 s1 one_ne_zero hm
    refine ⟨m, by rw [h4 s h]; exact hm, ?_⟩
    unfold Verif.Sabc.run
    rw [hk, Verif.Sabc.loop, if_neg (by simp)]
    have := h2 m
    simp only [State.real, List.map_nil] at this
    rw [this]
    simp only [Nat.zero_add]
    rw [show (⟨s1.params, s1.distances.map (·.getD m), s1.smooths, s1.all, s1.eps, s1.accept, s1.until_, s1.journal.map fun e => (e.1, e.2.map (·.getD m)), s1.counter, s1.stopped⟩ : Verif.Sabc.State Θ) = s1.real m from rfl, h3, h]
    rfl

/-- C197 for distances that are numbers: if the run ends, it is that of `Verif.Sabc`. Missing: distances that are NaN, see the theorems above. -/
theorem C197_partial (env : Env W Θ Y) (dist : Y → Option ℝ) (c : Config) (fuel : Nat) (start : Nat → List W) (hs : 0 < c.steps) (hd : ∀ y, dist y = some (env.dist y)) (s : State Θ)
    (h : run env dist c fuel start = some s) : ∃ m, Verif.Sabc.run env c fuel start = some (s.real m) := by
  obtain ⟨m, -, h⟩ := C197_exact env dist c fuel start hs s h
  refine ⟨m, ?_⟩
  rw [← h]
  congr 1
  unfold replaced
  simp only [hd, Option.getD_some]

/-! ### A run -/

/-- As `Sabc.exEnv`, but data below 1 have a NaN. -/
noncomputable def exDist (y : ℝ) : Option ℝ := if y < 1 then none else some |y|

noncomputable def exStart (t : Nat) : List ℝ := if t = 0 then [1] else [1 / 2]

/-- C197 fails for whole runs: the second step replaces the only particle, whose distance is 1, by one whose distance is NaN, and the journal has it as its last population. -/
theorem C197_run_violated : ∃ s, run Verif.Sabc.exEnv exDist ⟨1, 2, 1, 10, 1 / 10, 1, 6 / 10, true⟩ 1 exStart = some s ∧ s.stopped = false ∧ s.distances = [none] ∧ s.journal = [([1], [some 1]), ([1 / 2], [none])] := by
  have h1 : step Verif.Sabc.exEnv exDist ⟨1, 2, 1, 10, 1 / 10, 1, 6 / 10, true⟩ 1 0 (exStart 0) ⟨[], [], [], [], 1, 0, 0, [], 0, false⟩ =
      some ⟨[1], [some 1], [0], [1], 1, 0, 0, [([1], [some 1])], 1, false⟩ := by
    norm_num [step, exStart, first, Verif.Sabc.exEnv, exDist, collect, begin_, smooth, Verif.Sabc.smooth, smoothAt, List.min?, finish]
  have h2 : ∃ s, step Verif.Sabc.exEnv exDist ⟨1, 2, 1, 10, 1 / 10, 1, 6 / 10, true⟩ 1 1 (exStart 1) ⟨[1], [some 1], [0], [1], 1, 0, 0, [([1], [some 1])], 1, false⟩ = some s ∧ s.stopped = false ∧
      s.distances = [none] ∧ s.journal = [([1], [some 1]), ([1 / 2], [none])] := by
    norm_num [step, exStart, move, Verif.Sabc.exEnv, exDist, propose, collect, replace, smooth, smoothAt, List.min?, finish, assign, mean]
  obtain ⟨s, h2, h3, h4⟩ := h2
  refine ⟨s, ?_, h3, h4⟩
  unfold run
  simp only
  rw [loop, h1]
  simp only [Bool.false_eq_true, if_false]
  rw [loop, h2]
  simp only [Bool.false_eq_true, if_false, loop]

/-- The hypotheses of `C197_exact` are met by this run: it is the run in which the distance of the second particle is 1, the smallest of the first tries. -/
example : ∃ s m, run Verif.Sabc.exEnv exDist ⟨1, 2, 1, 10, 1 / 10, 1, 6 / 10, true⟩ 1 exStart = some s ∧ none ∈ s.distances ∧ s.all.min? = some m := by
  obtain ⟨s, h, -, h0, -⟩ := C197_run_violated
  obtain ⟨m, hm, h2⟩ := C197_exact _ _ _ _ _ (by norm_num) s h
  exact ⟨s, m, h, by simp [h0], hm⟩

end Verif.Nan.Sabc
