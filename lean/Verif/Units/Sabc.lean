import Verif.Units.Basic
import Verif.Sabc.Model
import Mathlib.Tactic.FieldSimp
/-!
# C204: the unit of the distance, `SABC`
-/
namespace Verif.Units

open Verif.Pmc (Pop)
open Verif.Smc (propose)
open Sabc

variable {W Θ Y : Type} {u : ℝ} (hu : 0 < u)

/-- Specification: the same problem, with distances measured in another unit. -/
def sabcIn (u : ℝ) (env : Env W Θ Y) : Env W Θ Y := { env with dist := fun y => u * env.dist y }

/-- Specification: the same configuration, with the first threshold in another unit. -/
def sabcConfigIn (u : ℝ) (c : Config) : Config := { c with eps := u * c.eps }

/-- Specification: the same state, with distances in another unit. The redefined distances, and the thresholds for them, have no unit. -/
def sabcStateIn (u : ℝ) (s : State Θ) : State Θ :=
  { s with distances := s.distances.map fun x => u * x, all := s.all.map fun x => u * x, journal := s.journal.map fun e => (e.1, e.2.map fun x => u * x) }

def sabcOutIn (u : ℝ) (o : Out Θ) : Out Θ := { o with d := u * o.d, all := o.all.map fun x => u * x }

variable (env : Env W Θ Y)

include hu in
theorem min_in (l : List ℝ) : (l.map fun x => u * x).min? = l.min?.map fun x => u * x := by
  cases l with
  | nil => rfl
  | cons x l =>
    simp only [List.map_cons, List.min?_cons', Option.map_some, Option.some.injEq]
    induction l generalizing x with
    | nil => rfl
    | cons y l ih =>
      simp only [List.map_cons, List.foldl_cons]
      rw [← mul_min_of_nonneg _ _ hu.le]
      exact ih _

include hu in
theorem smooth_in (old : List ℝ) (d : ℝ) : smooth (old.map fun x => u * x) (u * d) = smooth old d := by
  unfold smooth
  rw [min_in hu]
  cases old.min? with
  | none => rfl
  | some m =>
    simp only [Option.map_some, smoothAt, mul_lt_mul_iff_right₀ hu, List.length_map, List.countP_map, Function.comp_def, mul_div_mul_left _ _ hu.ne']

include hu in
theorem sabc_first (eps : ℝ) (index fuel : Nat) (w : W) (all : List ℝ) (c : Nat) :
    first (sabcIn u env) (u * eps) index fuel w (all.map fun x => u * x) c = (first env eps index fuel w all c).map (sabcOutIn u) := by
  induction fuel generalizing w all c with
  | zero => rfl
  | succ fuel ih =>
    unfold first
    simp only
    rw [show (sabcIn u env).prior w = env.prior w from rfl, show (sabcIn u env).sim (env.prior w).2 (env.prior w).1 = env.sim (env.prior w).2 (env.prior w).1 from rfl,
      show ∀ y, (sabcIn u env).dist y = u * env.dist y from fun _ => rfl, show (sabcIn u env).bern = env.bern from rfl, neg_mul_eq_mul_neg, mul_div_mul_left _ _ hu.ne']
    rw [show (all.map fun x => u * x) ++ [u * env.dist (env.sim (env.prior w).2 (env.prior w).1).2] =
      (all ++ [env.dist (env.sim (env.prior w).2 (env.prior w).1).2]).map fun x => u * x by simp, ih]
    cases (env.bern (Real.exp (-env.dist (env.sim (env.prior w).2 (env.prior w).1).2 / eps)) (env.sim (env.prior w).2 (env.prior w).1).1).2 <;> rfl

include hu in
theorem sabc_move (fuel n : Nat) (s : State Θ) (w : W) : move (sabcIn u env) fuel n (sabcStateIn u s) w = (move env fuel n s w).map (sabcOutIn u) := by
  unfold move
  simp only
  rw [show (sabcIn u env).choose = env.choose from rfl, show (sabcStateIn u s).params = s.params from rfl, show (sabcStateIn u s).smooths = s.smooths from rfl]
  cases s.params[(env.choose n w).2]? with
  | none => rfl
  | some θ =>
    cases s.smooths[(env.choose n w).2]? with
    | none => rfl
    | some sθ =>
      simp only [Option.bind_some]
      rw [show propose (sabcIn u env).pdf ((sabcIn u env).perturb ⟨s.params, List.replicate n 1⟩ (env.choose n w).2) fuel (env.choose n w).1 =
        propose env.pdf (env.perturb ⟨s.params, List.replicate n 1⟩ (env.choose n w).2) fuel (env.choose n w).1 from rfl]
      cases propose env.pdf (env.perturb ⟨s.params, List.replicate n 1⟩ (env.choose n w).2) fuel (env.choose n w).1 with
      | none => rfl
      | some a =>
        simp only [Option.bind_some]
        rw [show (sabcIn u env).sim a.2 a.1 = env.sim a.2 a.1 from rfl, show ∀ y, (sabcIn u env).dist y = u * env.dist y from fun _ => rfl,
          show (sabcStateIn u s).all = s.all.map fun x => u * x from rfl, smooth_in hu, Option.map_map]
        rfl

theorem assign_map {A B : Type} (f : A → B) (l : List A) (m : List (Nat × A)) : assign (l.map f) (m.map fun e => (e.1, f e.2)) = (assign l m).map f := by
  unfold assign
  induction m generalizing l with
  | nil => rfl
  | cons e m ih =>
    simp only [List.map_cons, List.foldl_cons, ← List.map_set]
    exact ih _

/-- A population with its distances in another unit. -/
def partsIn (u : ℝ) (p : List Θ × List ℝ × List ℝ × List ℝ) : List Θ × List ℝ × List ℝ × List ℝ := (p.1, p.2.1.map (fun x => u * x), p.2.2.1, p.2.2.2.map fun x => u * x)

include hu in
theorem begin_in (out : List (Out Θ)) : begin_ (out.map (sabcOutIn u)) = (begin_ out).map (partsIn u) := by
  have ha : ((out.map (sabcOutIn u)).map Out.all).flatten = (out.map Out.all).flatten.map fun x => u * x := by
    rw [List.map_map, List.map_flatten, List.map_map]; rfl
  have hd : (out.map (sabcOutIn u)).map Out.d = (out.map Out.d).map fun x => u * x := by rw [List.map_map, List.map_map]; rfl
  have hθ : (out.map (sabcOutIn u)).map Out.θ = out.map Out.θ := by rw [List.map_map]; rfl
  have hs : (out.map (sabcOutIn u)).map (fun o => smooth ((out.map Out.all).flatten.map fun x => u * x) o.d) = out.map fun o => smooth (out.map Out.all).flatten o.d := by
    rw [List.map_map]
    exact List.map_congr_left fun o _ => smooth_in hu _ o.d
  unfold begin_
  simp only [ha, hd, hθ, hs, Option.map_map]
  rfl

include hu in
theorem replace_in (s : State Θ) (out : List (Out Θ)) : replace (sabcStateIn u s) (out.map (sabcOutIn u)) = (replace s out).map (partsIn u) := by
  have hf : (out.map (sabcOutIn u)).filter Out.accepted = (out.filter Out.accepted).map (sabcOutIn u) := by
    rw [List.filter_map]; rfl
  unfold replace
  simp only [hf]
  generalize out.filter Out.accepted = acc
  have hds : assign (sabcStateIn u s).distances ((acc.map (sabcOutIn u)).map fun o => (o.index, o.d)) = (assign s.distances (acc.map fun o => (o.index, o.d))).map fun x => u * x := by
    rw [← assign_map, List.map_map, List.map_map]; rfl
  have hps : ((acc.map (sabcOutIn u)).map fun o => (o.index, o.θ)) = acc.map fun o => (o.index, o.θ) := by rw [List.map_map]; rfl
  have hc : ((acc.map (sabcOutIn u)).map fun o => (((assign s.distances (acc.map fun o => (o.index, o.d))).map fun x => u * x)[o.index]?).bind fun d =>
      (smooth (sabcStateIn u s).all d).map fun x => (o.index, x)) =
      acc.map fun o => ((assign s.distances (acc.map fun o => (o.index, o.d)))[o.index]?).bind fun d => (smooth s.all d).map fun x => (o.index, x) := by
    rw [List.map_map]
    refine List.map_congr_left fun o _ => ?_
    simp only [Function.comp_apply, List.getElem?_map, sabcOutIn]
    cases (assign s.distances (acc.map fun o => (o.index, o.d)))[o.index]? with
    | none => rfl
    | some d =>
      simp only [Option.map_some, Option.bind_some]
      rw [show (sabcStateIn u s).all = s.all.map fun x => u * x from rfl, smooth_in hu]
  rw [hds, hps, hc, Option.map_map]
  rfl

theorem finish_in (c : Config) (t : Nat) (x : ℝ) (s : State Θ) :
    finish (sabcIn u env) (sabcConfigIn u c) t x (sabcStateIn u s) = (finish env c t x s).map (sabcStateIn u) := by
  unfold finish
  simp only
  rw [show (sabcConfigIn u c).resample = c.resample from rfl, show (sabcStateIn u s).accept = s.accept from rfl, show (sabcIn u env).pick = env.pick from rfl,
    show (sabcConfigIn u c).delta = c.delta from rfl, show (sabcStateIn u s).smooths = s.smooths from rfl, show (sabcConfigIn u c).n = c.n from rfl,
    show (sabcConfigIn u c).full = c.full from rfl, show (sabcIn u env).schedule = env.schedule from rfl, show (sabcStateIn u s).params = s.params from rfl,
    show (sabcStateIn u s).distances = s.distances.map fun x => u * x from rfl, show (sabcStateIn u s).journal = s.journal.map fun e => (e.1, e.2.map fun x => u * x) from rfl]
  by_cases h : c.resample ≤ s.accept ∧ 1 / 10 ^ 100 < x
  · simp only [h, and_self, if_true]
    by_cases h2 : (env.pick t (weights c.delta x s.smooths)).length = c.n
    · simp only [h2, if_true, List.getElem?_map, collect_map]
      cases collect ((env.pick t (weights c.delta x s.smooths)).map fun i => s.params[i]?) with
      | none => rfl
      | some ps =>
        cases collect ((env.pick t (weights c.delta x s.smooths)).map fun i => s.smooths[i]?) with
        | none => rfl
        | some sm =>
          cases collect ((env.pick t (weights c.delta x s.smooths)).map fun i => s.distances[i]?) with
          | none => rfl
          | some ds =>
            simp only [Option.map_some, sabcStateIn]
            cases c.full <;> simp
    · simp only [h2, if_false]; rfl
  · simp only [h, if_false, Option.map_some, sabcStateIn]
    cases c.full <;> simp

include hu in
/-- **C204, SABC, later steps.** A step after the first does not depend on the unit of the distances. -/
theorem C204_sabc_step (c : Config) (fuel t : Nat) (ht : t ≠ 0) (start : List W) (s : State Θ) :
    step (sabcIn u env) (sabcConfigIn u c) fuel t start (sabcStateIn u s) = (step env c fuel t start s).map (sabcStateIn u) := by
  unfold step
  simp only [ht, if_false]
  rw [show (sabcConfigIn u c).nUpdate = c.nUpdate from rfl, show (sabcConfigIn u c).n = c.n from rfl, show (sabcConfigIn u c).cutoff = c.cutoff from rfl]
  by_cases h1 : start.length ≠ c.nUpdate ∨ start = []
  · rw [if_pos h1, if_pos h1]; rfl
  · rw [if_neg h1, if_neg h1]
    simp only [sabc_move hu, collect_map]
    cases collect (start.map fun w => move env fuel c.n s w) with
    | none => rfl
    | some out =>
      have hcount : (out.map (sabcOutIn u)).map Out.count = out.map Out.count := by rw [List.map_map]; rfl
      have hacc : (out.map (sabcOutIn u)).countP Out.accepted = out.countP Out.accepted := by rw [List.countP_map]; rfl
      simp only [Option.map_some, replace_in hu, hcount, hacc]
      cases replace s out with
      | none => rfl
      | some p =>
        simp only [Option.map_some]
        rw [show (sabcStateIn u s).accept = s.accept from rfl, show (sabcStateIn u s).until_ = s.until_ from rfl, show (sabcStateIn u s).counter = s.counter from rfl,
          show (sabcIn u env).schedule = env.schedule from rfl]
        by_cases h2 : ((s.accept + out.countP Out.accepted : ℕ) : ℝ) / (s.until_ + c.nUpdate : ℕ) < c.cutoff
        · rw [if_pos h2, if_pos h2]; rfl
        · rw [if_neg h2, if_neg h2]
          exact finish_in env c t _ ⟨p.1, p.2.1, p.2.2.1, p.2.2.2, env.schedule (mean p.2.2.1), s.accept + out.countP Out.accepted, s.until_ + c.nUpdate, s.journal, s.counter + (out.map Out.count).sum, false⟩

include hu in
/-- **C204, SABC, after the first step.** The rest of a run does not depend on the unit of the distances. -/
theorem C204_sabc_rest (c : Config) (fuel : Nat) (start : Nat → List W) (k t : Nat) (ht : t ≠ 0) (s : State Θ) :
    loop (sabcIn u env) (sabcConfigIn u c) fuel start k t (sabcStateIn u s) = (loop env c fuel start k t s).map (sabcStateIn u) := by
  induction k generalizing t s with
  | zero => rfl
  | succ k ih =>
    unfold loop
    rw [C204_sabc_step hu env c fuel t ht, show (sabcStateIn u s).stopped = s.stopped from rfl]
    cases s.stopped with
    | true => rfl
    | false =>
      simp only [Bool.false_eq_true, if_false]
      cases step env c fuel t (start t) s with
      | none => rfl
      | some s => exact ih (t + 1) (by omega) s

include hu in
/-- **C204, SABC, first step.** Without resampling the first population does not depend on the unit. But the threshold after it does: it is computed from the redefined distances `l`, which have no unit, and
the first threshold given, which has. -/
theorem C204_sabc_first (c : Config) (hr : 0 < c.resample) (fuel : Nat) (start : List W) (s s₁ : State Θ) (h : step env c fuel 0 start s = some s₁) :
    ∃ l, collect (s₁.all.map (smooth s₁.all)) = some l ∧ s₁.eps = env.schedule (average l c.eps) ∧
      step (sabcIn u env) (sabcConfigIn u c) fuel 0 start (sabcStateIn u s) = some { sabcStateIn u s₁ with eps := env.schedule (average l (u * c.eps)) } := by
  unfold step at h ⊢
  simp only [if_true] at h ⊢
  rw [show (sabcConfigIn u c).n = c.n from rfl, show (sabcConfigIn u c).eps = u * c.eps from rfl]
  by_cases h1 : start.length ≠ c.n ∨ start = []
  · rw [if_pos h1] at h; cases h
  · rw [if_neg h1] at h ⊢
    have hf : ∀ w, first (sabcIn u env) (u * c.eps) 0 fuel w [] 0 = (first env c.eps 0 fuel w [] 0).map (sabcOutIn u) := fun w => sabc_first hu env c.eps 0 fuel w [] 0
    simp only [hf, collect_map]
    cases hcol : collect (start.map fun w => first env c.eps 0 fuel w [] 0) with
    | none => simp [hcol] at h
    | some out =>
      have hcount : (out.map (sabcOutIn u)).map Out.count = out.map Out.count := by rw [List.map_map]; rfl
      simp only [hcol, Option.map_some, begin_in hu, hcount] at h ⊢
      cases hb : begin_ out with
      | none => simp [hb] at h
      | some p =>
        simp only [hb, Option.map_some, partsIn] at h ⊢
        have hs : (p.2.2.2.map fun x => u * x).map (smooth (p.2.2.2.map fun x => u * x)) = p.2.2.2.map (smooth p.2.2.2) := by
          rw [List.map_map]
          exact List.map_congr_left fun d _ => smooth_in hu _ d
        rw [hs]
        cases hl : collect (p.2.2.2.map (smooth p.2.2.2)) with
        | none => simp [hl] at h
        | some l =>
          simp only [hl] at h ⊢
          unfold finish at h ⊢
          rw [show (sabcConfigIn u c).resample = c.resample from rfl, show (sabcConfigIn u c).full = c.full from rfl]
          simp only [Nat.le_zero, hr.ne', false_and, if_false, Option.some.injEq] at h ⊢
          subst h
          refine ⟨l, hl, rfl, ?_⟩
          simp only [sabcStateIn]
          rw [show (sabcIn u env).schedule = env.schedule from rfl]
          cases c.full <;> simp

/-- The larger the threshold, the larger the average. -/
theorem average_lt : average [0, 1 / 2] 1 < average [0, 1 / 2] 2 ∧ 0 < average [0, 1 / 2] 1 := by
  have h1 := Real.exp_pos (-(1 / 2 : ℝ) / 1)
  have h2 : Real.exp (-(1 / 2 : ℝ) / 1) < Real.exp (-(1 / 2 : ℝ) / 2) := Real.exp_lt_exp.2 (by norm_num)
  unfold average
  simp only [one_ne_zero, two_ne_zero, if_false, List.map_cons, List.map_nil, List.sum_cons, List.sum_nil, neg_zero, zero_div, Real.exp_zero, zero_mul, zero_add, add_zero]
  refine ⟨?_, by positivity⟩
  rw [div_lt_div_iff₀ (by positivity) (by positivity)]
  nlinarith

/-- Two particles at distances one and two; then a proposal at distance eight. The random number that decides about it is as given. -/
noncomputable def sabcEx : Env Nat Nat Nat where
  dist y := y + 1
  pdf _ := 1
  prior w := (w, w)
  choose _ w := (w, 0)
  perturb _ _ w := (w, some 7)
  sim θ w := (w, θ)
  bern _ w := (w, true)
  unif w := (w, Real.exp (-1 / average [0, 1 / 2] 1))
  schedule x := x
  pick _ _ := []

/-- **C204 fails for SABC.** Two runs with the same random numbers, the distances and the first threshold of one of them being twice those of the other. In the second step one of them rejects the proposal
and the other accepts it. -/
theorem C204_sabc_violated : ∃ s s', run sabcEx ⟨2, 2, 1, 5, 1, 1, 0, true⟩ 1 (fun t => if t = 0 then [0, 1] else [0]) = some s ∧
    run (sabcIn 2 sabcEx) (sabcConfigIn 2 ⟨2, 2, 1, 5, 1, 1, 0, true⟩) 1 (fun t => if t = 0 then [0, 1] else [0]) = some s' ∧
    s.journal.map Prod.fst = [[0, 1], [0, 1]] ∧ s'.journal.map Prod.fst = [[0, 1], [7, 1]] := by
  have hsm1 : smooth [1, 2] 1 = some 0 := by norm_num [smooth, List.min?_cons', smoothAt]
  have hsm2 : smooth [1, 2] 2 = some (1 / 2) := by norm_num [smooth, List.min?_cons', smoothAt]
  have hsm8 : smooth [1, 2] 8 = some 1 := by norm_num [smooth, List.min?_cons', smoothAt]
  have h0 : step sabcEx ⟨2, 2, 1, 5, 1, 1, 0, true⟩ 1 0 [0, 1] ⟨[], [], [], [], 1, 0, 0, [], 0, false⟩ =
      some ⟨[0, 1], [1, 2], [0, 1 / 2], [1, 2], average [0, 1 / 2] 1, 0, 0, [([0, 1], [1, 2])], 2, false⟩ := by
    have e2 : ((1 : ℝ) + 1) = 2 := by norm_num
    simp [step, first, sabcEx, collect, begin_, e2, hsm1, hsm2, finish]
  obtain ⟨l, hl, -, h0'⟩ := C204_sabc_first two_pos sabcEx ⟨2, 2, 1, 5, 1, 1, 0, true⟩ (by norm_num) 1 [0, 1] _ _ h0
  have hl' : l = [0, 1 / 2] := by simpa [collect, hsm1, hsm2] using hl.symm
  subst hl'
  have key : ∀ e : ℝ, 0 < e → ∃ s, step sabcEx ⟨2, 2, 1, 5, 1, 1, 0, true⟩ 1 1 [0] ⟨[0, 1], [1, 2], [0, 1 / 2], [1, 2], e, 0, 0, [([0, 1], [1, 2])], 2, false⟩ = some s ∧
      s.journal.map Prod.fst = [[0, 1], if Real.exp (-1 / average [0, 1 / 2] 1) < Real.exp (-1 / e) then [7, 1] else [0, 1]] := by
    intro e he
    have e8 : ((7 : ℝ) + 1) = 8 := by norm_num
    have hm : move sabcEx 1 2 ⟨[0, 1], [1, 2], [0, 1 / 2], [1, 2], e, 0, 0, [([0, 1], [1, 2])], 2, false⟩ 0 =
        some ⟨7, 8, [], 0, decide (Real.exp (-1 / average [0, 1 / 2] 1) < Real.exp (-1 / e)), 1⟩ := by
      simp only [move, propose, sabcEx]
      norm_num [he.ne', e8, hsm8, -Real.exp_lt_exp]
    have hb : ∀ b : Bool, ∃ s, step sabcEx ⟨2, 2, 1, 5, 1, 1, 0, true⟩ 1 1 [0] ⟨[0, 1], [1, 2], [0, 1 / 2], [1, 2], e, 0, 0, [([0, 1], [1, 2])], 2, false⟩ = some s ∧
        s.journal.map Prod.fst = [[0, 1], if b = true then [7, 1] else [0, 1]] ∨ b ≠ decide (Real.exp (-1 / average [0, 1 / 2] 1) < Real.exp (-1 / e)) := by
      intro b
      by_cases h : b = decide (Real.exp (-1 / average [0, 1 / 2] 1) < Real.exp (-1 / e))
      · rw [← h] at hm
        have h10 : ¬ (1 : ℝ) < 0 := by norm_num
        refine Exists.imp (fun s h => Or.inl h) ?_
        unfold step
        cases b
        · simp [-one_div, h10, hm, collect, replace, assign, finish]
        · simp [-one_div, h10, hm, collect, replace, assign, hsm8, finish]
      · exact ⟨⟨[], [], [], [], 0, 0, 0, [], 0, false⟩, Or.inr h⟩
    obtain ⟨s, hs | hs⟩ := hb (decide (Real.exp (-1 / average [0, 1 / 2] 1) < Real.exp (-1 / e)))
    · exact ⟨s, by simpa only [decide_eq_true_eq] using hs⟩
    · exact absurd rfl hs
  obtain ⟨s, hs, hj⟩ := key (average [0, 1 / 2] 1) average_lt.2
  obtain ⟨s', hs', hj'⟩ := key (average [0, 1 / 2] 2) (average_lt.2.trans average_lt.1)
  rw [if_neg (lt_irrefl _)] at hj
  rw [if_pos (by
    rw [Real.exp_lt_exp]
    have := one_div_lt_one_div_of_lt average_lt.2 average_lt.1
    rw [neg_div, neg_div]
    linarith)] at hj'
  refine ⟨s, sabcStateIn 2 s', ?_, ?_, hj, ?_⟩
  · unfold run
    rw [loop]
    simp only [if_true, Bool.false_eq_true, if_false, h0]
    rw [loop]
    simp only [Bool.false_eq_true, if_false, Nat.zero_add, one_ne_zero, hs, loop]
  · unfold run
    rw [show (sabcConfigIn 2 ⟨2, 2, 1, 5, 1, 1, 0, true⟩).steps = 2 from rfl, loop]
    have h1 := C204_sabc_step two_pos sabcEx ⟨2, 2, 1, 5, 1, 1, 0, true⟩ 1 1 one_ne_zero [0] ⟨[0, 1], [1, 2], [0, 1 / 2], [1, 2], average [0, 1 / 2] 2, 0, 0, [([0, 1], [1, 2])], 2, false⟩
    rw [hs', Option.map_some] at h1
    have h2 : step (sabcIn 2 sabcEx) (sabcConfigIn 2 ⟨2, 2, 1, 5, 1, 1, 0, true⟩) 1 0 [0, 1] ⟨[], [], [], [], (sabcConfigIn 2 ⟨2, 2, 1, 5, 1, 1, 0, true⟩).eps, 0, 0, [], 0, false⟩ =
        some (sabcStateIn 2 ⟨[0, 1], [1, 2], [0, 1 / 2], [1, 2], average [0, 1 / 2] 2, 0, 0, [([0, 1], [1, 2])], 2, false⟩) := by
      have : ∀ e, step (sabcIn 2 sabcEx) (sabcConfigIn 2 ⟨2, 2, 1, 5, 1, 1, 0, true⟩) 1 0 [0, 1] ⟨[], [], [], [], e, 0, 0, [], 0, false⟩ =
        step (sabcIn 2 sabcEx) (sabcConfigIn 2 ⟨2, 2, 1, 5, 1, 1, 0, true⟩) 1 0 [0, 1] (sabcStateIn 2 ⟨[], [], [], [], 1, 0, 0, [], 0, false⟩) := fun e => rfl
      rw [this, h0', mul_one]
      rfl
    simp only [if_true, Bool.false_eq_true, if_false, h2]
    rw [loop]
    simp only [Nat.zero_add, one_ne_zero, if_false, h1, loop]
    rfl
  · rw [← hj']
    simp only [sabcStateIn, List.map_map]
    rfl

end Verif.Units
