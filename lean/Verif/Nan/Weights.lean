import Verif.Nan.PmcLik
import Verif.Pmc.Restart
/-
`PMCABC` whose importance weights are computed with numpy's division: C208. A mixture of kernel densities that is computed as zero (the densities of all old particles underflow, or the kernel's density is zero
where it proposes) makes a weight infinite. Distances, thresholds and densities are real numbers; proposals, priors, kernels and generators are those of `Verif.Pmc`.
-/
namespace Verif.Nan.Weights

open Verif.Pmc (Pop Env mixture resampleTask above nextEps initEps normalise)
open Verif.Nan.PmcLik (NPop reals total div)

variable {W Θ Y : Type}

/-! ### Model -/

/-- `_calculate_weight`, lines 1028-1057, as `Pmc.rawWeight`. -/
noncomputable def rawWeight (env : Env W Θ Y) (n : Nat) (pop : Option (Pop Θ)) (θ : Θ) : Num :=
  match pop with
  | none => .num (1 / n)
  | some p => (Num.num (1 * env.pdf θ)).divReal (mixture env p θ)

/-- Lines 914-917. -/
noncomputable def normaliseN (l : List Num) : List Num := l.map fun x => div x (total l)

/-- One population of the run. -/
structure Rec (Θ : Type) where
  eps : ℝ
  params : List Θ
  distances : List ℝ
  weights : List Num

structure State (Θ : Type) where
  epsArr : List (Option ℝ)
  pop : Option (NPop Θ)
  counter : Nat
  hist : List (Rec Θ)

/-- The tasks of an iteration, lines 967-1026. `rng.choice` (1006) raises if a weight is NaN; it is called unless the largest distance is within the threshold. Weights that are infinite do not occur:
they have been divided by their sum (`normalise_inf`). -/
noncomputable def tasks (env : Env W Θ Y) (eps : ℝ) (pop : Option (NPop Θ)) (fuel : Nat) (w : W) : Option (Θ × ℝ × Nat) :=
  match pop with
  | none => resampleTask env eps none fuel w
  | some p => match reals p.weights with
    | some ws => resampleTask env eps (some ⟨p.params, ws⟩) fuel w
    | none => if above env.distMax eps then none else env.distMax.map fun d => (env.held w, d, 0)

/-- The old population as the kernels see it. If a weight is NaN then so are the covariance matrices and the mixture; no step whose tasks return comes here (`tasks`), except if the largest distance is
within the threshold. -/
noncomputable def seen (pop : Option (NPop Θ)) : Option (Option (Pop Θ)) :=
  match pop with
  | none => some none
  | some p => (reals p.weights).map fun ws => some ⟨p.params, ws⟩

/-- Iteration `t`, lines 875-941, as `Pmc.pmcStep`. -/
noncomputable def pmcStep (env : Env W Θ Y) (steps : Nat) (pct : ℝ) (fuel t : Nat) (start : List W) (s : State Θ) : Option (State Θ) :=
  match s.epsArr[t]? with
  | some (some eps) =>
    if s.pop.all fun p => p.weights.length = start.length ∧ p.params.length = start.length then
      match collect (start.map (tasks env eps s.pop fuel)) with
      | none => none
      | some res =>
        let params := res.map (·.1)
        let distances := res.map (·.2.1)
        match nextEps steps t pct distances s.epsArr with
        | none => none
        | some epsArr =>
          let weights := match seen s.pop with
            | some pop => normaliseN (params.map (rawWeight env start.length pop))
            | none => params.map fun _ => .nan
          some ⟨epsArr, some ⟨params, weights⟩, s.counter + (res.map (·.2.2)).sum, s.hist ++ [⟨eps, params, distances, weights⟩]⟩
    else none
  | _ => none

/-- Lines 845-960, as `Pmc.pmcLoop`. The covariance matrices of a population whose weights are NaN (925-936) are NaN; computing them does not raise. -/
noncomputable def pmcLoop (env : Env W Θ Y) (steps : Nat) (pct : ℝ) (fuel : Nat) (start : Nat → List W) : Nat → Nat → State Θ → Option (State Θ)
  | 0, _, s => some s
  | k + 1, t, s => match pmcStep env steps pct fuel t (start t) s with
    | none => none
    | some s => pmcLoop env steps pct fuel start k (t + 1) s

/-- `PMCABC.sample` without a journal file on a new sampler, lines 810-965, as `Pmc.pmcRun`. -/
noncomputable def pmcRun (env : Env W Θ Y) (steps : Nat) (epsInit : List ℝ) (pct : ℝ) (fuel : Nat) (start : Nat → List W) (counter : Nat) : Option (State Θ) :=
  match initEps epsInit steps with
  | none => none
  | some arr => pmcLoop env steps pct fuel start steps 0 ⟨arr, none, counter, []⟩

/-! ### Specification -/

/-- A population with weights that are numbers, as one whose weights could be anything. -/
def popOf (p : Pop Θ) : NPop Θ := ⟨p.params, p.weights.map .num⟩

def recOf (r : Pmc.Rec Θ) : Rec Θ := ⟨r.eps, r.params, r.distances, r.weights.map .num⟩

def stateOf (s : Pmc.State Θ) : State Θ := ⟨s.epsArr, s.pop.map popOf, s.counter, s.hist.map recOf⟩

/-! ### Weights -/

theorem total_inf (l : List Num) (h : .inf ∈ l) (hn : ∀ x ∈ l, x = .inf ∨ ∃ r, x = .num r) : total l = .inf := by
  induction l with
  | nil => simp at h
  | cons a l ih =>
    have ht : ∀ l : List Num, (∀ x ∈ l, x = .inf ∨ ∃ r, x = .num r) → total l = .inf ∨ ∃ r, total l = .num r := by
      intro l
      induction l with
      | nil => intro _; exact Or.inr ⟨0, rfl⟩
      | cons b l ih =>
        intro hl
        have e : total (b :: l) = b.add (total l) := rfl
        rw [e]
        rcases ih fun x hx => hl x (by simp [hx]) with h | ⟨r, h⟩ <;> rcases hl b (by simp) with hb | ⟨q, hb⟩ <;> rw [h, hb] <;> simp [Num.add]
    have e : total (a :: l) = a.add (total l) := rfl
    rw [e]
    rcases List.mem_cons.1 h with h | h
    · rw [← h]
      rcases ht l fun x hx => hn x (by simp [hx]) with h | ⟨r, h⟩ <;> rw [h] <;> rfl
    · rw [ih h fun x hx => hn x (by simp [hx])]
      rcases hn a (by simp) with ha | ⟨q, ha⟩ <;> rw [ha] <;> rfl

/-- The weights after normalisation if one of them is infinite: NaN for it, zero for those that are numbers. -/
theorem normalise_inf (l : List Num) (h : .inf ∈ l) (hn : ∀ x ∈ l, x = .inf ∨ ∃ r, x = .num r) :
    List.Forall₂ (fun x y => (x = .inf → y = .nan) ∧ ((∃ r, x = .num r) → y = .num 0)) l (normaliseN l) := by
  unfold normaliseN
  rw [total_inf l h hn]
  rw [List.forall₂_map_right_iff]
  refine List.forall₂_same.2 fun x _ => ⟨?_, ?_⟩
  · rintro rfl; rfl
  · rintro ⟨r, rfl⟩; rfl

/-- Weights that are numbers with a sum that is not zero are normalised as usual. -/
theorem normalise_num (l : List ℝ) (h : l.sum ≠ 0) : normaliseN (l.map .num) = (normalise l).map .num := by
  unfold normaliseN normalise
  rw [PmcLik.total_num, List.map_map, List.map_map]
  refine List.map_congr_left fun x _ => ?_
  simp [div, Num.divReal, h]

theorem div_cases (x p : ℝ) (hx : 0 < x) : (p = 0 → (Num.num x).divReal p = .inf) ∧ (p ≠ 0 → (Num.num x).divReal p = .num (x / p)) := by
  constructor
  · rintro rfl; simp [Num.divReal, signedInf, hx]
  · intro h; simp [Num.divReal, h]

/-! ### A run whose mixtures are positive -/

/-- All weights are positive. -/
def Pos (pop : Option (Pop Θ)) : Prop := ∀ p, pop = some p → ∀ w ∈ p.weights, 0 < w

theorem mixture_pos (env : Env W Θ Y) (hker : ∀ p x y, 0 < env.kernel p x y) (p : Pop Θ) (hp : ∀ w ∈ p.weights, 0 < w) (n : Nat) (hn : 0 < n) (h1 : p.weights.length = n) (h2 : p.params.length = n)
    (θ : Θ) : 0 < mixture env p θ := by
  unfold mixture
  obtain ⟨w, ws, hw⟩ : ∃ w ws, p.weights = w :: ws := List.exists_cons_of_ne_nil (by rintro h; rw [h] at h1; simp at h1; omega)
  obtain ⟨a, as, ha⟩ : ∃ a as, p.params = a :: as := List.exists_cons_of_ne_nil (by rintro h; rw [h] at h2; simp at h2; omega)
  have nn : ∀ (ws : List ℝ) (as : List Θ), (∀ w ∈ ws, 0 < w) → 0 ≤ (List.zipWith (fun w a => w * env.kernel p a θ) ws as).sum := by
    intro ws
    induction ws with
    | nil => intro as _; simp
    | cons w ws ih =>
      intro as h
      cases as with
      | nil => simp
      | cons a as =>
        rw [List.zipWith_cons_cons, List.sum_cons]
        exact add_nonneg (mul_pos (h w (by simp)) (hker _ _ _)).le (ih as fun w hw => h w (by simp [hw]))
  rw [hw] at hp
  rw [hw, ha, List.zipWith_cons_cons, List.sum_cons]
  exact add_pos_of_pos_of_nonneg (mul_pos (hp w (by simp)) (hker _ _ _)) (nn ws as fun w hw => hp w (by simp [hw]))

theorem raw_num (env : Env W Θ Y) (n : Nat) (pop : Option (Pop Θ)) (θ : Θ) (h : ∀ p, pop = some p → mixture env p θ ≠ 0) : rawWeight env n pop θ = .num (Pmc.rawWeight env n pop θ) := by
  cases pop with
  | none => rfl
  | some p => simp [rawWeight, Pmc.rawWeight, Num.divReal, h p rfl]

theorem sum_pos_of {l : List ℝ} (hne : l ≠ []) (h : ∀ x ∈ l, 0 < x) : 0 < l.sum := by
  cases l with
  | nil => exact absurd rfl hne
  | cons a l =>
    rw [List.sum_cons]
    exact add_pos_of_pos_of_nonneg (h a (by simp)) (List.sum_nonneg fun x hx => (h x (by simp [hx])).le)

theorem step_of (env : Env W Θ Y) (hmax : env.distMax = none) (hpdf : ∀ θ, 0 ≤ env.pdf θ) (hker : ∀ p x y, 0 < env.kernel p x y) (steps : Nat) (pct : ℝ) (fuel t : Nat) (start : List W)
    (hs : start ≠ []) (s : Pmc.State Θ) (hp : Pos s.pop) :
    pmcStep env steps pct fuel t start (stateOf s) = (Pmc.pmcStep env steps pct fuel t start s).map stateOf ∧ ∀ s', Pmc.pmcStep env steps pct fuel t start s = some s' → Pos s'.pop := by
  have htask : ∀ eps, tasks env eps (stateOf s).pop fuel = resampleTask env eps s.pop fuel := by
    intro eps
    funext w
    cases hpop : s.pop with
    | none => simp [tasks, stateOf, hpop]
    | some p => simp [tasks, stateOf, hpop, popOf, PmcLik.reals_map]
  have hseen : seen (stateOf s).pop = some s.pop := by
    cases hpop : s.pop with
    | none => simp [seen, stateOf, hpop]
    | some p => simp [seen, stateOf, hpop, popOf, PmcLik.reals_map]
  have hall : ((stateOf s).pop.all fun p => p.weights.length = start.length ∧ p.params.length = start.length) = s.pop.all fun p => p.weights.length = start.length ∧ p.params.length = start.length := by
    cases hpop : s.pop with
    | none => simp [stateOf, hpop]
    | some p => simp [stateOf, hpop, popOf]
  unfold pmcStep Pmc.pmcStep
  have harr : (stateOf s).epsArr = s.epsArr := rfl
  rw [harr]
  cases he : s.epsArr[t]? with
  | none => exact ⟨rfl, by simp⟩
  | some oe =>
    cases oe with
    | none => exact ⟨rfl, by simp⟩
    | some eps =>
      simp only [hall, htask, hseen]
      by_cases hlen : s.pop.all fun p => p.weights.length = start.length ∧ p.params.length = start.length
      swap
      · simp only [hlen, Bool.false_eq_true, if_false]
        exact ⟨rfl, by simp⟩
      simp only [hlen, if_true]
      cases hc : collect (start.map (resampleTask env eps s.pop fuel)) with
      | none => exact ⟨rfl, by simp⟩
      | some res =>
        simp only
        cases hn : nextEps steps t pct (res.map (·.2.1)) s.epsArr with
        | none => exact ⟨rfl, by simp⟩
        | some arr =>
          simp only
          have hres := (collect_eq_some _ _).1 hc
          have hrl : res.length = start.length := by simpa using (congrArg List.length hres).symm
          have hn0 : 0 < start.length := List.length_pos_iff.2 hs
          have hθ : ∀ θ ∈ res.map (·.1), s.pop.isSome → 0 < env.pdf θ := by
            intro θ hm hsome
            obtain ⟨r, hr, rfl⟩ := List.mem_map.1 hm
            have : some r ∈ res.map some := List.mem_map.2 ⟨r, hr, rfl⟩
            rw [← hres] at this
            obtain ⟨w, -, hw⟩ := List.mem_map.1 this
            obtain ⟨-, h2⟩ := Pmc.resampleTask_spec env eps s.pop fuel w r.1 r.2.1 r.2.2 hw
            exact lt_of_le_of_ne (hpdf _) (Ne.symm ((h2 (by simp [above, hmax])).2.2 hsome))
          have hmixp : ∀ p, s.pop = some p → ∀ θ, 0 < mixture env p θ := by
            intro p hpop θ
            rw [hpop] at hlen
            simp only [Option.all_some, decide_eq_true_eq] at hlen
            exact mixture_pos env hker p (hp p hpop) start.length hn0 hlen.1 hlen.2 θ
          have hraw : (res.map (·.1)).map (rawWeight env start.length s.pop) = ((res.map (·.1)).map (Pmc.rawWeight env start.length s.pop)).map .num := by
            rw [List.map_map (l := res.map (·.1))]
            exact List.map_congr_left fun θ _ => raw_num env _ _ θ fun p hpop => (hmixp p hpop θ).ne'
          have hpos : ∀ x ∈ (res.map (·.1)).map (Pmc.rawWeight env start.length s.pop), 0 < x := by
            intro x hx
            obtain ⟨θ, hm, rfl⟩ := List.mem_map.1 hx
            cases hpop : s.pop with
            | none => simp only [Pmc.rawWeight]; positivity
            | some p => exact div_pos (hθ θ hm (by simp [hpop])) (hmixp p hpop θ)
          have hsum : 0 < ((res.map (·.1)).map (Pmc.rawWeight env start.length s.pop)).sum :=
            sum_pos_of (by intro h0; have := congrArg List.length h0; simp [hrl] at this; exact hs this) hpos
          rw [hraw, normalise_num _ hsum.ne']
          refine ⟨by simp [stateOf, popOf, recOf], ?_⟩
          intro s' hs'
          cases hs'
          intro p hpp w hw
          cases hpp
          obtain ⟨x, hx, rfl⟩ := List.mem_map.1 hw
          exact div_pos (hpos x hx) hsum

/-- C208, if the kernel density is computed as a positive number everywhere: then all weights of a run are the numbers of C40, and the run is that of `Verif.Pmc`, about which the other theorems
speak. The largest distance must be infinite. Missing: densities that are computed as zero, see `C208_run_violated`. -/
theorem C208_partial (env : Env W Θ Y) (hmax : env.distMax = none) (hpdf : ∀ θ, 0 ≤ env.pdf θ) (hker : ∀ p x y, 0 < env.kernel p x y) (steps : Nat) (epsInit : List ℝ) (pct : ℝ) (fuel : Nat)
    (start : Nat → List W) (hs : ∀ t, start t ≠ []) (counter : Nat) :
    pmcRun env steps epsInit pct fuel start counter = (Pmc.pmcRun env steps epsInit pct fuel start none counter).map stateOf := by
  have hl : ∀ (k t : Nat) (s : Pmc.State Θ), Pos s.pop → pmcLoop env steps pct fuel start k t (stateOf s) = (Pmc.pmcLoop env steps pct fuel start k t s).map stateOf := by
    intro k
    induction k with
    | zero => intro t s _; rfl
    | succ k ih =>
      intro t s hp
      obtain ⟨h1, h2⟩ := step_of env hmax hpdf hker steps pct fuel t (start t) (hs t) s hp
      unfold pmcLoop Pmc.pmcLoop
      rw [h1]
      cases hst : Pmc.pmcStep env steps pct fuel t (start t) s with
      | none => rfl
      | some s' => exact ih (t + 1) s' (h2 s' hst)
  unfold pmcRun Pmc.pmcRun
  cases initEps epsInit steps with
  | none => rfl
  | some arr => exact hl steps 0 ⟨arr, none, counter, []⟩ fun p h => by cases h

/-! ### A mixture that is computed as zero -/

/-- What a run does, population by population: `n` particles each. -/
def Trace (env : Env W Θ Y) (n : Nat → Nat) : Nat → Option (NPop Θ) → List (Rec Θ) → Prop
  | _, _, [] => True
  | t, pop, r :: rest => (∀ pr, seen pop = some pr → r.weights = normaliseN (r.params.map (rawWeight env (n t) pr)) ∧
        (above env.distMax r.eps = true → pr.isSome → ∀ θ ∈ r.params, env.pdf θ ≠ 0)) ∧
      (seen pop = none → above env.distMax r.eps = false ∧ r.weights = r.params.map fun _ => .nan) ∧ Trace env n (t + 1) (some ⟨r.params, r.weights⟩) rest

theorem step_trace (env : Env W Θ Y) (steps : Nat) (pct : ℝ) (fuel t : Nat) (start : List W) (hs : start ≠ []) (s s' : State Θ)
    (h : pmcStep env steps pct fuel t start s = some s') :
    ∃ r, s'.hist = s.hist ++ [r] ∧ s'.pop = some ⟨r.params, r.weights⟩ ∧ (∀ pr, seen s.pop = some pr → r.weights = normaliseN (r.params.map (rawWeight env start.length pr)) ∧
      (above env.distMax r.eps = true → pr.isSome → ∀ θ ∈ r.params, env.pdf θ ≠ 0)) ∧ (seen s.pop = none → above env.distMax r.eps = false ∧ r.weights = r.params.map fun _ => .nan) := by
  unfold pmcStep at h
  split at h
  · rename_i eps he
    split_ifs at h with hlen
    cases hc : collect (start.map (tasks env eps s.pop fuel)) with
    | none => rw [hc] at h; cases h
    | some res =>
      rw [hc] at h
      simp only at h
      cases hn : nextEps steps t pct (res.map (·.2.1)) s.epsArr with
      | none => rw [hn] at h; cases h
      | some arr =>
        rw [hn] at h
        have hres := (collect_eq_some _ _).1 hc
        cases hseen : seen s.pop with
        | none =>
          rw [hseen] at h
          cases h
          refine ⟨_, rfl, rfl, fun pr hpr => (nomatch hpr), fun _ => ⟨?_, rfl⟩⟩
          cases hpop : s.pop with
          | none => rw [hpop] at hseen; cases hseen
          | some p =>
            rw [hpop] at hseen
            have hr : reals p.weights = none := by simpa [seen] using hseen
            obtain ⟨w, ws, rfl⟩ := List.exists_cons_of_ne_nil hs
            rw [hpop, List.map_cons] at hres
            by_contra hab
            have : tasks env eps (some p) fuel w = none := by simp [tasks, hr, hab]
            rw [this] at hres
            cases res with
            | nil => simp at hres
            | cons a res => simp at hres
        | some pr =>
          rw [hseen] at h
          cases h
          refine ⟨_, rfl, rfl, ?_, fun hpr => (nomatch hpr)⟩
          intro pr' hpr'
          cases hpr'
          refine ⟨rfl, ?_⟩
          intro hab hsome θ hm
          obtain ⟨r, hr, rfl⟩ := List.mem_map.1 hm
          have : some r ∈ res.map some := List.mem_map.2 ⟨r, hr, rfl⟩
          rw [← hres] at this
          obtain ⟨w, -, hw⟩ := List.mem_map.1 this
          have hw' : resampleTask env eps pr fuel w = some r := by
            cases hpop : s.pop with
            | none => rw [hpop] at hseen; cases hseen; cases hsome
            | some p =>
              rw [hpop] at hseen hw
              cases hrr : reals p.weights with
              | none => simp [seen, hrr] at hseen
              | some ws =>
                simp only [seen, hrr, Option.map_some, Option.some.injEq] at hseen
                rw [← hseen]
                simpa [tasks, hrr] using hw
          obtain ⟨-, h2⟩ := Pmc.resampleTask_spec env eps pr fuel w r.1 r.2.1 r.2.2 hw'
          exact (h2 hab).2.2 hsome
  · cases h

theorem loop_trace (env : Env W Θ Y) (steps : Nat) (pct : ℝ) (fuel : Nat) (start : Nat → List W) (hs : ∀ t, start t ≠ []) (k : Nat) : ∀ (t : Nat) (s s' : State Θ),
    pmcLoop env steps pct fuel start k t s = some s' → ∃ new, s'.hist = s.hist ++ new ∧ new.length = k ∧ Trace env (fun t => (start t).length) t s.pop new := by
  induction k with
  | zero => intro t s s' h; cases h; exact ⟨[], by simp, rfl, trivial⟩
  | succ k ih =>
    intro t s s' h
    unfold pmcLoop at h
    cases hst : pmcStep env steps pct fuel t (start t) s with
    | none => rw [hst] at h; cases h
    | some s1 =>
      rw [hst] at h
      obtain ⟨r, h1, h2, h3, h4⟩ := step_trace env steps pct fuel t (start t) (hs t) s s1 hst
      obtain ⟨new, n1, n2, n3⟩ := ih (t + 1) s1 s' h
      refine ⟨r :: new, by rw [n1, h1]; simp, by simp [n2], h3, h4, ?_⟩
      rw [← h2]
      exact n3

theorem trace_at (env : Env W Θ Y) (n : Nat → Nat) (hist : List (Rec Θ)) : ∀ (t : Nat) (pop : Option (NPop Θ)), Trace env n t pop hist → ∀ (j : Nat) (r r' : Rec Θ), hist[j]? = some r →
    hist[j + 1]? = some r' → (∀ ws, reals r.weights = some ws → r'.weights = normaliseN (r'.params.map (rawWeight env (n (t + j + 1)) (some ⟨r.params, ws⟩))) ∧
      (above env.distMax r'.eps = true → ∀ θ ∈ r'.params, env.pdf θ ≠ 0)) ∧
      (reals r.weights = none → above env.distMax r'.eps = false ∧ r'.weights = r'.params.map fun _ => .nan) := by
  induction hist with
  | nil => intro t pop _ j r r' h; simp at h
  | cons a hist ih =>
    intro t pop h j r r' hr hr'
    obtain ⟨h1, h2, h4⟩ := h
    cases j with
    | succ j =>
      have := ih (t + 1) _ h4 j r r' (by simpa using hr) (by simpa using hr')
      rwa [show t + 1 + j + 1 = t + (j + 1) + 1 by omega] at this
    | zero =>
      simp only [List.getElem?_cons_zero, Option.some.injEq] at hr
      subst hr
      cases hist with
      | nil => simp at hr'
      | cons b hist =>
        simp only [zero_add, List.getElem?_cons_succ, List.getElem?_cons_zero, Option.some.injEq] at hr'
        subst hr'
        obtain ⟨q1, q2, -⟩ := h4
        refine ⟨fun ws hws => ?_, fun hn => q2 (by simp [seen, hn])⟩
        obtain ⟨q3, q4⟩ := q1 (some ⟨a.params, ws⟩) (by simp [seen, hws])
        exact ⟨q3, fun hab => q4 hab rfl⟩

theorem reals_nan (l : List Num) (h : .nan ∈ l) : reals l = none := by
  unfold reals
  rw [collect_eq_none]
  exact List.mem_map.2 ⟨.nan, h, rfl⟩

/-- C208: NaN weights stay. In a run that returns, let a population have a NaN weight. Then the weights of all particles of the next population, if there is one, are NaN, and it was not simulated at all: the
largest distance is within its threshold (with a larger distance the run raises). -/
theorem C208_stays_violated (env : Env W Θ Y) (steps : Nat) (epsInit : List ℝ) (pct : ℝ) (fuel : Nat) (start : Nat → List W) (hs : ∀ t, start t ≠ []) (counter : Nat) (s : State Θ)
    (h : pmcRun env steps epsInit pct fuel start counter = some s) (j : Nat) (r r' : Rec Θ) (hr : s.hist[j]? = some r) (hr' : s.hist[j + 1]? = some r') (hn : .nan ∈ r.weights) :
    (∃ d, env.distMax = some d ∧ d ≤ r'.eps) ∧ r'.weights = r'.params.map fun _ => .nan := by
  unfold pmcRun at h
  cases hi : initEps epsInit steps with
  | none => rw [hi] at h; cases h
  | some arr =>
    rw [hi] at h
    obtain ⟨new, n1, n2, n3⟩ := loop_trace env steps pct fuel start hs steps 0 _ s h
    have n1' : s.hist = new := by simpa using n1
    rw [n1'] at hr hr'
    obtain ⟨h1, h2⟩ := (trace_at env _ new 0 none n3 j r r' hr hr').2 (reals_nan _ hn)
    refine ⟨?_, h2⟩
    cases hd : env.distMax with
    | none => rw [hd] at h1; simp [above] at h1
    | some d => rw [hd] at h1; exact ⟨d, rfl, by simpa [above] using h1⟩

/-- C208 is violated by a particle whose mixture of kernel densities is computed as zero. In a run that returns, with thresholds below the largest distance, let the weights of a population be the numbers
`ws`, and let a particle of the next population have mixture zero. Then this is the last population of the run (a run with more steps raises), the weight of this particle is NaN, and the weight of every
particle whose mixture is not zero is 0. So the posterior that the journal reports has no particle with a positive weight. -/
theorem C208_run_violated (env : Env W Θ Y) (hpdf : ∀ θ, 0 ≤ env.pdf θ) (steps : Nat) (epsInit : List ℝ) (pct : ℝ) (fuel : Nat)
    (start : Nat → List W) (hs : ∀ t, start t ≠ []) (counter : Nat) (s : State Θ) (h : pmcRun env steps epsInit pct fuel start counter = some s)
    (hmax : ∀ d, env.distMax = some d → ∀ r ∈ s.hist, r.eps < d) (j : Nat) (r r' : Rec Θ) (hr : s.hist[j]? = some r) (hr' : s.hist[j + 1]? = some r') (ws : List ℝ) (hws : r.weights = ws.map .num)
    (hz : ∃ θ ∈ r'.params, (List.zipWith (fun w a => w * env.kernel ⟨r.params, ws⟩ a θ) ws r.params).sum = 0) :
    s.hist.length = steps ∧ j + 2 = steps ∧
    List.Forall₂ (fun θ w => ((List.zipWith (fun w a => w * env.kernel ⟨r.params, ws⟩ a θ) ws r.params).sum = 0 → w = .nan) ∧
      ((List.zipWith (fun w a => w * env.kernel ⟨r.params, ws⟩ a θ) ws r.params).sum ≠ 0 → w = .num 0)) r'.params r'.weights := by
  unfold pmcRun at h
  cases hi : initEps epsInit steps with
  | none => rw [hi] at h; cases h
  | some arr =>
    rw [hi] at h
    obtain ⟨new, n1, n2, n3⟩ := loop_trace env steps pct fuel start hs steps 0 _ s h
    have n1' : s.hist = new := by simpa using n1
    rw [n1'] at hr hr' hmax ⊢
    have hab : ∀ r ∈ new, above env.distMax r.eps = true := by
      intro r hm
      cases hd : env.distMax with
      | none => rfl
      | some d => simpa [above] using hmax d hd r hm
    obtain ⟨h2, h3⟩ := (trace_at env _ new 0 none n3 j r r' hr hr').1 ws (by rw [hws, PmcLik.reals_map])
    replace h3 := h3 (hab r' (List.mem_of_getElem? hr'))
    have hraw : ∀ θ ∈ r'.params, (mixture env ⟨r.params, ws⟩ θ = 0 → rawWeight env (start (0 + j + 1)).length (some ⟨r.params, ws⟩) θ = .inf) ∧
        (mixture env ⟨r.params, ws⟩ θ ≠ 0 → ∃ x, rawWeight env (start (0 + j + 1)).length (some ⟨r.params, ws⟩) θ = .num x) := by
      intro θ hm
      have hp : 0 < 1 * env.pdf θ := by rw [one_mul]; exact lt_of_le_of_ne (hpdf θ) (Ne.symm (h3 θ hm))
      exact ⟨(div_cases _ _ hp).1, fun hne => ⟨_, (div_cases _ _ hp).2 hne⟩⟩
    have hF : List.Forall₂ (fun θ w => (mixture env ⟨r.params, ws⟩ θ = 0 → w = .nan) ∧ (mixture env ⟨r.params, ws⟩ θ ≠ 0 → w = .num 0)) r'.params r'.weights := by
      have := normalise_inf (r'.params.map (rawWeight env (start (0 + j + 1)).length (some ⟨r.params, ws⟩))) (by
          obtain ⟨θ, hm, hz⟩ := hz
          exact List.mem_map.2 ⟨θ, hm, (hraw θ hm).1 hz⟩) (by
          intro x hx
          obtain ⟨θ, hm, rfl⟩ := List.mem_map.1 hx
          by_cases hm0 : mixture env ⟨r.params, ws⟩ θ = 0
          · exact Or.inl ((hraw θ hm).1 hm0)
          · exact Or.inr ((hraw θ hm).2 hm0))
      rw [List.forall₂_map_left_iff] at this
      rw [h2]
      have hmem : ∀ {A B : Type} {R S : A → B → Prop} {l : List A} {m : List B}, List.Forall₂ R l m → (∀ a ∈ l, ∀ b, R a b → S a b) → List.Forall₂ S l m := by
        intro A B R S l m hf
        induction hf with
        | nil => intro _; exact .nil
        | cons hab _ ih => intro hh; exact .cons (hh _ (by simp) _ hab) (ih fun a ha => hh a (by simp [ha]))
      refine hmem this fun θ hm w hw => ⟨fun h0 => hw.1 ((hraw θ hm).1 h0), fun h0 => hw.2 ((hraw θ hm).2 h0)⟩
    refine ⟨n2, ?_, hF⟩
    have hnan : .nan ∈ r'.weights := by
      obtain ⟨θ, hm, hz⟩ := hz
      obtain ⟨i, hi', he⟩ := List.getElem_of_mem hm
      have hlen := hF.length_eq
      have := (List.forall₂_iff_get.1 hF).2 i hi' (hlen ▸ hi')
      simp only [List.get_eq_getElem, he] at this
      rw [← this.1 hz]
      exact List.getElem_mem _
    have hlt : j + 1 < new.length := (List.getElem?_eq_some_iff.1 hr').1
    by_contra hne
    have hlt2 : j + 2 < new.length := by omega
    have h4 := ((trace_at env _ new 0 none n3 (j + 1) r' new[j + 2] hr' (List.getElem?_eq_getElem hlt2)).2 (reals_nan _ hnan)).1
    rw [hab _ (List.getElem_mem _)] at h4
    cases h4

/-! ### A run -/

/-- Everything has distance zero. Particles from the prior are 0. A worker in state `true` perturbs to 1, which has kernel density zero; one in state `false` stays. The
largest distance is `m`. -/
noncomputable def lost (m : Option ℝ) : Env Bool Nat Unit where
  distMax := m
  dist := fun _ => 0
  pdf := fun _ => 1
  kernel := fun _ a θ => if a = θ then 1 else 0
  held := fun _ => 0
  prior := fun w => (w, 0)
  choose := fun _ w => (w, 0)
  perturb := fun _ _ w => (w, some (if w then 1 else 0))
  sim := fun _ w => (w, ())

theorem lost_prior (m : Option ℝ) (hm : above m 1 = true) (w : Bool) : resampleTask (lost m) 1 none 3 w = some (0, 0, 1) := by
  have h0 : above (some 0) 1 = false := by norm_num [above]
  simp [resampleTask, Pmc.resampleLoop, hm, lost, h0]

theorem lost_perturbed (m : Option ℝ) (hm : above m 1 = true) (p : Pop Nat) (w : Bool) : resampleTask (lost m) 1 (some p) 3 w = some (if w then 1 else 0, 0, 1) := by
  have h0 : above (some 0) 1 = false := by norm_num [above]
  simp [resampleTask, Pmc.resampleLoop, Pmc.proposeLoop, hm, lost, h0]

theorem lost_step1 (m : Option ℝ) (hm : above m 1 = true) : ∀ k, 1 < k → ∀ arr : List (Option ℝ), arr[0]? = some (some 1) → arr[1]? = some (some 1) → pmcStep (lost m) k 50 3 0 [true, false] ⟨arr, none, 0, []⟩ =
      some ⟨arr.set 1 (some 1), some ⟨[0, 0], [.num (1 / 2), .num (1 / 2)]⟩, 2, [⟨1, [0, 0], [0, 0], [.num (1 / 2), .num (1 / 2)]⟩]⟩ := by
  have hp := Pmc.percentile_zero 50 (by norm_num) (by norm_num)
  have hr0 : normaliseN [rawWeight (lost m) 2 none 0, rawWeight (lost m) 2 none 0] = [.num (1 / 2), .num (1 / 2)] := by
    have : [rawWeight (lost m) 2 none 0, rawWeight (lost m) 2 none 0] = [(1 / 2 : ℝ), 1 / 2].map .num := by simp [rawWeight]
    rw [this, normalise_num _ (by norm_num)]
    norm_num [normalise]
  have hreal : reals [.num (1 / 2), .num (1 / 2)] = some [1 / 2, 1 / 2] := PmcLik.reals_map [1 / 2, 1 / 2]
  have hr1 : normaliseN [rawWeight (lost m) 2 (some ⟨[0, 0], [1 / 2, 1 / 2]⟩) 1, rawWeight (lost m) 2 (some ⟨[0, 0], [1 / 2, 1 / 2]⟩) 0] = [.nan, .num 0] := by
    have h1 : rawWeight (lost m) 2 (some ⟨[0, 0], [1 / 2, 1 / 2]⟩) 1 = .inf := by
      refine (div_cases _ _ (by simp [lost])).1 ?_
      simp [mixture, lost]
    have h2 : rawWeight (lost m) 2 (some ⟨[0, 0], [1 / 2, 1 / 2]⟩) 0 = .num 1 := by
      have hm : mixture (lost m) ⟨[0, 0], [1 / 2, 1 / 2]⟩ 0 = 1 := by simp [mixture, lost]; norm_num
      unfold rawWeight
      simp only [hm, Num.divReal]
      simp [lost]
    rw [h1, h2]
    rfl
  intro k hk arr h0 h1
  unfold pmcStep
  simp only [h0, tasks, Option.all_none, if_true, List.map_cons, List.map_nil, lost_prior m hm, collect, nextEps, hp, h1, seen]
  rw [if_pos (by omega)]
  simp only [List.length_cons, List.length_nil, zero_add, Nat.reduceAdd, hr0, List.nil_append, List.sum_cons, List.sum_nil]
  norm_num

theorem lost_step2 (m : Option ℝ) (hm : above m 1 = true) : ∀ k, 1 < k → ∀ arr : List (Option ℝ), arr[1]? = some (some 1) → ∀ e : ℝ, 0 ≤ e → (2 < k → arr[2]? = some (some e)) →
    ∃ arr' c, (2 < k → arr'[2]? = some (some e)) ∧ pmcStep (lost m) k 50 3 1 [true, false]
      ⟨arr, some ⟨[0, 0], [.num (1 / 2), .num (1 / 2)]⟩, 2, [⟨1, [0, 0], [0, 0], [.num (1 / 2), .num (1 / 2)]⟩]⟩ =
      some ⟨arr', some ⟨[1, 0], [.nan, .num 0]⟩, c, [⟨1, [0, 0], [0, 0], [.num (1 / 2), .num (1 / 2)]⟩, ⟨1, [1, 0], [0, 0], [.nan, .num 0]⟩]⟩ := by
  have hp := Pmc.percentile_zero 50 (by norm_num) (by norm_num)
  have hr0 : normaliseN [rawWeight (lost m) 2 none 0, rawWeight (lost m) 2 none 0] = [.num (1 / 2), .num (1 / 2)] := by
    have : [rawWeight (lost m) 2 none 0, rawWeight (lost m) 2 none 0] = [(1 / 2 : ℝ), 1 / 2].map .num := by simp [rawWeight]
    rw [this, normalise_num _ (by norm_num)]
    norm_num [normalise]
  have hreal : reals [.num (1 / 2), .num (1 / 2)] = some [1 / 2, 1 / 2] := PmcLik.reals_map [1 / 2, 1 / 2]
  have hr1 : normaliseN [rawWeight (lost m) 2 (some ⟨[0, 0], [1 / 2, 1 / 2]⟩) 1, rawWeight (lost m) 2 (some ⟨[0, 0], [1 / 2, 1 / 2]⟩) 0] = [.nan, .num 0] := by
    have h1 : rawWeight (lost m) 2 (some ⟨[0, 0], [1 / 2, 1 / 2]⟩) 1 = .inf := by
      refine (div_cases _ _ (by simp [lost])).1 ?_
      simp [mixture, lost]
    have h2 : rawWeight (lost m) 2 (some ⟨[0, 0], [1 / 2, 1 / 2]⟩) 0 = .num 1 := by
      have hm : mixture (lost m) ⟨[0, 0], [1 / 2, 1 / 2]⟩ 0 = 1 := by simp [mixture, lost]; norm_num
      unfold rawWeight
      simp only [hm, Num.divReal]
      simp [lost]
    rw [h1, h2]
    rfl
  intro k hk arr h1 e he h2
  have hn : ∃ arr', (2 < k → arr'[2]? = some (some e)) ∧ nextEps k 1 50 [0, 0] arr = some arr' := by
    unfold nextEps
    by_cases h : 1 + 1 < k
    · rw [if_pos h, hp, show arr[1 + 1]? = some (some e) from h2 h]
      refine ⟨_, fun _ => ?_, rfl⟩
      have := (List.getElem?_eq_some_iff.1 (h2 h)).1
      simp [List.getElem?_set, this, he]
    · rw [if_neg h]; exact ⟨_, fun h' => absurd h' h, rfl⟩
  obtain ⟨arr', hn', hn⟩ := hn
  refine ⟨arr', 4, hn', ?_⟩
  unfold pmcStep
  simp only [h1, tasks, hreal, List.map_cons, List.map_nil, lost_perturbed m hm, collect, seen, Option.map_some]
  simp only [if_true, if_false, Bool.false_eq_true, hn, List.length_cons, List.length_nil, zero_add, Nat.reduceAdd, hr1, List.sum_cons, List.sum_nil]
  simp

/-- C208: a call with two steps returns a population without a positive weight; the particle that stayed where it was has lost its weight to the other one. The same call with three steps raises. -/
theorem C208_lost_violated : (∃ s r, pmcRun (lost none) 2 [1, 1] 50 3 (fun _ => [true, false]) 0 = some s ∧ s.hist[1]? = some r ∧ r.params = [1, 0] ∧ r.weights = [.nan, .num 0]) ∧
    pmcRun (lost none) 3 [1, 1, 1] 50 3 (fun _ => [true, false]) 0 = none := by
  have s1 := lost_step1 none rfl
  have s2 := lost_step2 none rfl
  refine ⟨?_, ?_⟩
  · have hi : initEps [1, 1] 2 = some [some 1, some 1] := by simp [initEps]
    obtain ⟨arr', c, -, h2⟩ := s2 2 (by norm_num) [some 1, some 1] rfl 1 (by norm_num) (by norm_num)
    refine ⟨⟨arr', some ⟨[1, 0], [.nan, .num 0]⟩, c, [⟨1, [0, 0], [0, 0], [.num (1 / 2), .num (1 / 2)]⟩, ⟨1, [1, 0], [0, 0], [.nan, .num 0]⟩]⟩,
      ⟨1, [1, 0], [0, 0], [.nan, .num 0]⟩, ?_, ?_, rfl, rfl⟩
    · unfold pmcRun
      rw [hi]
      simp only [pmcLoop]
      rw [s1 2 (by norm_num) [some 1, some 1] rfl rfl]
      simp only [List.set_cons_succ, List.set_cons_zero]
      rw [h2]
    · rfl
  · have hi : initEps [1, 1, 1] 3 = some [some 1, some 1, some 1] := by simp [initEps]
    cases h : pmcRun (lost none) 3 [1, 1, 1] 50 3 (fun _ => [true, false]) 0 with
    | none => rfl
    | some s =>
      exfalso
      obtain ⟨arr', c, -, h2⟩ := s2 3 (by norm_num) [some 1, some 1, some 1] rfl 1 (by norm_num) (by norm_num)
      have hh : ∃ rest, s.hist = [⟨1, [0, 0], [0, 0], [.num (1 / 2), .num (1 / 2)]⟩, ⟨1, [1, 0], [0, 0], [.nan, .num 0]⟩] ++ rest := by
        unfold pmcRun at h
        rw [hi] at h
        simp only at h
        rw [pmcLoop, s1 3 (by norm_num) [some 1, some 1, some 1] rfl rfl] at h
        simp only [List.set_cons_succ, List.set_cons_zero] at h
        rw [pmcLoop, h2] at h
        obtain ⟨new, n1, -⟩ := loop_trace (lost none) 3 50 3 (fun _ => [true, false]) (by simp) 1 2 _ s h
        exact ⟨new, n1⟩
      obtain ⟨rest, hh⟩ := hh
      obtain ⟨-, h3, -⟩ := C208_run_violated (lost none) (by simp [lost]) 3 [1, 1, 1] 50 3 (fun _ => [true, false]) (by simp) 0 s h (by simp [lost]) 0
        ⟨1, [0, 0], [0, 0], [.num (1 / 2), .num (1 / 2)]⟩ ⟨1, [1, 0], [0, 0], [.nan, .num 0]⟩ (by rw [hh]; rfl) (by rw [hh]; rfl) [1 / 2, 1 / 2] rfl
        ⟨1, by simp, by simp [lost]⟩
      omega

/-- The hypotheses of `C208_stays_violated`: with largest distance 2 and thresholds 1, 1, 5 the third population of the same call is not simulated, and all its weights are NaN. -/
theorem lost_stays : ∃ s r r', pmcRun (lost (some 2)) 3 [1, 1, 5] 50 3 (fun _ => [true, false]) 0 = some s ∧ s.hist[1]? = some r ∧ s.hist[2]? = some r' ∧ r.weights = [.nan, .num 0] ∧
    r'.eps = 5 ∧ r'.distances = [2, 2] ∧ r'.weights = [.nan, .nan] := by
  have hm : above (some (2 : ℝ)) 1 = true := by norm_num [above]
  have hi : initEps [1, 1, 5] 3 = some [some 1, some 1, some 5] := by simp [initEps]
  have hp := Pmc.percentile_zero 50 (by norm_num) (by norm_num)
  have h1 := lost_step1 (some 2) hm 3 (by norm_num) [some 1, some 1, some 5] rfl rfl
  have h5 : above (lost (some 2)).distMax 5 = false := by norm_num [above, lost]
  unfold pmcRun
  rw [hi]
  simp only [pmcLoop]
  rw [h1]
  simp only [List.set_cons_succ, List.set_cons_zero]
  obtain ⟨arr', c, h2, h3⟩ := lost_step2 (some 2) hm 3 (by norm_num) [some 1, some 1, some 5] rfl 5 (by norm_num) fun _ => rfl
  have h4 : pmcStep (lost (some 2)) 3 50 3 (0 + 1 + 1) [true, false] ⟨arr', some ⟨[1, 0], [.nan, .num 0]⟩, c,
      [⟨1, [0, 0], [0, 0], [.num (1 / 2), .num (1 / 2)]⟩, ⟨1, [1, 0], [0, 0], [.nan, .num 0]⟩]⟩ = some ⟨arr', some ⟨[0, 0], [.nan, .nan]⟩, c,
      [⟨1, [0, 0], [0, 0], [.num (1 / 2), .num (1 / 2)]⟩, ⟨1, [1, 0], [0, 0], [.nan, .num 0]⟩, ⟨5, [0, 0], [2, 2], [.nan, .nan]⟩]⟩ := by
    have ht : ∀ w, tasks (lost (some 2)) 5 (some ⟨[1, 0], [.nan, .num 0]⟩) 3 w = some (0, 2, 0) := by
      intro w
      simp only [tasks, show reals [.nan, .num 0] = none from rfl, h5]
      rfl
    simp only [pmcStep, zero_add, Nat.reduceAdd, h2 (by norm_num), seen, show reals [.nan, .num 0] = none from rfl, List.map_cons, List.map_nil, ht, collect, nextEps]
    simp
  rw [show (0 + 1 : Nat) = 1 from rfl, h3]
  simp only
  rw [show (1 + 1 : Nat) = 0 + 1 + 1 from rfl, h4]
  exact ⟨_, _, _, rfl, rfl, rfl, rfl, rfl, rfl, rfl⟩

/-- The hypotheses of `C208_partial`. -/
example : Pmc.easy.distMax = none ∧ (∀ θ, 0 ≤ Pmc.easy.pdf θ) ∧ (∀ p x y, 0 < Pmc.easy.kernel p x y) ∧ ∃ s, pmcRun Pmc.easy 2 [1] 50 3 (fun _ => [(), ()]) 0 = some s := by
  refine ⟨rfl, fun _ => zero_le_one, fun _ _ _ => zero_lt_one, ?_⟩
  obtain ⟨s, h, -⟩ := Pmc.easy_run
  rw [C208_partial Pmc.easy rfl (fun _ => zero_le_one) (fun _ _ _ => zero_lt_one) 2 [1] 50 3 _ (by simp), h]
  exact ⟨_, rfl⟩

end Verif.Nan.Weights
