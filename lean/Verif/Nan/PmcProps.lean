import Verif.Nan.Pmc
import Mathlib.Tactic.Linarith
import Mathlib.Tactic.NormNum
/-
C192 for `PMCABC`.
-/
namespace Verif.Nan

open Pmc (Env Pop)

variable {W Θ Y : Type} (env : Env W Θ Y) (dist : Y → Num) (distMax : Num)

/-! ### One task -/

/-- What a task returns is not greater than the threshold; without a simulation it returns what it started with. -/
theorem loop_spec (eps : Num) (pop : Option (Pop Θ)) (fuel : Nat) : ∀ (w : W) (θ : Θ) (d : Num) (c : Nat) (r : Θ × Num × Nat), resampleLoop env dist eps pop fuel w θ d c = some r →
    ¬ r.2.1.gt eps ∧ (r = (θ, d, c) ∨ (c < r.2.2 ∧ ∃ y, r.2.1 = dist y)) := by
  classical
  induction fuel with
  | zero => intro w θ d c r h; cases h
  | succ fuel ih =>
    intro w θ d c r h
    rw [resampleLoop.eq_def] at h
    simp only at h
    by_cases hd : d.gt eps
    · rw [if_pos hd] at h
      cases pop with
      | none =>
        simp only at h
        obtain ⟨k1, k2⟩ := ih _ _ _ _ _ h
        refine ⟨k1, Or.inr ?_⟩
        rcases k2 with rfl | ⟨k2, k3⟩
        · exact ⟨by simp, _, rfl⟩
        · exact ⟨by omega, k3⟩
      | some p =>
        simp only at h
        cases hp : Pmc.proposeLoop env p (env.choose p.weights w).2 fuel (env.choose p.weights w).1 with
        | none => rw [hp] at h; cases h
        | some q =>
          rw [hp] at h
          obtain ⟨k1, k2⟩ := ih _ _ _ _ _ h
          refine ⟨k1, Or.inr ?_⟩
          rcases k2 with rfl | ⟨k2, k3⟩
          · exact ⟨by simp, _, rfl⟩
          · exact ⟨by omega, k3⟩
    · rw [if_neg hd, Option.some.injEq] at h
      subst h
      exact ⟨hd, Or.inl rfl⟩

theorem not_gt_nan (d : Num) : ¬ d.gt .nan := by cases d <;> exact id

/-- With a threshold that is not a number, a task returns at once what the model held. -/
theorem nan_task (pop : Option (Pop Θ)) (fuel : Nat) (w : W) (r : Θ × Num × Nat) (h : resampleTask env dist distMax .nan pop fuel w = some r) : r = (env.held w, distMax, 0) := by
  classical
  unfold resampleTask at h
  cases fuel with
  | zero => cases h
  | succ fuel =>
    rw [resampleLoop.eq_def] at h
    simp only at h
    rw [if_neg (not_gt_nan distMax), Option.some.injEq] at h
    exact h.symm

/-! ### One step -/

variable (steps : Nat) (pct : ℝ) (fuel : Nat)

theorem step_spec (t : Nat) (start : List W) (s s' : State Θ) (h : pmcStep env dist distMax steps pct fuel t start s = some s') :
    ∃ (eps : Num) (res : List (Θ × Num × Nat)), s.epsArr[t]? = some (some eps) ∧ start.map (resampleTask env dist distMax eps s.pop fuel) = res.map some ∧ nextEps steps t pct (res.map (·.2.1)) s.epsArr = some s'.epsArr ∧
      s'.hist = s.hist ++ [⟨eps, res.map (·.1), res.map (·.2.1), res.map (·.2.2), Pmc.normalise ((res.map (·.1)).map (Pmc.rawWeight env start.length s.pop))⟩] := by
  unfold pmcStep at h
  split at h
  · rename_i eps he
    split at h
    · split at h
      · cases h
      · rename_i res hres
        simp only at h
        split at h
        · cases h
        · rename_i arr harr
          rw [Option.some.injEq] at h
          subst h
          exact ⟨eps, res, he, (collect_eq_some _ _).1 hres, harr, rfl⟩
    · cases h
  · cases h

theorem maxN_nan (e : Num) : maxN .nan e = .nan := by cases e <;> rfl

/-- One distance that is not a number makes the next threshold not a number, given or not. -/
theorem nextEps_nan (t : Nat) (distances : List Num) (hd : percentile distances pct = none ∨ percentile distances pct = some .nan) (arr arr' : List (Option Num)) (ht : t + 1 < steps)
    (h : nextEps steps t pct distances arr = some arr') : arr'[t + 1]? = some (some .nan) := by
  unfold nextEps at h
  rw [if_pos ht] at h
  rcases hd with hd | hd
  · rw [hd] at h; cases h
  · rw [hd] at h
    split at h
    · rename_i q e1 e2
      simp only [Option.some.injEq] at e1 h
      subst e1 h
      have : t + 1 < arr.length := by
        by_contra hc
        rw [List.getElem?_eq_none (by omega)] at e2
        cases e2
      rw [List.getElem?_set_self this]
    · rename_i q e e1 e2
      simp only [Option.some.injEq] at e1 h
      subst e1 h
      have : t + 1 < arr.length := by
        by_contra hc
        rw [List.getElem?_eq_none (by omega)] at e2
        cases e2
      rw [List.getElem?_set_self this, maxN_nan]
    · cases h

/-- A step without a simulation: the threshold is not a number, every particle is what the model of its process held before, with the maximal distance. -/
def Idle (start : List W) (r : Rec Θ) : Prop :=
  r.eps = .nan ∧ r.params = start.map env.held ∧ r.distances = List.replicate start.length distMax ∧ r.counts = List.replicate start.length 0

theorem step_idle (t : Nat) (start : List W) (s s' : State Θ) (hs : s.epsArr[t]? = some (some .nan)) (h : pmcStep env dist distMax steps pct fuel t start s = some s') :
    ∃ r, s'.hist = s.hist ++ [r] ∧ Idle env distMax start r ∧ (t + 1 < steps → distMax = .inf → s'.epsArr[t + 1]? = some (some .nan)) := by
  obtain ⟨eps, res, h1, h2, h3, h4⟩ := step_spec env dist distMax steps pct fuel t start s s' h
  rw [hs] at h1
  simp only [Option.some.injEq] at h1
  subst h1
  have hres : res = start.map fun w => (env.held w, distMax, 0) := by
    apply List.ext_getElem?
    intro i
    have := congrArg (·[i]?) h2
    simp only [List.getElem?_map] at this
    rw [List.getElem?_map]
    cases hi : start[i]? with
    | none =>
      rw [hi] at this
      cases hr : res[i]? with
      | none => rfl
      | some r => rw [hr] at this; cases this
    | some w =>
      rw [hi] at this
      cases hr : res[i]? with
      | none => rw [hr] at this; cases this
      | some r =>
        rw [hr] at this
        simp only [Option.map_some, Option.some.injEq] at this ⊢
        exact nan_task env dist distMax s.pop fuel w r this
  refine ⟨_, h4, ⟨rfl, ?_, ?_, ?_⟩, ?_⟩
  · simp only [hres, List.map_map]; rfl
  · simp only [hres, List.map_map, Function.comp_def, List.map_const']
  · simp only [hres, List.map_map, Function.comp_def, List.map_const']
  · intro ht hinf
    subst hinf
    refine nextEps_nan steps pct t _ ?_ _ _ ht h3
    have hd : res.map (·.2.1) = List.replicate start.length .inf := by simp only [hres, List.map_map, Function.comp_def, List.map_const']
    rw [hd]
    cases hl : start.length with
    | zero =>
      left
      simp only [List.replicate_zero, percentile, List.map_nil, collect]
      unfold Pmc.percentile
      split <;> simp
    | succ n => exact percentile_inf _ _ (by simp [List.replicate_succ])

/-! ### Runs -/

variable (start : Nat → List W)

theorem loop_split (a b : Nat) : ∀ (t : Nat) (s s' : State Θ), pmcLoop env dist distMax steps pct fuel start (a + b) t s = some s' →
    ∃ m, pmcLoop env dist distMax steps pct fuel start a t s = some m ∧ pmcLoop env dist distMax steps pct fuel start b (t + a) m = some s' := by
  induction a with
  | zero => intro t s s' h; rw [Nat.zero_add] at h; exact ⟨s, rfl, h⟩
  | succ a ih =>
    intro t s s' h
    rw [show a + 1 + b = (a + b) + 1 by omega, pmcLoop] at h
    rw [pmcLoop]
    cases hp : pmcStep env dist distMax steps pct fuel t (start t) s with
    | none => rw [hp] at h; cases h
    | some s1 =>
      rw [hp] at h
      obtain ⟨m, h1, h2⟩ := ih (t + 1) s1 s' h
      exact ⟨m, h1, by rw [show t + (a + 1) = t + 1 + a by omega]; exact h2⟩

theorem loop_hist (k : Nat) : ∀ (t : Nat) (s s' : State Θ), pmcLoop env dist distMax steps pct fuel start k t s = some s' → ∃ new, new.length = k ∧ s'.hist = s.hist ++ new := by
  induction k with
  | zero => intro t s s' h; cases h; exact ⟨[], rfl, by simp⟩
  | succ k ih =>
    intro t s s' h
    rw [pmcLoop] at h
    cases hp : pmcStep env dist distMax steps pct fuel t (start t) s with
    | none => rw [hp] at h; cases h
    | some s1 =>
      rw [hp] at h
      obtain ⟨eps, res, -, -, -, h4⟩ := step_spec env dist distMax steps pct fuel t (start t) s s1 hp
      obtain ⟨new, n1, n2⟩ := ih (t + 1) s1 s' h
      exact ⟨_ :: new, by simp [n1], by rw [n2, h4, List.append_assoc]; rfl⟩

theorem loop_idle (hinf : distMax = .inf) (k : Nat) : ∀ (t : Nat) (s s' : State Θ), t + k ≤ steps → (0 < k → s.epsArr[t]? = some (some .nan)) → pmcLoop env dist distMax steps pct fuel start k t s = some s' →
    ∃ new, s'.hist = s.hist ++ new ∧ ∀ j r, new[j]? = some r → Idle env distMax (start (t + j)) r := by
  induction k with
  | zero => intro t s s' _ _ h; cases h; exact ⟨[], by simp, by simp⟩
  | succ k ih =>
    intro t s s' hk he h
    rw [pmcLoop] at h
    cases hp : pmcStep env dist distMax steps pct fuel t (start t) s with
    | none => rw [hp] at h; cases h
    | some s1 =>
      rw [hp] at h
      obtain ⟨r, h1, h2, h3⟩ := step_idle env dist distMax steps pct fuel t (start t) s s1 (he (by omega)) hp
      obtain ⟨new, n1, n2⟩ := ih (t + 1) s1 s' (by omega) (fun hk => h3 (by omega) hinf) h
      refine ⟨r :: new, by rw [n1, h1, List.append_assoc]; rfl, ?_⟩
      intro j r' hj
      cases j with
      | zero => simp only [List.getElem?_cons_zero, Option.some.injEq] at hj; subst hj; exact h2
      | succ j =>
        rw [List.getElem?_cons_succ] at hj
        rw [show t + (j + 1) = t + 1 + j by omega]
        exact n2 j r' hj

/-- The run up to step `t`, and the rest. -/
theorem run_at (epsInit : List ℝ) (before : Option (Pop Θ)) (hist : List (Rec Θ)) (h : pmcRun env dist distMax steps epsInit pct fuel start before = some hist) (t : Nat) (r : Rec Θ) (hr : hist[t]? = some r) :
    ∃ s s1 s2, s.hist = hist.take t ∧ pmcStep env dist distMax steps pct fuel t (start t) s = some s1 ∧ s1.hist = hist.take t ++ [r] ∧ t < steps ∧
      pmcLoop env dist distMax steps pct fuel start (steps - (t + 1)) (t + 1) s1 = some s2 ∧ s2.hist = hist := by
  unfold pmcRun at h
  cases hi : Pmc.initEps epsInit steps with
  | none => rw [hi] at h; cases h
  | some arr =>
    rw [hi] at h
    simp only at h
    cases hl : pmcLoop env dist distMax steps pct fuel start steps 0 ⟨arr.map (·.map .num), before, []⟩ with
    | none => rw [hl] at h; cases h
    | some s2 =>
      rw [hl] at h
      simp only [Option.map_some, Option.some.injEq] at h
      subst h
      have hlen : s2.hist.length = steps := by
        obtain ⟨new, n1, n2⟩ := loop_hist env dist distMax steps pct fuel start steps 0 _ _ hl
        rw [n2]; simpa using n1
      have ht : t < steps := by
        by_contra hc
        rw [List.getElem?_eq_none (by omega)] at hr
        cases hr
      obtain ⟨s, l1, l2⟩ := loop_split env dist distMax steps pct fuel start t (steps - (t + 1) + 1) 0 _ s2 (by rw [show t + (steps - (t + 1) + 1) = steps by omega]; exact hl)
      rw [Nat.zero_add, pmcLoop] at l2
      cases hp : pmcStep env dist distMax steps pct fuel t (start t) s with
      | none => rw [hp] at l2; cases l2
      | some s1 =>
        rw [hp] at l2
        obtain ⟨new, n1, n2⟩ := loop_hist env dist distMax steps pct fuel start t 0 _ _ l1
        obtain ⟨eps, res, -, -, -, h4⟩ := step_spec env dist distMax steps pct fuel t (start t) s s1 hp
        obtain ⟨new', -, n3⟩ := loop_hist env dist distMax steps pct fuel start _ (t + 1) _ _ l2
        have hsl : s.hist.length = t := by rw [n2]; simpa using n1
        have htake : s.hist = s2.hist.take t := by
          rw [n3, h4, List.append_assoc, ← hsl, List.take_left]
        refine ⟨s, s1, s2, htake, hp, ?_, ht, l2, rfl⟩
        rw [h4, ← htake]
        congr 1
        rw [n3, h4, List.append_assoc, List.getElem?_append_right (by omega), hsl, Nat.sub_self] at hr
        simpa using hr

/-- C192 fails for `PMCABC` beyond the particle concerned: if the distance of one particle of a step is not a number, the next step makes no simulation. Its threshold is not a number, and its particles are what the
models of the processes held before. -/
theorem C192_next_violated (epsInit : List ℝ) (before : Option (Pop Θ)) (hist : List (Rec Θ)) (h : pmcRun env dist distMax steps epsInit pct fuel start before = some hist) (t : Nat) (r r' : Rec Θ)
    (hr : hist[t]? = some r) (hn : .nan ∈ r.distances) (hr' : hist[t + 1]? = some r') : Idle env distMax (start (t + 1)) r' := by
  obtain ⟨s, s1, s2, a1, a2, a3, a4, a5, a6⟩ := run_at env dist distMax steps pct fuel start epsInit before hist h t r hr
  obtain ⟨u, u1, u2, b1, b2, b3, b4, b5, b6⟩ := run_at env dist distMax steps pct fuel start epsInit before hist h (t + 1) r' hr'
  obtain ⟨eps, res, c1, c2, c3, c4⟩ := step_spec env dist distMax steps pct fuel t (start t) s s1 a2
  rw [c4, a1] at a3
  have hrec := List.append_cancel_left a3
  simp only [List.cons.injEq, and_true] at hrec
  subst hrec
  have he := nextEps_nan steps pct t _ (percentile_nan _ _ hn) _ _ b4 c3
  rw [show steps - (t + 1) = (steps - (t + 1 + 1)) + 1 by omega, pmcLoop] at a5
  cases hp : pmcStep env dist distMax steps pct fuel (t + 1) (start (t + 1)) s1 with
  | none => rw [hp] at a5; cases a5
  | some s3 =>
    rw [hp] at a5
    obtain ⟨r3, d1, d2, -⟩ := step_idle env dist distMax steps pct fuel (t + 1) (start (t + 1)) s1 s3 he hp
    obtain ⟨new, -, n2⟩ := loop_hist env dist distMax steps pct fuel start _ _ _ _ a5
    rw [a6, d1, c4, a1] at n2
    have hl : (hist.take t).length = t := by
      rw [List.length_take]
      have : t < hist.length := by
        by_contra hc
        rw [List.getElem?_eq_none (by omega)] at hr
        cases hr
      omega
    have : hist[t + 1]? = some r3 := by
      rw [n2, List.append_assoc, List.append_assoc, List.getElem?_append_right (by omega), hl]
      simp
    rw [hr'] at this
    rw [Option.some.injEq] at this
    rw [this]
    exact d2

/-- C192 fails for all the rest of the run, if the distance has no finite maximum: after a step with a distance that is not a number no simulation is made any more. -/
theorem C192_run_violated (hinf : distMax = .inf) (epsInit : List ℝ) (before : Option (Pop Θ)) (hist : List (Rec Θ)) (h : pmcRun env dist distMax steps epsInit pct fuel start before = some hist) (t u : Nat) (htu : t < u)
    (r r' : Rec Θ) (hr : hist[t]? = some r) (hn : .nan ∈ r.distances) (hr' : hist[u]? = some r') : Idle env distMax (start u) r' := by
  obtain ⟨s, s1, s2, a1, a2, a3, a4, a5, a6⟩ := run_at env dist distMax steps pct fuel start epsInit before hist h t r hr
  obtain ⟨eps, res, c1, c2, c3, c4⟩ := step_spec env dist distMax steps pct fuel t (start t) s s1 a2
  have a3' := a3
  rw [c4, a1] at a3'
  have hrec := List.append_cancel_left a3'
  simp only [List.cons.injEq, and_true] at hrec
  subst hrec
  obtain ⟨new, n1, n2⟩ := loop_idle env dist distMax steps pct fuel start hinf _ (t + 1) s1 s2 (by omega) (fun hk => nextEps_nan steps pct t _ (percentile_nan _ _ hn) _ _ (by omega) c3) a5
  have hl : s1.hist.length = t + 1 := by
    rw [a3, List.length_append, List.length_take, List.length_singleton]
    have : t < hist.length := by
      by_contra hc
      rw [List.getElem?_eq_none (by omega)] at hr
      cases hr
    omega
  rw [← a6, n1, List.getElem?_append_right (by omega), hl] at hr'
  have := n2 _ _ hr'
  rwa [show t + 1 + (u - (t + 1)) = u by omega] at this

/-! ### Distances that are numbers -/

/-- All thresholds that are there are real numbers. -/
def Real (arr : List (Option Num)) : Prop := ∀ e, some e ∈ arr → ∃ x, e = .num x

theorem le_num_real (d : Num) (x : ℝ) (h : d.le (.num x)) (hd : d ≠ .negInf) : ∃ y, d = .num y ∧ y ≤ x := by
  cases d with
  | num y => exact ⟨y, rfl, (le_num y x).1 h⟩
  | inf => rcases h with h | ⟨h, -⟩ <;> cases h
  | negInf => exact absurd rfl hd
  | nan => rcases h with h | ⟨h, -⟩ <;> cases h

theorem real_list (l : List Num) (h : ∀ d ∈ l, ∃ x, d = .num x) : ∃ xs : List ℝ, l = xs.map .num := by
  induction l with
  | nil => exact ⟨[], rfl⟩
  | cons d l ih =>
    obtain ⟨x, rfl⟩ := h d (by simp)
    obtain ⟨xs, rfl⟩ := ih fun d hd => h d (by simp [hd])
    exact ⟨x :: xs, rfl⟩

theorem step_numbers (hnum : ∀ y, dist y ≠ .nan ∧ dist y ≠ .negInf) (hmax : distMax ≠ .nan ∧ distMax ≠ .negInf) (t : Nat) (st : List W) (s s' : State Θ) (hs : Real s.epsArr)
    (h : pmcStep env dist distMax steps pct fuel t st s = some s') : Real s'.epsArr ∧ ∃ r, s'.hist = s.hist ++ [r] ∧ ∃ x, r.eps = .num x ∧ ∀ d ∈ r.distances, ∃ y, d = .num y ∧ y ≤ x := by
  obtain ⟨eps, res, h1, h2, h3, h4⟩ := step_spec env dist distMax steps pct fuel t st s s' h
  obtain ⟨x, rfl⟩ := hs eps (List.mem_of_getElem? h1)
  have hd : ∀ d ∈ res.map (·.2.1), ∃ y, d = .num y ∧ y ≤ x := by
    intro d hd
    obtain ⟨r, hr, rfl⟩ := List.mem_map.1 hd
    have : some r ∈ st.map (resampleTask env dist distMax (.num x) s.pop fuel) := by rw [h2]; exact List.mem_map.2 ⟨r, hr, rfl⟩
    obtain ⟨w, -, hw⟩ := List.mem_map.1 this
    obtain ⟨k1, k2⟩ := loop_spec env dist (.num x) s.pop fuel w (env.held w) distMax 0 r hw
    have hn : r.2.1 ≠ .nan ∧ r.2.1 ≠ .negInf := by
      rcases k2 with rfl | ⟨-, y, hy⟩
      · exact hmax
      · rw [hy]; exact hnum y
    rcases (not_gt _ _).1 k1 with h | h | h
    · exact le_num_real _ _ h hn.2
    · exact absurd h hn.1
    · cases h
  refine ⟨?_, _, h4, x, rfl, hd⟩
  obtain ⟨xs, hxs⟩ := real_list _ fun d h => (hd d h).imp fun _ h => h.1
  unfold nextEps at h3
  split at h3
  · rw [hxs, percentile_num] at h3
    cases hq : Pmc.percentile xs pct with
    | none => rw [hq] at h3; cases h3
    | some q =>
      rw [hq] at h3
      simp only [Option.map_some] at h3
      split at h3
      · rename_i q' e1 e2
        simp only [Option.some.injEq] at e1 h3
        subst e1
        rw [← h3]
        intro e he
        rcases List.mem_or_eq_of_mem_set he with he | he
        · exact hs e he
        · simp only [Option.some.injEq] at he; exact ⟨q, he⟩
      · rename_i q' e0 e1 e2
        simp only [Option.some.injEq] at e1 h3
        subst e1
        obtain ⟨z, rfl⟩ := hs e0 (List.mem_of_getElem? e2)
        rw [← h3]
        intro e he
        rcases List.mem_or_eq_of_mem_set he with he | he
        · exact hs e he
        · simp only [Option.some.injEq] at he; exact ⟨max q z, he⟩
      · cases h3
  · rw [Option.some.injEq] at h3
    rw [← h3]
    exact hs

/-- C192 for `PMCABC` if distances are never NaN: all thresholds of a run are numbers, and all particles of a step are within its threshold. Missing: distances that are NaN, see `C192_next_violated`. -/
theorem C192_run_partial (hnum : ∀ y, dist y ≠ .nan ∧ dist y ≠ .negInf) (hmax : distMax ≠ .nan ∧ distMax ≠ .negInf) (epsInit : List ℝ) (before : Option (Pop Θ)) (hist : List (Rec Θ))
    (h : pmcRun env dist distMax steps epsInit pct fuel start before = some hist) : ∀ r ∈ hist, ∃ x, r.eps = .num x ∧ ∀ d ∈ r.distances, ∃ y, d = .num y ∧ y ≤ x := by
  have key : ∀ k t (s s' : State Θ), Real s.epsArr → (∀ r ∈ s.hist, ∃ x, r.eps = .num x ∧ ∀ d ∈ r.distances, ∃ y, d = .num y ∧ y ≤ x) →
      pmcLoop env dist distMax steps pct fuel start k t s = some s' → ∀ r ∈ s'.hist, ∃ x, r.eps = .num x ∧ ∀ d ∈ r.distances, ∃ y, d = .num y ∧ y ≤ x := by
    intro k
    induction k with
    | zero => intro t s s' _ hs h; cases h; exact hs
    | succ k ih =>
      intro t s s' hr hs h
      rw [pmcLoop] at h
      cases hp : pmcStep env dist distMax steps pct fuel t (start t) s with
      | none => rw [hp] at h; cases h
      | some s1 =>
        rw [hp] at h
        obtain ⟨k1, r, k2, k3⟩ := step_numbers env dist distMax steps pct fuel hnum hmax t (start t) s s1 hr hp
        refine ih (t + 1) s1 s' k1 ?_ h
        intro r' hr'
        rw [k2, List.mem_append, List.mem_singleton] at hr'
        rcases hr' with hr' | rfl
        · exact hs r' hr'
        · exact k3
  unfold pmcRun at h
  cases hi : Pmc.initEps epsInit steps with
  | none => rw [hi] at h; cases h
  | some arr =>
    rw [hi] at h
    simp only at h
    cases hl : pmcLoop env dist distMax steps pct fuel start steps 0 ⟨arr.map (·.map .num), before, []⟩ with
    | none => rw [hl] at h; cases h
    | some s2 =>
      rw [hl] at h
      simp only [Option.map_some, Option.some.injEq] at h
      subst h
      refine key steps 0 _ s2 ?_ (by simp) hl
      intro e he
      obtain ⟨o, -, ho⟩ := List.mem_map.1 he
      cases o with
      | none => cases ho
      | some x => simp only [Option.map_some, Option.some.injEq] at ho; exact ⟨x, ho.symm⟩

end Verif.Nan
