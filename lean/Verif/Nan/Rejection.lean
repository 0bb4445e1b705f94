import Verif.Nan.Percentile
import Verif.Rejection.Props
import Verif.Rejection.Law
/-
`RejectionABC` with distances that may be NaN or infinite: C192 for `RejectionABC`, and C193.
-/
namespace Verif.Nan

open Rejection

variable {W Θ Y : Type}

open Classical in
/-- The loop of `_sample_parameter`, inferences.py 692-703, as `Rejection.rejectLoop`, for distances of floating-point arithmetic. -/
noncomputable def rejectLoop (trial : W → W × Θ × Option Y) (dist : Y → Num) (distMax eps : Num) :
    Nat → W → Option Θ → Num → Nat → Rejection.Task (Θ × Num × Nat × W)
  | 0, _, _, _, _ => .running
  | fuel + 1, w, θ, d, c =>
    if d.gt eps then
      let r := trial w
      rejectLoop trial dist distMax eps fuel r.1 (some r.2.1) (r.2.2.elim distMax dist) (c + 1)
    else match θ with
      | none => .unbound
      | some θ => .done (θ, d, c, w)

/-- `_sample_parameter`, inferences.py 667-707. -/
noncomputable def rejectTask (trial : W → W × Θ × Option Y) (dist : Y → Num) (distMax eps : Num) (fuel : Nat) (w : W) : Rejection.Task (Θ × Num × Nat × W) :=
  rejectLoop trial dist distMax eps fuel w none distMax 0

theorem loop_far (trial : W → W × Θ × Option Y) (dist : Y → Num) (distMax eps : Num) (fuel : Nat) (w : W) (θ : Option Θ) (d : Num) (c : Nat) (h : d.gt eps) :
    rejectLoop trial dist distMax eps (fuel + 1) w θ d c = rejectLoop trial dist distMax eps fuel (trial w).1 (some (trial w).2.1) ((trial w).2.2.elim distMax dist) (c + 1) := by
  rw [rejectLoop.eq_def]
  simp [h]

theorem loop_near (trial : W → W × Θ × Option Y) (dist : Y → Num) (distMax eps : Num) (fuel : Nat) (w : W) (θ : Option Θ) (d : Num) (c : Nat) (h : ¬ d.gt eps) :
    rejectLoop trial dist distMax eps (fuel + 1) w θ d c = match θ with | none => .unbound | some θ => .done (θ, d, c, w) := by
  rw [rejectLoop.eq_def]
  simp [h]

/-! ### The loop as a loop of `Rejection` -/

open Classical in
/-- 1 for distances that are greater than the threshold, and 0 for the others. -/
noncomputable def tooFar (eps d : Num) : ℝ := if d.gt eps then 1 else 0

/-- How a task ends, without the distance. -/
def ending {D : Type} : Rejection.Task (Θ × D × Nat × W) → Rejection.Task (Θ × Nat × W)
  | .running => .running
  | .unbound => .unbound
  | .done (θ, _, c, w) => .done (θ, c, w)

/-- The loop is the loop of `Rejection` for the distance that is 1 if the real one is greater than the threshold and 0 otherwise. -/
theorem loop_eq (trial : W → W × Θ × Option Y) (dist : Y → Num) (distMax eps : Num) (fuel : Nat) : ∀ (w : W) (θ : Option Θ) (d : Num) (c : Nat),
    ending (rejectLoop trial dist distMax eps fuel w θ d c) = ending (Rejection.rejectLoop trial (fun y => tooFar eps (dist y)) (tooFar eps distMax) 0 fuel w θ (tooFar eps d) c) := by
  induction fuel with
  | zero => intros; rfl
  | succ fuel ih =>
    intro w θ d c
    rw [Rejection.rejectLoop.eq_def]
    by_cases h : d.gt eps
    · have h' : tooFar eps d > 0 := by simp [tooFar, h]
      rw [loop_far _ _ _ _ _ _ _ _ _ h]
      simp only
      rw [if_pos h', ih]
      cases (trial w).2.2 <;> rfl
    · have h' : ¬ tooFar eps d > 0 := by simp [tooFar, h]
      rw [loop_near _ _ _ _ _ _ _ _ _ h]
      simp only
      rw [if_neg h']
      cases θ <;> rfl

/-- The distance that is returned is the distance of the last trial. -/
theorem loop_dist (trial : W → W × Θ × Option Y) (dist : Y → Num) (distMax eps : Num) (fuel : Nat) : ∀ (w : W) (θ : Option Θ) (d : Num) (c : Nat) (θ' : Θ) (d' : Num) (c' : Nat) (w' : W),
    rejectLoop trial dist distMax eps fuel w θ d c = .done (θ', d', c', w') → ¬ d'.gt eps ∧ ((c' = c ∧ d' = d) ∨ (c < c' ∧ d' = seen trial dist distMax w (c' - c - 1))) := by
  induction fuel with
  | zero => intro w θ d c θ' d' c' w' h; cases h
  | succ fuel ih =>
    intro w θ d c θ' d' c' w' h
    by_cases hd : d.gt eps
    · rw [loop_far _ _ _ _ _ _ _ _ _ hd] at h
      obtain ⟨k1, k2⟩ := ih _ _ _ _ _ _ _ _ h
      refine ⟨k1, Or.inr ?_⟩
      rcases k2 with ⟨e1, e2⟩ | ⟨e1, e2⟩
      · refine ⟨by omega, ?_⟩
        rw [e2, e1]
        have : c + 1 - c - 1 = 0 := by omega
        rw [this]
        rfl
      · refine ⟨by omega, ?_⟩
        rw [e2]
        have : c' - c - 1 = (c' - (c + 1) - 1) + 1 := by omega
        rw [this]
        rfl
    · rw [loop_near _ _ _ _ _ _ _ _ _ hd] at h
      cases θ with
      | none => cases h
      | some θ0 =>
        simp only [Rejection.Task.done.injEq, Prod.mk.injEq] at h
        obtain ⟨rfl, rfl, rfl, rfl⟩ := h
        exact ⟨hd, Or.inl ⟨rfl, rfl⟩⟩

theorem tooFar_pos {eps d : Num} : 0 < tooFar eps d ↔ d.gt eps := by
  unfold tooFar
  split <;> simp [*]

theorem tooFar_le {eps d : Num} : tooFar eps d ≤ 0 ↔ ¬ d.gt eps := by rw [← not_lt, tooFar_pos]

/-! ### C192 for `RejectionABC` -/

/-- What a task of `RejectionABC` returns, for every simulator, distance and threshold: the parameters and the distance of its last trial; all earlier distances were greater than the threshold; the last one
is at most the threshold or is not a number. -/
theorem C192_task (trial : W → W × Θ × Option Y) (dist : Y → Num) (distMax eps : Num) (hmax : distMax.gt eps) (fuel : Nat) (w : W) (θ : Θ) (d : Num) (c : Nat) (w' : W)
    (h : rejectTask trial dist distMax eps fuel w = .done (θ, d, c, w')) :
    1 ≤ c ∧ θ = (trial (after trial w (c - 1))).2.1 ∧ (∃ y, (trial (after trial w (c - 1))).2.2 = some y ∧ d = dist y) ∧ (d.le eps ∨ d = .nan) ∧
      ∀ k, k < c - 1 → ∀ y, (trial (after trial w k)).2.2 = some y → (dist y).gt eps := by
  obtain ⟨k1, k2⟩ := loop_dist trial dist distMax eps fuel w none distMax 0 θ d c w' h
  have he := loop_eq trial dist distMax eps fuel w none distMax 0
  have h2 : rejectLoop trial dist distMax eps fuel w none distMax 0 = .done (θ, d, c, w') := h
  rw [h2] at he
  have hne : eps ≠ .nan := by rintro rfl; cases distMax <;> exact hmax
  obtain ⟨C, -, -⟩ := C36_task trial (fun y => tooFar eps (dist y)) (tooFar eps distMax) 0 (tooFar_pos.2 hmax) fuel w
  unfold Rejection.rejectTask at C
  generalize Rejection.rejectLoop trial (fun y => tooFar eps (dist y)) (tooFar eps distMax) 0 fuel w none (tooFar eps distMax) 0 = t at he C
  cases t with
  | running => cases he
  | unbound => cases he
  | done a =>
    obtain ⟨θ', d', c', w''⟩ := a
    simp only [ending, Rejection.Task.done.injEq, Prod.mk.injEq] at he
    obtain ⟨rfl, rfl, rfl⟩ := he
    obtain ⟨c1, -, c3, ⟨y, c4, -⟩, -, c6⟩ := C _ _ _ _ rfl
    refine ⟨c1, c3, ⟨y, c4, ?_⟩, ?_, fun k hk z hz => tooFar_pos.1 (c6 k hk z hz)⟩
    · rcases k2 with ⟨e, -⟩ | ⟨-, e⟩
      · omega
      · rw [e, seen, Nat.sub_zero, c4]
        rfl
    · rcases (not_gt d eps).1 k1 with h | h | h
      · exact Or.inl h
      · exact Or.inr h
      · exact absurd h hne

/-- C192 for `RejectionABC`, if distances are always numbers: what is returned is within the threshold. Missing: distances that are NaN, see `C192_violated`. -/
theorem C192_partial (trial : W → W × Θ × Option Y) (dist : Y → Num) (hnum : ∀ y, dist y ≠ .nan) (distMax eps : Num) (hmax : distMax.gt eps) (fuel : Nat) (w : W) (θ : Θ) (d : Num) (c : Nat) (w' : W)
    (h : rejectTask trial dist distMax eps fuel w = .done (θ, d, c, w')) : d.le eps := by
  obtain ⟨-, -, ⟨y, -, hy⟩, hd | hd, -⟩ := C192_task trial dist distMax eps hmax fuel w θ d c w' h
  · exact hd
  · rw [hy] at hd
    exact absurd hd (hnum y)

theorem loop_accepts (trial : W → W × Θ × Option Y) (dist : Y → Num) (distMax eps : Num) (k : Nat) : ∀ (w : W) (θ : Option Θ) (d : Num) (c fuel : Nat), d.gt eps →
    (∀ j, j < k → (seen trial dist distMax w j).gt eps) → ¬ (seen trial dist distMax w k).gt eps → k + 2 ≤ fuel →
    rejectLoop trial dist distMax eps fuel w θ d c = .done ((trial (after trial w k)).2.1, seen trial dist distMax w k, c + k + 1, after trial w (k + 1)) := by
  induction k with
  | zero =>
    intro w θ d c fuel hd _ hk hf
    obtain ⟨fuel, rfl⟩ : ∃ f, fuel = f + 2 := ⟨fuel - 2, by omega⟩
    rw [loop_far _ _ _ _ _ _ _ _ _ hd, loop_near _ _ _ _ _ _ _ _ _ (show ¬ ((trial w).2.2.elim distMax dist).gt eps from hk)]
    rfl
  | succ k ih =>
    intro w θ d c fuel hd hj hk hf
    obtain ⟨fuel, rfl⟩ : ∃ f, fuel = f + 1 := ⟨fuel - 1, by omega⟩
    rw [loop_far _ _ _ _ _ _ _ _ _ hd]
    have := ih (trial w).1 (some (trial w).2.1) ((trial w).2.2.elim distMax dist) (c + 1) fuel (hj 0 (by omega)) (fun j h => hj (j + 1) (by omega)) hk (by omega)
    rw [this]
    have e : c + 1 + k + 1 = c + (k + 1) + 1 := by omega
    rw [e]
    rfl

/-- C192 fails: a simulation with a distance that is not a number is accepted, if it comes before the first one within the threshold, whatever the threshold is. -/
theorem C192_violated (trial : W → W × Θ × Option Y) (dist : Y → Num) (distMax eps : Num) (hmax : distMax.gt eps) (w : W) (k : Nat) (y : Y) (hy : (trial (after trial w k)).2.2 = some y) (hnan : dist y = .nan)
    (hbefore : ∀ j, j < k → (seen trial dist distMax w j).gt eps) (fuel : Nat) (hf : k + 2 ≤ fuel) :
    rejectTask trial dist distMax eps fuel w = .done ((trial (after trial w k)).2.1, .nan, k + 1, after trial w (k + 1)) := by
  have hs : seen trial dist distMax w k = .nan := by rw [seen, hy]; exact hnan
  have := loop_accepts trial dist distMax eps k w none distMax 0 fuel hmax hbefore (by rw [hs]; cases eps <;> exact id) hf
  rw [hs, Nat.zero_add] at this
  exact this

/-- A simulator that fails every other time: after a failure its distance is NaN, otherwise it is 5. With threshold 1, the task of `RejectionABC` returns the second simulation; no simulation is within the
threshold. -/
example : rejectTask (fun w : Nat => (w + 1, w, some w)) (fun y => if y % 2 = 1 then .nan else .num 5) .inf (.num 1) 3 0 = .done (1, .nan, 2, 2) := by
  have := C192_violated (fun w : Nat => (w + 1, w, some w)) (fun y => if y % 2 = 1 then .nan else .num 5) .inf (.num 1) trivial 0 1 1 rfl rfl (by
    intro j hj
    obtain rfl : j = 0 := by omega
    show (Num.num 5).gt (.num 1)
    rw [Num.gt, lt_num]
    norm_num) 3 (by omega)
  exact this

/-! ### The law of what is returned -/

open Chance Filter Topology

/-- An outcome is kept by the loop if there are data and they are near enough, or their distance is not a number. -/
def kept {Ω : Type} (data : Ω → Option Y) (dist : Y → Num) (eps : Num) (ω : Ω) : Prop := ∃ y, data ω = some y ∧ ((dist y).le eps ∨ dist y = .nan)

open Classical in
/-- Specification: the probability that a task returns parameters in a set within `n` trials, as `Rejection.chanceOf`. -/
noncomputable def chanceOf {Ω : Type} (outcomes : List Ω) (q : Ω → ℝ) (param : Ω → Θ) (data : Ω → Option Y) (first : Ω) (dist : Y → Num) (distMax eps : Num) (n : Nat) (set : Θ → Prop) : ℝ :=
  prob outcomes q n fun l => decide (∃ θ d c l', rejectTask (trialOf param data first) dist distMax eps (n + 1) l = .done (θ, d, c, l') ∧ set θ)

open Classical in
/-- The law of what `RejectionABC` returns: the prior conditioned on a distance that is at most the threshold or not a number. -/
theorem C192_law {Ω : Type} (outcomes : List Ω) (q : Ω → ℝ) (hq0 : ∀ ω ∈ outcomes, 0 ≤ q ω) (hq1 : (outcomes.map q).sum = 1) (param : Ω → Θ) (data : Ω → Option Y) (first : Ω) (dist : Y → Num) (distMax eps : Num)
    (hmax : distMax.gt eps) (hacc : 0 < total outcomes q (kept data dist eps)) (set : Θ → Prop) :
    Tendsto (fun n => chanceOf outcomes q param data first dist distMax eps n set) atTop
      (𝓝 (total outcomes q (fun ω => kept data dist eps ω ∧ set (param ω)) / total outcomes q (kept data dist eps))) := by
  have hne : eps ≠ .nan := by rintro rfl; cases distMax <;> exact hmax
  have hk : ∀ ω, kept data dist eps ω ↔ accepted data (fun y => tooFar eps (dist y)) 0 ω := by
    intro ω
    unfold kept accepted
    simp only [tooFar_le, not_gt, hne, or_false]
  have e1 : ∀ {E F : Ω → Prop} [DecidablePred E] [DecidablePred F], (∀ ω, E ω ↔ F ω) → total outcomes q E = total outcomes q F := by
    intro E F _ _ h
    unfold total
    congr 1
    apply List.map_congr_left
    intro ω _
    by_cases hE : E ω
    · rw [if_pos hE, if_pos ((h ω).1 hE)]
    · rw [if_neg hE, if_neg fun hF => hE ((h ω).2 hF)]
  rw [e1 hk] at hacc ⊢
  rw [e1 (F := fun ω => accepted data (fun y => tooFar eps (dist y)) 0 ω ∧ set (param ω)) fun ω => and_congr_left' (hk ω)]
  refine (C125 outcomes q hq0 hq1 param data first (fun y => tooFar eps (dist y)) (tooFar eps distMax) 0 (tooFar_pos.2 hmax) hacc set).congr ?_
  intro n
  unfold Rejection.chanceOf chanceOf
  congr 1
  funext l
  have he := loop_eq (trialOf param data first) dist distMax eps (n + 1) l none distMax 0
  congr 1
  rw [eq_iff_iff]
  unfold Rejection.rejectTask rejectTask
  generalize rejectLoop (trialOf param data first) dist distMax eps (n + 1) l none distMax 0 = a at he
  generalize Rejection.rejectLoop (trialOf param data first) (fun y => tooFar eps (dist y)) (tooFar eps distMax) 0 (n + 1) l none (tooFar eps distMax) 0 = b at he
  cases a with
  | running => cases b <;> simp_all [ending, returned, Rejection.Task.result]
  | unbound => cases b <;> simp_all [ending, returned, Rejection.Task.result]
  | done a =>
    obtain ⟨θ, d, c, l'⟩ := a
    cases b with
    | running => cases he
    | unbound => cases he
    | done b =>
      obtain ⟨θ', d', c', l''⟩ := b
      simp only [ending, Rejection.Task.done.injEq, Prod.mk.injEq] at he
      obtain ⟨rfl, rfl, rfl⟩ := he
      simp [returned, Rejection.Task.result]

/-! ### C193: a fixed budget -/

/-- `np.quantile(distances, q)` in `_journal_cleanup`, inferences.py 631. `none`: an exception. -/
noncomputable def quantile (l : List Num) (q : ℝ) : Option Num := percentile l (100 * q)

open Classical in
/-- `_journal_cleanup`, inferences.py 605-665, for the selection of particles and distances; `none` is the `RuntimeError`. -/
noncomputable def cleanup (params : List Θ) (distances : List Num) (cutoff : Num) : Option (List Θ × List Num) :=
  let mask := distances.map fun d => decide (d.lt cutoff)
  if mask.count true = 0 then none else some (select mask params, select mask distances)

/-- What `RejectionABC` with a fixed budget and a quantile makes of the simulations: `none` is an exception. -/
noncomputable def byQuantile (params : List Θ) (distances : List Num) (q : ℝ) : Option (List Θ × List Num) := (quantile distances q).bind (cleanup params distances)

theorem select_map {A B : Type} (l : List (A × B)) (p : B → Bool) : select ((l.map Prod.snd).map p) (l.map Prod.fst) = (l.filter fun e => p e.2).map Prod.fst := by
  induction l with
  | nil => rfl
  | cons e l ih =>
    unfold select at ih ⊢
    simp only [List.map_cons, List.zip_cons_cons, List.filter_cons]
    by_cases h : p e.2 = true
    · simp only [h, if_true, List.map_cons, ih]
    · simp only [h, Bool.false_eq_true, if_false, ih]

theorem select_self {B : Type} (l : List B) (p : B → Bool) : select (l.map p) l = l.filter p := by
  induction l with
  | nil => rfl
  | cons e l ih =>
    unfold select at ih ⊢
    simp only [List.map_cons, List.zip_cons_cons, List.filter_cons]
    by_cases h : p e = true
    · simp only [h, if_true, List.map_cons, ih]
    · simp only [h, Bool.false_eq_true, if_false, ih]

open Classical in
/-- C193 for a threshold: exactly the simulations with a distance below it are kept, with their distances; those with a distance that is not a number are dropped. Missing: quantiles, see `C193_violated`. -/
theorem C193_partial (sims : List (Θ × Num)) (cutoff : Num) :
    (cleanup (sims.map Prod.fst) (sims.map Prod.snd) cutoff = none ↔ ∀ e ∈ sims, ¬ e.2.lt cutoff) ∧
      ∀ r, cleanup (sims.map Prod.fst) (sims.map Prod.snd) cutoff = some r → r.1.zip r.2 = sims.filter (fun e => decide (e.2.lt cutoff)) ∧ r.1.length = r.2.length ∧ ∀ d ∈ r.2, d ≠ .nan := by
  unfold cleanup
  simp only
  rw [select_map sims fun d => decide (d.lt cutoff), select_self]
  have hc : ((sims.map Prod.snd).map fun d => decide (d.lt cutoff)).count true = 0 ↔ ∀ e ∈ sims, ¬ e.2.lt cutoff := by
    rw [List.count_eq_zero]
    simp
  constructor
  · rw [← hc]
    split
    · rename_i h; exact iff_of_true rfl h
    · rename_i h; exact iff_of_false (by simp) h
  · intro r hr
    split at hr
    · cases hr
    · simp only [Option.some.injEq] at hr
      subst hr
      simp only
      rw [List.filter_map]
      refine ⟨?_, by simp [Function.comp_def], ?_⟩
      · simp only [Function.comp_def]
        rw [List.zip_map', List.map_id']
      · intro d hd
        obtain ⟨e, he, rfl⟩ := List.mem_map.1 hd
        have := (List.mem_filter.1 he).2
        simp only [Function.comp_def, decide_eq_true_eq] at this
        intro h
        rw [h] at this
        exact this

/-- C193 for a quantile if all distances are numbers: at every quantile what `RejectionABC` returns is what the threshold at the quantile of the distances selects. -/
theorem C193_quantile_partial (params : List Θ) (distances : List ℝ) (q : ℝ) : byQuantile params (distances.map .num) q = (Pmc.percentile distances (100 * q)).bind fun c => cleanup params (distances.map .num) (.num c) := by
  unfold byQuantile quantile
  rw [percentile_num]
  cases Pmc.percentile distances (100 * q) <;> rfl

/-- C193 fails for quantiles: if the distance of one simulation is not a number, the whole run ends with an exception, whatever the other distances are. -/
theorem C193_violated (params : List Θ) (distances : List Num) (q : ℝ) (h : .nan ∈ distances) : byQuantile params distances q = none := by
  unfold byQuantile quantile
  rcases percentile_nan distances (100 * q) h with e | e
  · rw [e]; rfl
  rw [e, Option.bind_some, cleanup]
  rw [if_pos]
  rw [List.count_eq_zero]
  simp only [List.mem_map, decide_eq_true_eq, not_exists, not_and]
  intro d _
  cases d <;> exact id

end Verif.Nan
