import Verif.Rejection.Model
/-
C207: `RejectionABC` with two thresholds, everything else being equal.
-/
namespace Verif.Rejection

/-! ### Specification -/

/-- Two results of the same task, the first one with the larger threshold: the second task has simulated at least as often, and if the particle of the first one is within the smaller threshold `eps`
then both tasks have returned it after the same number of simulations. -/
def Tighter {Θ D : Type} [LinearOrder D] (eps : D) (loose tight : Θ × D × Nat) : Prop :=
  loose.2.2 ≤ tight.2.2 ∧ (loose.2.1 ≤ eps → tight = loose)

/-- The results of a round, one for each task. `count k` is the number of simulations of task `k`. -/
def Results {Θ D : Type} (r : Round Θ D) (counter : Nat) (l : List (Θ × D × Nat)) : Prop :=
  r.params = l.map (·.1) ∧ r.distances = l.map (·.2.1) ∧ r.counter = counter + (l.map (·.2.2)).sum

/-! ### One task -/

theorem rejectLoop_tighter {W Θ Y D : Type} [LinearOrder D] (trial : W → W × Θ × Option Y) (dist : Y → D) (distMax eps eps' : D) (he : eps ≤ eps') :
    ∀ (fuel : Nat) (w : W) (θ : Option Θ) (d : D) (c : Nat) (a : Θ × D × Nat × W), (d ≤ eps' → θ.isSome) → rejectLoop trial dist distMax eps fuel w θ d c = .done a →
      ∃ b, rejectLoop trial dist distMax eps' fuel w θ d c = .done b ∧ b.2.2.1 ≤ a.2.2.1 ∧ (b.2.1 ≤ eps → a = b) := by
  intro fuel
  induction fuel with
  | zero => intro w θ d c a _ h; cases h
  | succ fuel ih =>
    intro w θ d c a hθ h
    have mono : ∀ (fuel : Nat) (w : W) (θ : Option Θ) (d : D) (c : Nat) (a : Θ × D × Nat × W), rejectLoop trial dist distMax eps fuel w θ d c = .done a → c ≤ a.2.2.1 := by
      intro fuel
      induction fuel with
      | zero => intro w θ d c a h; cases h
      | succ fuel ih =>
        intro w θ d c a h
        unfold rejectLoop at h
        split_ifs at h with hd
        · exact (Nat.le_succ c).trans (ih _ _ _ _ _ h)
        · cases θ with
          | none => cases h
          | some θ => cases h; exact le_rfl
    have hm := mono _ _ _ _ _ _ h
    by_cases h1 : d > eps'
    · have h2 : d > eps := lt_of_le_of_lt he h1
      unfold rejectLoop at h ⊢
      rw [if_pos h2] at h
      rw [if_pos h1]
      exact ih _ _ _ _ _ (fun _ => rfl) h
    · obtain ⟨t, rfl⟩ := Option.isSome_iff_exists.1 (hθ (not_lt.1 h1))
      refine ⟨(t, d, c, w), by unfold rejectLoop; rw [if_neg h1], hm, fun hd => ?_⟩
      unfold rejectLoop at h
      rw [if_neg (not_lt.2 hd)] at h
      cases h
      rfl

/-- C207, one task: with a larger threshold that is below the largest distance a task ends whenever it ends with the smaller one. -/
theorem rejectTask_tighter {W Θ Y D : Type} [LinearOrder D] (trial : W → W × Θ × Option Y) (dist : Y → D) (distMax eps eps' : D) (he : eps ≤ eps') (hm : eps' < distMax) (fuel : Nat) (w : W)
    (a : Θ × D × Nat × W) (h : rejectTask trial dist distMax eps fuel w = .done a) :
    ∃ b, rejectTask trial dist distMax eps' fuel w = .done b ∧ Tighter eps (b.1, b.2.1, b.2.2.1) (a.1, a.2.1, a.2.2.1) := by
  obtain ⟨b, h1, h2, h3⟩ := rejectLoop_tighter trial dist distMax eps eps' he fuel w none distMax 0 a (fun h => absurd hm (not_lt.2 h)) h
  exact ⟨b, h1, h2, fun hd => by rw [h3 hd]⟩

/-! ### The property -/

/-- C207, with a number of samples: if a call with threshold `eps` returns, then the same call (same random numbers) with a larger threshold `eps'` below the largest distance returns too. It has as many
particles; every task has simulated at most as often, so the whole call has; and a particle of the call with `eps'` whose distance is at most `eps` is at the same place, with the same distance, in the call
with `eps`. -/
theorem C207_samples {W Θ Y D : Type} [LinearOrder D] (trial : W → W × Θ × Option Y) (dist : Y → D) (distMax eps eps' : D) (he : eps ≤ eps') (hm : eps' < distMax) (fuel counter : Nat) (start : List W)
    (r : Round Θ D) (h : rejectRound trial dist distMax eps fuel counter start = some r) :
    ∃ r' l l', rejectRound trial dist distMax eps' fuel counter start = some r' ∧ Results r counter l ∧ Results r' counter l' ∧ List.Forall₂ (Tighter eps) l' l ∧ l.length = start.length ∧
      r'.weights = r.weights ∧ r'.counter ≤ r.counter := by
  unfold rejectRound at h ⊢
  split_ifs at h with hn
  rw [if_pos hn]
  have key : ∀ (start : List W) (l : List (Θ × D × Nat × W)), collect (start.map fun w => (rejectTask trial dist distMax eps fuel w).result) = some l →
      ∃ l', collect (start.map fun w => (rejectTask trial dist distMax eps' fuel w).result) = some l' ∧
        List.Forall₂ (Tighter eps) (l'.map fun a => (a.1, a.2.1, a.2.2.1)) (l.map fun a => (a.1, a.2.1, a.2.2.1)) ∧ l.length = start.length := by
    intro start
    induction start with
    | nil => intro l hl; cases hl; exact ⟨[], rfl, .nil, rfl⟩
    | cons w start ih =>
      intro l hl
      rw [List.map_cons] at hl
      cases ht : rejectTask trial dist distMax eps fuel w with
      | running => rw [ht] at hl; cases hl
      | unbound => rw [ht] at hl; cases hl
      | done a =>
        rw [ht, Task.result, collect] at hl
        cases hc : collect (start.map fun w => (rejectTask trial dist distMax eps fuel w).result) with
        | none => rw [hc] at hl; cases hl
        | some l0 =>
          rw [hc] at hl
          cases hl
          obtain ⟨l', h1, h2, h3⟩ := ih l0 hc
          obtain ⟨b, hb, htb⟩ := rejectTask_tighter trial dist distMax eps eps' he hm fuel w a ht
          refine ⟨b :: l', ?_, .cons htb h2, by simp [h3]⟩
          rw [List.map_cons, hb, Task.result, collect, h1]
  cases hc : collect (start.map fun w => (rejectTask trial dist distMax eps fuel w).result) with
  | none => rw [hc] at h; cases h
  | some l =>
    rw [hc] at h
    cases h
    obtain ⟨l', h1, h2, h3⟩ := key start l hc
    rw [h1]
    refine ⟨_, _, _, rfl, ⟨by simp [Function.comp_def], by simp [Function.comp_def], by simp [Function.comp_def]⟩,
      ⟨by simp [Function.comp_def], by simp [Function.comp_def], by simp [Function.comp_def]⟩, h2, by simpa using h3, rfl, ?_⟩
    have hs : ∀ a b : List (Θ × D × Nat), List.Forall₂ (Tighter eps) a b → (a.map (·.2.2)).sum ≤ (b.map (·.2.2)).sum := by
      intro a b h
      induction h with
      | nil => exact le_rfl
      | cons h _ ih => simp only [List.map_cons, List.sum_cons]; exact Nat.add_le_add h.1 ih
    have := hs _ _ h2
    simp only [List.map_map, Function.comp_def] at this
    simpa using this

theorem select_cons {A : Type} (m : List Bool) (b : Bool) (x : A) (k : List A) : select (b :: m) (x :: k) = if b then x :: select m k else select m k := by
  unfold select
  cases b <;> simp

theorem select_select {A D : Type} (p q : D → Bool) (hpq : ∀ d, p d = true → q d = true) (l : List A) (ds : List D) (h : l.length = ds.length) :
    select ((select (ds.map q) ds).map p) (select (ds.map q) l) = select (ds.map p) l := by
  induction l generalizing ds with
  | nil => simp [select]
  | cons a l ih =>
    cases ds with
    | nil => simp [select]
    | cons d ds =>
      have ih' := ih ds (by simpa using h)
      rw [List.map_cons, List.map_cons, select_cons, select_cons, select_cons]
      by_cases hq : q d = true
      · rw [if_pos hq, if_pos hq, List.map_cons, select_cons, ih']
      · have hp : ¬ p d = true := fun hp => hq (hpq d hp)
        rw [if_neg hq, if_neg hq, if_neg hp, ih']

theorem select_count {A D : Type} (p : D → Bool) (l : List A) (ds : List D) (h : l.length = ds.length) : (ds.map p).count true = (select (ds.map p) l).length := by
  induction l generalizing ds with
  | nil =>
    have : ds = [] := List.length_eq_zero_iff.1 (by simpa using h.symm)
    subst this
    simp [select]
  | cons a l ih =>
    cases ds with
    | nil => simp at h
    | cons d ds =>
      rw [List.map_cons, select_cons, List.count_cons, ih ds (by simpa using h)]
      by_cases hp : p d = true
      · simp [hp]
      · simp [hp]

theorem select_sublist {A : Type} (m : List Bool) (l : List A) : (select m l).Sublist l := by
  induction l generalizing m with
  | nil => simp [select]
  | cons a l ih =>
    cases m with
    | nil => simp [select]
    | cons b m =>
      rw [select_cons]
      split_ifs
      · exact (ih m).cons_cons a
      · exact (ih m).cons a

/-- C207, with a budget of simulations: the particles kept for a threshold `eps`, with their distances and the columns of the journal, are those of the particles kept for a larger threshold `eps'` whose
distance is below `eps`, in the same order. If some are kept for `eps`, some are kept for `eps'`. -/
theorem C207_budget {Θ V D : Type} [LinearOrder D] (params : List Θ) (distances : List D) (named : List (String × List V)) (eps eps' : D) (he : eps ≤ eps') (hl : params.length = distances.length)
    (hc : ∀ e ∈ named, e.2.length = distances.length) (k : Kept Θ V D) (h : cleanup params distances named eps = some k) :
    ∃ k', cleanup params distances named eps' = some k' ∧ cleanup k'.params k'.distances k'.named eps = some k ∧ k.params.Sublist k'.params ∧ k.distances.Sublist k'.distances := by
  have hpq : ∀ d : D, decide (d < eps) = true → decide (d < eps') = true := by
    intro d hd
    rw [decide_eq_true_iff] at hd ⊢
    exact lt_of_lt_of_le hd he
  have hsel : ∀ {A : Type} (l : List A), l.length = distances.length → select ((select (distances.map fun d => decide (d < eps')) distances).map fun d => decide (d < eps))
      (select (distances.map fun d => decide (d < eps')) l) = select (distances.map fun d => decide (d < eps)) l := fun l hl => select_select _ _ hpq l distances hl
  have hcount : ((select (distances.map fun d => decide (d < eps')) distances).map fun d => decide (d < eps)).count true = (distances.map fun d => decide (d < eps)).count true := by
    rw [select_count _ _ _ rfl, hsel distances rfl, select_count _ distances _ rfl]
  have hle : (distances.map fun d => decide (d < eps)).count true ≤ (distances.map fun d => decide (d < eps')).count true := by
    rw [← hcount, select_count (fun d => decide (d < eps')) distances _ rfl]
    exact List.count_le_length.trans (by simp)
  unfold cleanup at h ⊢
  simp only at h ⊢
  split_ifs at h with h0
  have h0' : (distances.map fun d => decide (d < eps')).count true ≠ 0 := by omega
  cases h
  refine ⟨_, if_neg h0', ?_, ?_, ?_⟩
  · rw [if_neg (by rw [hcount]; exact h0), hcount]
    simp only [hsel params hl, hsel distances rfl, List.map_map]
    congr 2
    refine List.map_congr_left fun e hem => ?_
    simp only [Function.comp_apply, hsel e.2 (hc e hem)]
  · simp only
    rw [← hsel params hl]
    exact select_sublist _ _
  · simp only
    rw [← hsel distances rfl]
    exact select_sublist _ _

/-- A worker that draws the numbers 5, 4, 3, ... : with threshold 1 it needs five trials, with threshold 3 three of them. -/
example : (rejectRound (fun w : Nat => (w - 1, w, some w)) id 100 1 10 0 [5, 2]).map (fun r => (r.params, r.counter)) = some ([1, 1], 7) ∧
    (rejectRound (fun w : Nat => (w - 1, w, some w)) id 100 3 10 0 [5, 2]).map (fun r => (r.params, r.counter)) = some ([3, 2], 4) := by
  decide

/-- With a budget: the particles below 2 are those of the particles below 3. -/
example : (cleanup (Θ := Nat) (V := Nat) [7, 8, 9] [1, 3, 2] [] 2).map (·.params) = some [7] ∧ (cleanup (Θ := Nat) (V := Nat) [7, 8, 9] [1, 3, 2] [] 3).map (·.params) = some [7, 9] := by
  decide

end Verif.Rejection
