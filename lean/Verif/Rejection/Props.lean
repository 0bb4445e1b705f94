import Verif.Rejection.Model
import Mathlib.Tactic.Linarith
import Mathlib.Data.List.Count
import Mathlib.Logic.Function.Iterate
/-
Property theorems C34 - C38, C75 and C76.
-/
namespace Verif.Rejection

/-! ### C34 -/

theorem chunkLoop_spec {S R : Type} (draw : Nat → S → S × R) (chunk : Nat) (hc : 1 ≤ chunk) (P : Nat → R → Prop)
    (hd : ∀ k s, P k (draw k s).2) (fuel : Nat) (left : Int) (s : S) (hf : left < fuel) (hf0 : 0 < fuel) :
    ∃ s' l, chunkLoop draw chunk fuel left s = some (s', l) ∧
      ∃ sizes : List Nat, List.Forall₂ P sizes l ∧ sizes.sum = left.toNat ∧ (∀ k ∈ sizes, 1 ≤ k ∧ k ≤ chunk) ∧
        l.length = (left.toNat + chunk - 1) / chunk := by
  induction fuel generalizing left s with
  | zero => omega
  | succ fuel ih =>
    unfold chunkLoop
    by_cases hl : left > 0
    · rw [if_pos hl]
      obtain ⟨s', l, h1, sizes, h2, h3, h4, h5⟩ := ih (left - chunk) (draw (min left chunk).toNat s).1 (by omega) (by omega)
      simp only
      refine ⟨s', _ :: l, by rw [h1], (min left chunk).toNat :: sizes, .cons (hd _ _) h2, ?_, ?_, ?_⟩
      · rw [List.sum_cons, h3]; omega
      · intro k hk
        rcases List.mem_cons.1 hk with rfl | hk
        · omega
        · exact h4 k hk
      · rw [List.length_cons, h5]
        rcases le_or_gt left (chunk : Int) with h | h
        · have e1 : (left - (chunk : Int)).toNat = 0 := by omega
          rw [e1, Nat.div_eq_of_lt (by omega)]
          have : left.toNat + chunk - 1 = chunk + (left.toNat - 1) := by omega
          rw [this, Nat.add_div_left _ (by omega), Nat.div_eq_of_lt (by omega)]
        · have : left.toNat + chunk - 1 = chunk + ((left - (chunk : Int)).toNat + chunk - 1) := by omega
          rw [this, Nat.add_div_left _ (by omega)]
    · rw [if_neg hl]
      refine ⟨s, [], rfl, [], .nil, by simp; omega, by simp, ?_⟩
      have : left.toNat = 0 := by omega
      rw [this, List.length_nil, Nat.div_eq_of_lt (by omega)]

theorem flatten_length {A : Type} (sizes : List Nat) (l : List (List A)) (h : List.Forall₂ (fun k r => r.length = k) sizes l) :
    l.flatten.length = sizes.sum := by
  induction h with
  | nil => rfl
  | cons h _ ih => simp [h, ih]

/-- C34 for `sample`: whatever the chunk size, the journal holds exactly `n` draws and `n` weights; the rounds (there are ⌈n / chunk⌉) ask for between 1 and `chunk` draws, in
total `n`. `draw k` stands for one round, which gives `k` draws. -/
theorem C34_sample {S Θ : Type} (draw : Nat → S → S × List Θ) (hd : ∀ k s, (draw k s).2.length = k) (chunk n : Nat) (hc : 1 ≤ chunk)
    (s : S) :
    (∃ ps ws, priorSample draw chunk n (n + 1) s = some (ps, ws) ∧ ps.length = n ∧ ws = List.replicate n 1) ∧
    ∃ s' l, chunkLoop draw chunk (n + 1) n s = some (s', l) ∧ priorSample draw chunk n (n + 1) s = some (l.flatten, List.replicate n 1) ∧
      l.length = (n + chunk - 1) / chunk ∧ ∀ r ∈ l, 1 ≤ r.length ∧ r.length ≤ chunk := by
  obtain ⟨s', l, h1, sizes, h2, h3, h4, h5⟩ := chunkLoop_spec draw chunk hc (fun k r => r.length = k) hd (n + 1) n s (by omega) (by omega)
  constructor
  · refine ⟨l.flatten, List.replicate n 1, by simp [priorSample, h1], ?_, rfl⟩
    rw [flatten_length sizes l h2, h3]; simp
  · refine ⟨s', l, h1, by simp [priorSample, h1], by simpa using h5, fun r hr => ?_⟩
    obtain ⟨i, hi⟩ := List.mem_iff_getElem?.1 hr
    have hlt := (List.getElem?_eq_some_iff.1 hi).1
    have hlen := h2.length_eq
    have := (List.forall₂_iff_get.1 h2).2 i (by omega) hlt
    simp only [List.get_eq_getElem] at this
    have e : l[i] = r := by rw [List.getElem?_eq_getElem hlt] at hi; simpa using hi
    rw [e] at this
    have h6 := h4 _ (List.getElem_mem (l := sizes) (n := i) (by omega))
    omega

/-- C34 for pairs, if at least one is requested: exactly `n` parameters and `n` simulations, in ⌈n / chunk⌉ rounds of at most `chunk`; parameter and simulation of a pair are at the same place. Missing: `n = 0` (below). -/
theorem C34_pairs_partial {S Θ Y : Type} (draw : Nat → S → S × List (Θ × Y)) (hd : ∀ k s, (draw k s).2.length = k) (chunk n : Nat)
    (hc : 1 ≤ chunk) (hn : 1 ≤ n) (s : S) :
    (∃ ps ys, priorPairs draw chunk n (n + 1) s = .ok ps ys ∧ ps.length = n ∧ ys.length = n) ∧
    ∃ s' l, chunkLoop draw chunk (n + 1) n s = some (s', l) ∧ priorPairs draw chunk n (n + 1) s = .ok (l.flatten.map Prod.fst) (l.flatten.map Prod.snd) ∧
      l.length = (n + chunk - 1) / chunk ∧ ∀ r ∈ l, 1 ≤ r.length ∧ r.length ≤ chunk := by
  obtain ⟨s', l, h1, sizes, h2, h3, h4, h5⟩ := chunkLoop_spec draw chunk hc (fun k r => r.length = k) hd (n + 1) n s (by omega) (by omega)
  have hfl := flatten_length sizes l h2
  rw [h3] at hfl
  have hne : l ≠ [] := by
    rintro rfl
    simp at hfl
    omega
  have he : priorPairs draw chunk n (n + 1) s = .ok (l.flatten.map Prod.fst) (l.flatten.map Prod.snd) := by
    cases l with
    | nil => exact absurd rfl hne
    | cons r l =>
      simp only [priorPairs, h1]
      rw [← List.map_flatten, ← List.map_flatten]
  obtain ⟨-, s1, l1, e1, -, e2, e3⟩ := C34_sample draw hd chunk n hc s
  rw [h1] at e1
  simp only [Option.some.injEq, Prod.mk.injEq] at e1
  obtain ⟨rfl, rfl⟩ := e1
  exact ⟨⟨_, _, he, by rw [List.length_map, hfl]; simp, by rw [List.length_map, hfl]; simp⟩, s', l, h1, he, e2, e3⟩

/-- C34 fails for pairs with `n = 0`: instead of no pairs there is an exception. -/
theorem C34_pairs_violated {S Θ Y : Type} (draw : Nat → S → S × List (Θ × Y)) (chunk fuel : Nat) (s : S) :
    priorPairs draw chunk 0 (fuel + 1) s = .valueError := by
  simp [priorPairs, chunkLoop]

example : ∃ ps ws, priorSample (fun k (s : Nat) => (s + k, (List.range k).map (· + s))) 3 7 8 0 = some (ps, ws) ∧ ps = [0, 1, 2, 3, 4, 5, 6] :=
  ⟨_, _, rfl, by decide⟩

/-! ### C35 -/

theorem count_bump (s : List Nat) (hs : s.Pairwise (· ≤ ·)) (x : Nat) :
    (bump s).count x = (if x ∈ s then 1 else 0) + (if 1 ≤ x then s.count (x - 1) - 1 else 0) := by
  induction s with
  | nil => simp [bump]
  | cons a l ih =>
    cases l with
    | nil =>
      simp only [bump, List.count_cons, List.count_nil, List.mem_singleton, beq_iff_eq]
      split_ifs <;> omega
    | cons b l =>
      have hs' := hs.tail
      have ih := ih hs'
      rw [bump, List.count_cons, ih]
      have hle : ∀ y ∈ b :: l, a ≤ y := fun y hy => (List.pairwise_cons.1 hs).1 y hy
      have hcount : (a :: b :: l).count (x - 1) = (b :: l).count (x - 1) + if a = x - 1 then 1 else 0 := by
        rw [List.count_cons]; simp
      rw [hcount]
      by_cases hab : a = b
      · subst hab
        rw [if_pos rfl]
        have hm : (x ∈ a :: a :: l) ↔ x ∈ a :: l := by simp
        have hc1 : 1 ≤ (a :: l).count a := by simp
        simp only [hm, beq_iff_eq]
        by_cases hx : a + 1 = x
        · have : x - 1 = a := by omega
          rw [this]
          simp only [hx, if_true, show 1 ≤ x by omega]
          omega
        · rw [if_neg hx]
          by_cases h1 : 1 ≤ x
          · have : a ≠ x - 1 := by omega
            simp [this]
          · simp [h1]
      · rw [if_neg hab]
        have hnot : a ∉ b :: l := by
          intro h
          have h1 := hle b (by simp)
          rcases List.mem_cons.1 h with h | h
          · exact hab h
          · have := (List.pairwise_cons.1 hs').1 a h
            omega
        have hc0 : (b :: l).count a = 0 := List.count_eq_zero.2 hnot
        simp only [beq_iff_eq]
        have hm : (x ∈ a :: b :: l) ↔ (x = a ∨ x ∈ b :: l) := List.mem_cons
        have t2 : (if 1 ≤ x then (b :: l).count (x - 1) + (if a = x - 1 then 1 else 0) - 1 else 0) =
            (if 1 ≤ x then (b :: l).count (x - 1) - 1 else 0) := by
          by_cases h1 : 1 ≤ x
          · rw [if_pos h1, if_pos h1]
            by_cases h2 : a = x - 1
            · rw [if_pos h2, ← h2, hc0]
            · rw [if_neg h2]; rfl
          · rw [if_neg h1, if_neg h1]
        rw [t2]
        by_cases hx : a = x
        · subst hx
          rw [if_pos rfl, if_neg hnot, if_pos (hm.2 (Or.inl rfl))]
          omega
        · rw [if_neg hx]
          by_cases h2 : x ∈ b :: l
          · rw [if_pos h2, if_pos (hm.2 (Or.inr h2))]; omega
          · rw [if_neg h2, if_neg (fun h => (hm.1 h).elim (fun e => hx e.symm) h2)]; omega

/-- C35, exactly: the seeds of the workers are pairwise different if and only if in the drawn array no value occurs more than twice, and no
value that occurs twice is followed by its successor. One seed is given to each worker.
Missing: the other arrays (below). -/
theorem C35_seeds_partial (seeds : List Nat) :
    (workerSeeds seeds).length = seeds.length ∧
    ((workerSeeds seeds).Nodup ↔ ∀ v, 2 ≤ seeds.count v → seeds.count v = 2 ∧ v + 1 ∉ seeds) := by
  have hlen : ∀ s : List Nat, (bump s).length = s.length := by
    intro s
    induction s with
    | nil => rfl
    | cons a l ih => cases l with
      | nil => rfl
      | cons b l => rw [bump, List.length_cons, ih]; rfl
  refine ⟨by rw [workerSeeds, hlen, List.length_insertionSort], ?_⟩
  have hperm := List.perm_insertionSort (· ≤ ·) seeds
  have hcnt : ∀ x, (workerSeeds seeds).count x = (if x ∈ seeds then 1 else 0) + (if 1 ≤ x then seeds.count (x - 1) - 1 else 0) := by
    intro x
    unfold workerSeeds
    rw [count_bump _ (List.pairwise_insertionSort (· ≤ ·) seeds), hperm.count_eq]
    simp only [hperm.mem_iff]
  rw [List.nodup_iff_count_le_one]
  constructor
  · intro h v hv
    have h1 := h (v + 1)
    rw [hcnt] at h1
    simp only [Nat.add_sub_cancel, Nat.le_add_left, if_true] at h1
    by_cases hm : v + 1 ∈ seeds
    · rw [if_pos hm] at h1; omega
    · rw [if_neg hm] at h1; exact ⟨by omega, hm⟩
  · intro h x
    rw [hcnt]
    by_cases h1 : 1 ≤ x
    · rw [if_pos h1]
      by_cases h2 : 2 ≤ seeds.count (x - 1)
      · obtain ⟨e, hn⟩ := h _ h2
        rw [show x - 1 + 1 = x by omega] at hn
        rw [if_neg hn, e]
      · split <;> omega
    · rw [if_neg h1]; split <;> omega

/-- C35 fails: if the generator draws 5, 5, 6, two workers get the seed 6. -/
theorem C35_seeds_violated : workerSeeds [5, 6, 5] = [6, 5, 6] := by decide

example : (workerSeeds [7, 3, 7, 5]).Nodup := by decide

/-! ### C36 -/

/-- The state of the worker after `k` trials. -/
def after {W Θ Y : Type} (trial : W → W × Θ × Option Y) (w : W) (k : Nat) : W := (fun w => (trial w).1)^[k] w

theorem after_succ {W Θ Y : Type} (trial : W → W × Θ × Option Y) (w : W) (k : Nat) : after trial w (k + 1) = (trial (after trial w k)).1 := by
  unfold after; rw [Function.iterate_succ_apply']

/-- The distance the loop sees after trial `k`. -/
def seen {W Θ Y D : Type} (trial : W → W × Θ × Option Y) (dist : Y → D) (distMax : D) (w : W) (k : Nat) : D :=
  (trial (after trial w k)).2.2.elim distMax dist

theorem rejectLoop_from {W Θ Y D : Type} [LinearOrder D] (trial : W → W × Θ × Option Y) (dist : Y → D) (distMax eps : D) (w : W)
    (fuel c : Nat) :
    (∀ r, rejectLoop trial dist distMax eps fuel (after trial w (c + 1)) (some (trial (after trial w c)).2.1) (seen trial dist distMax w c) (c + 1) =
      r → (∀ θ d n w', r = .done (θ, d, n, w') → ∃ k, n = c + k + 1 ∧ k < fuel ∧ θ = (trial (after trial w (c + k))).2.1 ∧
        d = seen trial dist distMax w (c + k) ∧ d ≤ eps ∧ w' = after trial w n ∧ ∀ j, j < k → seen trial dist distMax w (c + j) > eps) ∧
        r ≠ .unbound ∧ (r = .running → ∀ j, j < fuel → seen trial dist distMax w (c + j) > eps)) := by
  induction fuel generalizing c with
  | zero => rintro r rfl; simp [rejectLoop]
  | succ fuel ih =>
    rintro r rfl
    unfold rejectLoop
    by_cases hd : seen trial dist distMax w c > eps
    · rw [if_pos hd]
      have ih := ih (c + 1) _ rfl
      simp only
      rw [← after_succ trial w (c + 1)]
      refine ⟨?_, ?_, ?_⟩
      · intro θ d n w' h
        obtain ⟨k, h1, h2, h3, h4, h5, h6, h7⟩ := ih.1 θ d n w' h
        refine ⟨k + 1, by omega, by omega, by rw [h3]; congr 4; omega, by rw [h4]; congr 1; omega, h5, h6, ?_⟩
        intro j hj
        cases j with
        | zero => exact hd
        | succ j => have := h7 j (by omega); rwa [show c + 1 + j = c + (j + 1) by omega] at this
      · intro h; exact ih.2.1 h
      · intro h j hj
        cases j with
        | zero => exact hd
        | succ j => have := ih.2.2 h j (by omega); rwa [show c + 1 + j = c + (j + 1) by omega] at this
    · rw [if_neg hd]
      refine ⟨?_, by simp, by simp⟩
      intro θ d n w' h
      simp only [Task.done.injEq, Prod.mk.injEq] at h
      obtain ⟨rfl, rfl, rfl, rfl⟩ := h
      exact ⟨0, by omega, by omega, rfl, rfl, not_lt.1 hd, rfl, by omega⟩

/-- C36 for one worker and a threshold below the maximal distance: what is returned is the parameter of the last trial, its simulation exists and its
distance, the one returned, is at most the threshold; the counter is the number of trials made, and all trials before missed the threshold. The task ends as soon as a trial
meets the threshold, and never fails. -/
theorem C36_task {W Θ Y D : Type} [LinearOrder D] (trial : W → W × Θ × Option Y) (dist : Y → D) (distMax eps : D) (hmax : eps < distMax)
    (fuel : Nat) (w : W) :
    (∀ θ d c w', rejectTask trial dist distMax eps fuel w = .done (θ, d, c, w') →
      1 ≤ c ∧ w' = after trial w c ∧ θ = (trial (after trial w (c - 1))).2.1 ∧
      (∃ y, (trial (after trial w (c - 1))).2.2 = some y ∧ d = dist y) ∧ d ≤ eps ∧
      ∀ k, k < c - 1 → ∀ y, (trial (after trial w k)).2.2 = some y → eps < dist y) ∧
    rejectTask trial dist distMax eps fuel w ≠ .unbound ∧
    (∀ k y, (trial (after trial w k)).2.2 = some y → dist y ≤ eps → k + 2 ≤ fuel → rejectTask trial dist distMax eps fuel w ≠ .running) := by
  unfold rejectTask
  cases fuel with
  | zero => refine ⟨by simp [rejectLoop], by simp [rejectLoop], fun k y _ _ h => by omega⟩
  | succ fuel =>
    have hx : rejectLoop trial dist distMax eps (fuel + 1) w none distMax 0 =
        rejectLoop trial dist distMax eps fuel (after trial w 1) (some (trial (after trial w 0)).2.1) (seen trial dist distMax w 0) 1 := by
      rw [rejectLoop, if_pos hmax, after_succ]
      unfold seen
      rfl
    rw [hx]
    obtain ⟨h1, h2, h3⟩ := rejectLoop_from trial dist distMax eps w fuel 0 _ rfl
    refine ⟨?_, h2, ?_⟩
    · intro θ d c w' h
      obtain ⟨k, rfl, -, k3, k4, k5, k6, k7⟩ := h1 θ d c w' h
      simp only [Nat.zero_add, Nat.add_sub_cancel] at *
      refine ⟨by omega, k6, k3, ?_, k5, ?_⟩
      · unfold seen at k4
        cases hy : (trial (after trial w k)).2.2 with
        | none => rw [hy] at k4; simp at k4; rw [k4] at k5; exact absurd hmax (not_lt.2 k5)
        | some y => rw [hy] at k4; exact ⟨y, rfl, by simpa using k4⟩
      · intro j hj y hy
        have := k7 j hj
        unfold seen at this
        rw [hy] at this
        simpa using this
    · intro k y hy hd hf hr
      have := h3 hr k (by omega)
      unfold seen at this
      rw [Nat.zero_add, hy] at this
      simp only [Option.elim_some] at this
      exact absurd this (not_lt.2 hd)

/-- C36 for a whole run that returns: one particle for each requested sample, each with its own distance; all are as in `C36_task`; the counter grows by the
number of simulations made by all workers. -/
theorem C36_round {W Θ Y D : Type} [LinearOrder D] (trial : W → W × Θ × Option Y) (dist : Y → D) (distMax eps : D) (hmax : eps < distMax)
    (fuel counter : Nat) (start : List W) (r : Round Θ D) (h : rejectRound trial dist distMax eps fuel counter start = some r) :
    r.params.length = start.length ∧ r.distances.length = start.length ∧ r.weights = List.replicate start.length 1 ∧
    ∃ trials : List Nat, trials.length = start.length ∧ r.counter = counter + trials.sum ∧
      ∀ (i : Nat) w, start[i]? = some w → ∃ c y, trials[i]? = some c ∧ 1 ≤ c ∧
        r.params[i]? = some (trial (after trial w (c - 1))).2.1 ∧ (trial (after trial w (c - 1))).2.2 = some y ∧
        r.distances[i]? = some (dist y) ∧ dist y ≤ eps := by
  unfold rejectRound at h
  split at h
  · cases hc : collect (start.map fun w => (rejectTask trial dist distMax eps fuel w).result) with
    | none => rw [hc] at h; simp at h
    | some l =>
      rw [hc] at h
      simp only [Option.some.injEq] at h
      subst h
      rw [collect_eq_some] at hc
      have hl : l.length = start.length := by have := congrArg List.length hc; simpa using this.symm
      refine ⟨by simp [hl], by simp [hl], rfl, l.map (·.2.2.1), by simp [hl], rfl, ?_⟩
      intro i w hw
      have hi := congrArg (fun x => x[i]?) hc
      simp only [List.getElem?_map, hw, Option.map_some] at hi
      cases ht : rejectTask trial dist distMax eps fuel w with
      | running => rw [ht] at hi; cases hli : l[i]? <;> rw [hli] at hi <;> simp [Task.result] at hi
      | unbound => rw [ht] at hi; cases hli : l[i]? <;> rw [hli] at hi <;> simp [Task.result] at hi
      | done a =>
        obtain ⟨θ, d, c, w'⟩ := a
        rw [ht, Task.result] at hi
        cases hli : l[i]? with
        | none => rw [hli] at hi; simp at hi
        | some e =>
          rw [hli] at hi
          simp only [Option.map_some, Option.some.injEq] at hi
          subst hi
          obtain ⟨t1, -, t3, ⟨y, t4, t5⟩, t6, -⟩ := (C36_task trial dist distMax eps hmax fuel w).1 θ d c w' ht
          refine ⟨c, y, by simp [hli], t1, by simp [hli, t3], t4, by simp [hli, t5], by rw [← t5]; exact t6⟩
  · simp at h

/-- The hypotheses can be met: a worker that counts, and meets the threshold with its third trial. -/
example : (rejectRound (fun w : Nat => (w + 1, w, if w % 2 = 0 then some (10 - w) else none)) (fun y => y) 100 8 9 0 [0, 1]).map
    (fun r => (r.params, r.distances, r.counter)) = some ([2, 2], [8, 8], 5) := by decide

/-! ### C37 -/

/-- The admissible calls: `n` and `eps` alone; or a budget, without `n`, with exactly one of threshold and quantile. -/
def Admissible {N D Q : Type} (nSamples budget : Option N) (epsilon : Option D) (quantile : Option Q) : Prop :=
  (∃ n e, nSamples = some n ∧ epsilon = some e ∧ budget = none ∧ quantile = none) ∨
  (∃ b, nSamples = none ∧ budget = some b ∧ ((∃ e, epsilon = some e ∧ quantile = none) ∨ ∃ q, epsilon = none ∧ quantile = some q))

/-- C37. As documented, `n_samples` has to be given as `None` for a budget; left out it is 100. -/
theorem C37_arguments {D Q : Type} (nSamples budget : Option (Option Nat)) (epsilon : Option (Option D)) (quantile : Option (Option Q)) :
    callOk nSamples budget epsilon quantile = true ↔
      Admissible (nSamples.getD (some 100)) (budget.getD none) (epsilon.getD none) (quantile.getD none) := by
  unfold callOk Admissible argsOk
  generalize nSamples.getD (some 100) = a, budget.getD none = b, epsilon.getD none = c, quantile.getD none = d
  cases a <;> cases b <;> cases c <;> cases d <;> simp

example : callOk (some none) (some (some 1000)) (none : Option (Option ℚ)) (some (some 1)) = true := rfl
example : callOk none (some (some 1000)) (none : Option (Option ℚ)) (some (some 1)) = false := rfl

/-! ### C38 -/

theorem select_map_filter {A D : Type} (p : D → Bool) (l : List A) (ds : List D) (h : l.length = ds.length) :
    select (ds.map p) l = ((l.zip ds).filter fun e => p e.2).map (·.1) := by
  unfold select
  induction l generalizing ds with
  | nil => simp
  | cons a l ih =>
    cases ds with
    | nil => simp at h
    | cons d ds =>
      simp only [List.map_cons, List.zip_cons_cons, List.filter_cons]
      cases p d <;> simp [ih ds (by simpa using h)]

/-- C38. For a journal with one distance for each particle and each named value: cleaning fails exactly if no distance is below the cutoff. Otherwise the new journal
holds, in the old order, exactly the particles (and named values) whose distance is below, with these distances and a weight one for
each of them. Missing: the model types are not kept (below). -/
theorem C38_cleanup_partial {Θ V D : Type} [LinearOrder D] (params : List Θ) (distances : List D) (named : List (String × List V)) (cutoff : D)
    (hp : params.length = distances.length) (hn : ∀ e ∈ named, e.2.length = distances.length) :
    (cleanup params distances named cutoff = none ↔ ∀ d ∈ distances, ¬ d < cutoff) ∧
    ∀ k, cleanup params distances named cutoff = some k →
      k.params = ((params.zip distances).filter fun e => e.2 < cutoff).map (·.1) ∧
      k.distances = distances.filter (· < cutoff) ∧
      k.named = named.map (fun e => (e.1, ((e.2.zip distances).filter fun x => x.2 < cutoff).map (·.1))) ∧
      k.weights = List.replicate k.params.length 1 ∧ k.params.length = k.distances.length := by
  have hcount : (distances.map fun d => decide (d < cutoff)).count true = (distances.filter (· < cutoff)).length := by
    clear hp hn
    induction distances with
    | nil => rfl
    | cons d ds ih =>
      rw [List.map_cons, List.count_cons, ih, List.filter_cons]
      by_cases h : d < cutoff <;> simp [h]
  have hself : ∀ ds : List D, ((ds.zip ds).filter fun e => decide (e.2 < cutoff)).map (·.1) = ds.filter (· < cutoff) := by
    intro ds
    induction ds with
    | nil => rfl
    | cons d ds ih =>
      simp only [List.zip_cons_cons, List.filter_cons]
      by_cases h : d < cutoff <;> simp [h, ih]
  constructor
  · unfold cleanup
    simp only
    split
    · rename_i h
      rw [hcount, List.length_eq_zero_iff, List.filter_eq_nil_iff] at h
      simpa using h
    · rename_i h
      rw [hcount, List.length_eq_zero_iff, List.filter_eq_nil_iff] at h
      simpa using h
  · intro k hk
    unfold cleanup at hk
    simp only at hk
    split at hk
    · simp at hk
    · simp only [Option.some.injEq] at hk
      subst hk
      have e1 := select_map_filter (fun d => decide (d < cutoff)) params distances hp
      have e2 := select_map_filter (fun d => decide (d < cutoff)) distances distances rfl
      have hz : (((params.zip distances).filter fun e => decide (e.2 < cutoff)).map (·.1)).length = (distances.filter (· < cutoff)).length := by
        clear e1 e2 hcount hn
        rename_i hxx
        clear hxx
        induction params generalizing distances with
        | nil => have := List.length_eq_zero_iff.1 hp.symm; subst this; rfl
        | cons a params ih =>
          cases distances with
          | nil => simp at hp
          | cons d ds =>
            have := ih ds (by simpa using hp)
            simp only [List.zip_cons_cons, List.filter_cons]
            by_cases h : d < cutoff <;> simp [h] at this ⊢ <;> exact this
      refine ⟨e1, e2.trans (hself distances), ?_, ?_, ?_⟩
      · refine List.map_congr_left fun e he => ?_
        rw [select_map_filter (fun d => decide (d < cutoff)) e.2 distances (hn e he)]
      · simp only; rw [e1, hz, hcount]
      · simp only; rw [e1, e2, hself, hz]

example : (cleanup ["a", "b", "c"] [3, 1, 2] [("x", [30, 10, 20])] 3).map (fun k => (k.params, k.distances, k.named)) =
    some (["b", "c"], [1, 2], [("x", [10, 20])]) := by decide

/-- C38 fails: the model types are not kept, so that a cleaned journal with one weight per particle cannot be bootstrapped. -/
theorem C38_config_violated {α D : Type} [LinearOrder D] (params : List (List α)) (distances : List D)
    (named : List (String × List (List α))) (cutoff : D) (k : Kept (List α) (List α) D) (hk : cleanup params distances named cutoff = some k) :
    ∀ (indices : List Nat), (∀ i ∈ indices, i < k.params.length) →
      Journal.resample (decide ("type_model" ∈ k.config)) (some k.params.length) k.params k.params.length k.named none true indices = .error .keyError := by
  intro indices hi
  have hcfg : k.config = ["n_samples", "n_samples_per_param", "epsilon"] := by
    unfold cleanup at hk
    simp only at hk
    split at hk
    · simp at hk
    · simp only [Option.some.injEq] at hk; subst hk; rfl
  obtain ⟨boot, b1, -⟩ := collect_isSome (indices.map fun i => k.params[i]?) (by
    intro x hx
    obtain ⟨i, hi', rfl⟩ := List.mem_map.1 hx
    rw [List.getElem?_eq_getElem (hi i hi')]
    simp)
  unfold Journal.resample
  simp [b1, hcfg]

/-! ### C75: simulation budget -/

theorem task_one {W Θ Y D : Type} [LinearOrder D] (trial : W → W × Θ × Option Y) (dist : Y → D) (distMax eps : D) (hmax : eps < distMax)
    (fuel : Nat) (hf : 2 ≤ fuel) (w : W) (y : Y) (hy : (trial w).2.2 = some y) (hd : dist y ≤ eps) :
    rejectTask trial dist distMax eps fuel w = .done ((trial w).2.1, dist y, 1, (trial w).1) := by
  obtain ⟨f, rfl⟩ : ∃ f, fuel = f + 2 := ⟨fuel - 2, by omega⟩
  unfold rejectTask
  rw [rejectLoop, if_pos hmax]
  rcases ht : trial w with ⟨w1, θ1, y1⟩
  rw [ht] at hy
  simp only at hy
  subst hy
  simp only [Option.elim_some]
  rw [rejectLoop, if_neg (not_lt.2 hd)]

/-- C75. With a budget (the threshold is then the largest number), if the maximal distance is above it (infinite), the simulator never refuses and
distances are finite, a run makes exactly as many simulations as the budget allows. Missing: other models and distances. -/
theorem C75_budget_partial {W Θ Y D : Type} [LinearOrder D] (trial : W → W × Θ × Option Y) (dist : Y → D) (distMax largest : D)
    (hmax : largest < distMax) (hsim : ∀ w, ∃ y, (trial w).2.2 = some y) (hfin : ∀ y, dist y ≤ largest)
    (start : List W) (h1 : 2 ≤ start.length) (h2 : start.length * start.length ≤ 2 ^ 31) :
    ∃ r, rejectRound trial dist distMax largest 2 0 start = some r ∧ r.counter = start.length := by
  have key : (start.map fun w => (rejectTask trial dist distMax largest 2 w).result) =
      (start.map fun w => ((trial w).2.1, dist (hsim w).choose, 1, (trial w).1)).map some := by
    rw [List.map_map]
    refine List.map_congr_left fun w _ => ?_
    rw [task_one trial dist distMax largest hmax 2 le_rfl w _ (hsim w).choose_spec (hfin _)]
    rfl
  have hc := (collect_eq_some _ _).2 key
  unfold rejectRound
  rw [if_pos ⟨by nlinarith, h2⟩, hc]
  exact ⟨_, rfl, by simp [Function.comp_def]⟩

/-- C75 fails for every distance with a finite maximum (such as the classification accuracy, at most one): all tasks raise an exception, without one simulation. -/
theorem C75_finite_violated {W Θ Y D : Type} [LinearOrder D] (trial : W → W × Θ × Option Y) (dist : Y → D) (distMax largest : D)
    (hmax : distMax ≤ largest) (fuel : Nat) (w : W) : rejectTask trial dist distMax largest (fuel + 1) w = .unbound := by
  unfold rejectTask
  rw [rejectLoop, if_neg (not_lt.2 hmax)]

/-! ### C76: number of samples -/

/-- C76 for 2 to 46340 samples: if every task ends, the run gives them. -/
theorem C76_number_partial {W Θ Y D : Type} [LinearOrder D] (trial : W → W × Θ × Option Y) (dist : Y → D) (distMax eps : D)
    (fuel counter : Nat) (start : List W) (h1 : 2 ≤ start.length) (h2 : start.length ≤ 46340)
    (hdone : ∀ w ∈ start, ∃ a, rejectTask trial dist distMax eps fuel w = .done a) :
    ∃ r, rejectRound trial dist distMax eps fuel counter start = some r ∧ r.params.length = start.length := by
  obtain ⟨l, l1, l2⟩ := collect_isSome (start.map fun w => (rejectTask trial dist distMax eps fuel w).result) (by
    intro x hx
    obtain ⟨w, hw, rfl⟩ := List.mem_map.1 hx
    obtain ⟨a, ha⟩ := hdone w hw
    rw [ha]
    simp [Task.result])
  have hl : l.length = start.length := by have := congrArg List.length l2; simpa using this.symm
  unfold rejectRound
  rw [if_pos ⟨by nlinarith, by norm_num; nlinarith⟩, l1]
  exact ⟨_, rfl, by simp [hl]⟩

/-- C76 fails: one sample, or more than 46340 samples, can never be had. -/
theorem C76_number_violated {W Θ Y D : Type} [LinearOrder D] (trial : W → W × Θ × Option Y) (dist : Y → D) (distMax eps : D)
    (fuel counter : Nat) (start : List W) (h : start.length = 1 ∨ 46340 < start.length) :
    rejectRound trial dist distMax eps fuel counter start = none := by
  unfold rejectRound
  rw [if_neg]
  rintro ⟨h1, h2⟩
  rcases h with h | h
  · rw [h] at h1; omega
  · norm_num at h2
    nlinarith

end Verif.Rejection
