import Verif.Subsim.Run
/-
Property theorem C50 and the part of C46 about `ABCsubsim`.
-/
namespace Verif.Subsim

open Verif.Pmc (Pop)
open Verif.Smc (propose)
open Verif.Subsim.Spec

variable {W Θ Y M : Type} (env : Env W Θ Y M) (c : Config)

/-- Every distance belongs to a data set simulated from the value. -/
def Owned (l : List (Θ × ℝ)) : Prop := ∀ e ∈ l, ∃ w, e.2 = env.dist (env.sim e.1 w).2

theorem chain_owned (covs : List M) (anneal : ℝ) (base : Θ) (w : W) (s : Θ × ℝ) (l : List (Move Θ)) (h : Chain env covs anneal base w s.1 l)
    (hs : ∃ w, s.2 = env.dist (env.sim s.1 w).2) : Owned env (states s l) := by
  generalize hθ : s.1 = θ at h
  induction h generalizing s with
  | nil => simp [states, Owned]
  | cons w w' θ a l h1 h2 ih =>
    obtain ⟨w1, w2, y, -, p2, p3, -⟩ := h1
    have hs' : ∃ w, (if a.ok then (a.θ, a.d) else s).2 = env.dist (env.sim (if a.ok then (a.θ, a.d) else s).1 w).2 := by
      split
      · exact ⟨w1, by simp only; rw [p2, p3]⟩
      · exact hs
    intro e he
    simp only [states, List.mem_cons] at he
    rcases he with rfl | he
    · exact hs'
    · exact ih _ hs' (by split <;> simp [hθ]) e he

theorem states_length (s : Θ × ℝ) (l : List (Move Θ)) : (states s l).length = l.length := by
  induction l generalizing s with
  | nil => rfl
  | cons a l ih => simp [states, ih]

theorem flatten_const_length {α : Type} (l : List (List α)) (n : Nat) (h : ∀ x ∈ l, x.length = n) : l.flatten.length = l.length * n := by
  induction l with
  | nil => simp
  | cons a l ih => rw [List.flatten_cons, List.length_append, h a (by simp), ih fun x hx => h x (by simp [hx]), List.length_cons]; ring

/-- What is known of stage `k`. -/
structure Good (k : Nat) (a : Stage Θ M) : Prop where
  owned : Owned env a.pop
  sorted : a.pop.Pairwise fun x y => x.2 ≤ y.2
  size : a.pop.length = (if k = 0 then c.n else c.n / c.length * c.length)
  anneal : Annealed c a

theorem history_good (start tuneStart : Nat → List W) (base : List Θ) (h : List (Stage Θ M)) (stop : Bool) (hH : History env c start tuneStart base h stop) :
    ∀ k a, h[k]? = some a → Good env c k a := by
  induction hH with
  | first outs a x stop h1 h2 h3 h4 h5 h6 h7 h8 h9 h10 h11 =>
    intro k b hb
    match k with
    | 0 =>
      simp only [List.getElem?_cons_zero, Option.some.injEq] at hb
      subst hb
      refine ⟨?_, h6.2, ?_, h7⟩
      · intro e he
        obtain ⟨i, hi⟩ := List.mem_iff_getElem?.1 (h6.1.mem_iff.1 he)
        have hil : i < (start 0).length := by
          have := (List.getElem?_eq_some_iff.1 hi).1
          omega
        obtain ⟨w1, w2, y, -, p2, p3⟩ := h5 i e _ hi (List.getElem?_eq_getElem hil)
        exact ⟨w1, by rw [p2, p3]⟩
      · rw [h6.1.length_eq, h3]; rfl
    | k + 1 => simp at hb
  | step base h o a chains θ0 x stop h0 h1 h2 h3 h4 h5 h6 h7 h8 h9 h10 ih =>
    intro k b hb
    rcases Nat.lt_trichotomy k (h ++ [o]).length with hlt | heq | hgt
    · rw [List.getElem?_append_left hlt] at hb; exact ih k b hb
    · subst heq
      simp only [List.getElem?_concat_length, Option.some.injEq] at hb
      subst hb
      have hch : ∀ r ∈ chains, Owned env r ∧ r.length = c.length := by
        intro r hr
        obtain ⟨i, hi⟩ := List.mem_iff_getElem?.1 hr
        have hil : i < (start (h.length + 1)).length := by
          have := (List.getElem?_eq_some_iff.1 hi).1
          omega
        obtain ⟨b, e, -, -, w1, y, l, p1, p2, p3, rfl⟩ := h3 i r _ hi (List.getElem?_eq_getElem hil)
        refine ⟨?_, by rw [List.length_cons, states_length, p3]⟩
        have hs : ∃ w, env.dist y = env.dist (env.sim e.1 w).2 := ⟨_, by rw [p1]⟩
        intro z hz
        rcases List.mem_cons.1 hz with rfl | hz
        · exact hs
        · exact chain_owned env _ _ _ _ (e.1, env.dist y) l p2 hs z hz
      refine ⟨?_, h4.2, ?_, h5⟩
      · intro e he
        obtain ⟨r, hr, her⟩ := List.mem_flatten.1 (h4.1.mem_iff.1 he)
        exact (hch r hr).1 e her
      · rw [h4.1.length_eq, flatten_const_length chains c.length fun r hr => (hch r hr).2, h1]
        simp
    · rw [List.getElem?_eq_none (by simp at hgt ⊢; omega)] at hb; cases hb

theorem run_good (fuel : Nat) (start tuneStart : Nat → List W) (s : State Θ M) (h : run env c fuel start tuneStart = some s) (k : Nat) (r : Rec Θ M) (anneal : ℝ)
    (hr : s.hist[k]? = some (r, anneal)) : Good env c k (stageOf (r, anneal)) ∧ r.params.length = r.distances.length ∧ r.weights = List.replicate c.n 1 := by
  by_cases hs : 0 < c.steps
  · obtain ⟨h1, -, -, h2, -⟩ := C104_run env c fuel start tuneStart s hs h
    exact ⟨history_good env c start tuneStart _ _ _ h1 k _ (by rw [List.getElem?_map, hr]; rfl), h2 _ (List.mem_of_getElem? hr)⟩
  · have : c.steps = 0 := by omega
    simp only [run, this, loop, Option.map_some, Option.some.injEq] at h
    subst h
    simp at hr

/-- C50, for chain lengths that divide `n_samples` (and in any case for the first step): every step ends with `n_samples` values, distances and weights; the distances are sorted; each is the
distance of a data set simulated from the value at the same place; and the new annealing parameter lies between two neighbouring distances, those at the places `n_samples / chain_length` and the
next. Missing: chain lengths that do not divide `n_samples`, for which it is false. -/
theorem C50_partial (fuel : Nat) (start tuneStart : Nat → List W) (s : State Θ M) (h : run env c fuel start tuneStart = some s) (k : Nat) (r : Rec Θ M) (anneal : ℝ)
    (hr : s.hist[k]? = some (r, anneal)) :
    (k = 0 ∨ c.length ∣ c.n → r.params.length = c.n ∧ r.distances.length = c.n ∧ r.weights.length = c.n) ∧
    r.distances.Pairwise (· ≤ ·) ∧ r.params.length = r.distances.length ∧
    (∀ (i : Nat) (θ : Θ) (d : ℝ), r.params[i]? = some θ → r.distances[i]? = some d → ∃ w, d = env.dist (env.sim θ w).2) ∧
    ∃ a b, r.distances[c.n / c.length]? = some a ∧ r.distances[c.n / c.length + 1]? = some b ∧ a ≤ anneal ∧ anneal ≤ b := by
  obtain ⟨hg, hlen, hw⟩ := run_good env c fuel start tuneStart s h k r anneal hr
  have hsnd : r.distances = (r.params.zip r.distances).map Prod.snd := (List.map_snd_zip (by omega)).symm
  have hsorted : r.distances.Pairwise (· ≤ ·) := by rw [hsnd, List.pairwise_map]; exact hg.sorted
  refine ⟨?_, hsorted, hlen, ?_, ?_⟩
  · intro hk
    have hn : r.params.length = c.n := by
      have := hg.size
      simp only [stageOf, List.length_zip, ← hlen, Nat.min_self] at this
      rw [this]
      split
      · rfl
      · rename_i h0
        exact Nat.div_mul_cancel (hk.resolve_left h0)
    exact ⟨hn, by rw [← hlen]; exact hn, by rw [hw]; simp⟩
  · intro i θ d h1 h2
    exact hg.owned (θ, d) (List.mem_of_getElem? (i := i) (List.getElem?_zip_eq_some.2 ⟨h1, h2⟩))
  · obtain ⟨x, y, h1, h2, h3, -⟩ := hg.anneal
    simp only [stageOf, List.getElem?_zip_eq_some] at h1 h2 h3
    refine ⟨x.2, y.2, h1.2, h2.2, ?_⟩
    have hxy : x.2 ≤ y.2 := by
      obtain ⟨i1, e1⟩ := List.getElem?_eq_some_iff.1 h1.2
      obtain ⟨i2, e2⟩ := List.getElem?_eq_some_iff.1 h2.2
      rw [← e1, ← e2]
      exact List.pairwise_iff_getElem.1 hsorted _ _ i1 i2 (by omega)
    rw [h3]
    constructor <;> linarith

/-- C50 is violated for every chain length that does not divide `n_samples`: from the second step on the population has fewer than `n_samples` particles, and fewer particles than weights. -/
theorem C50_size_violated (fuel : Nat) (start tuneStart : Nat → List W) (s : State Θ M) (h : run env c fuel start tuneStart = some s) (k : Nat) (hk : 0 < k) (r : Rec Θ M) (anneal : ℝ)
    (hr : s.hist[k]? = some (r, anneal)) (hdiv : ¬ c.length ∣ c.n) :
    r.params.length = c.n / c.length * c.length ∧ r.params.length < c.n ∧ r.weights.length = c.n := by
  obtain ⟨hg, hlen, hw⟩ := run_good env c fuel start tuneStart s h k r anneal hr
  have hs := hg.size
  rw [if_neg (by omega)] at hs
  simp only [stageOf, List.length_zip, ← hlen, Nat.min_self] at hs
  refine ⟨hs, ?_, by rw [hw]; simp⟩
  have h1 : c.n / c.length * c.length ≤ c.n := Nat.div_mul_le_self _ _
  have h2 : c.n / c.length * c.length ≠ c.n := fun h => hdiv ⟨c.n / c.length, by rw [Nat.mul_comm]; exact h.symm⟩
  omega

/-- C46 for `ABCsubsim`: the journal of a run, however early it stops, ends with the population of its last step. -/
theorem C46_subsim (fuel : Nat) (start tuneStart : Nat → List W) (s : State Θ M) (h : run env c fuel start tuneStart = some s) (hs : 0 < c.steps) :
    ∃ e, s.hist.getLast? = some e ∧ s.journal.getLast? = some e.1 := by
  obtain ⟨h1, -, -, -, h2⟩ := C104_run env c fuel start tuneStart s hs h
  have hne : s.hist ≠ [] := by
    intro h0
    rw [h0] at h1
    generalize hp : ([] : List (Rec Θ M × ℝ)).map stageOf = p at h1
    generalize s.base = b at h1
    cases h1 <;> simp at hp
  obtain ⟨l, e, hl⟩ : ∃ l e, s.hist = l ++ [e] := ⟨_, _, (List.dropLast_append_getLast hne).symm⟩
  refine ⟨e, by rw [hl]; simp, ?_⟩
  rw [h2, hl]
  split <;> simp

/-! ### A concrete run -/

/-- The state of a worker is the next value it produces, and the distance of the next simulation. There is one kernel. -/
noncomputable def exEnv : Env ℝ ℝ ℝ ℝ where
  dist y := y
  pdf _ := 1
  kernel _ _ _ := 1
  prior w := (w, w)
  perturb _ _ w := (w, some w)
  sim _ w := (w, w)
  bern p w := (w, decide (0 < p))
  cov _ := [1]
  scale k m := (1 / 4) ^ k * m

noncomputable def exStart (t : Nat) : List ℝ := if t = 0 then [3, 1, 2, 5, 4] else [7, 6]

noncomputable def exTune (_ : Nat) : List ℝ := [0, 0, 0, 0, 0, 0, 0, 0, 0, 0]

theorem exTuned (anneal : ℝ) (h : 0 < anneal) (covs : List ℝ) (base pop : List ℝ) (b p : ℝ) (hb : base[0]? = some b) (hp : pop[0]? = some p) (t : Nat) :
    ∃ l, collect ((exTune t).zipIdx.map fun (e : ℝ × Nat) => tune exEnv 1 2 covs anneal base pop e.2 e.1) = some l ∧ l.find? Prod.snd = none := by
  have h1 : ∀ i, tune exEnv 1 2 covs anneal base pop i 0 = some (covs.map (exEnv.scale i), false) := by
    intro i
    norm_num [tune, hb, hp, trials, propose, prob, exEnv, h]
  refine ⟨_, by simp only [exTune, List.zipIdx_cons, List.zipIdx_nil, List.map_cons, List.map_nil, h1, collect]; rfl, by simp⟩

/-- Five samples in chains of two: the second population has four particles and five weights. Its particles are those that the first two chains started with. -/
theorem exRun : ∃ s, run exEnv ⟨5, 2, 2, 0, true⟩ 1 exStart exTune = some s ∧
    s.hist.map (fun e => (e.1.params, e.1.distances, e.1.weights.length, e.1.covs, e.2)) =
      [([1, 2, 3, 4, 5], [1, 2, 3, 4, 5], 5, [1], 7 / 2), ([2, 2, 1, 1], [6, 6, 7, 7], 5, [1, 1], 7)] := by
  have h1 : step exEnv ⟨5, 2, 2, 0, true⟩ 1 0 (exStart 0) (exTune 0) ⟨[], [], [], false⟩ =
      some ⟨[(⟨[1, 2, 3, 4, 5], [1, 2, 3, 4, 5], [1, 1, 1, 1, 1], [1], 25⟩, 7 / 2)], [⟨[1, 2, 3, 4, 5], [1, 2, 3, 4, 5], [1, 1, 1, 1, 1], [1], 25⟩], [1, 2, 3, 4, 5], false⟩ := by
    obtain ⟨l, hl, hf⟩ := exTuned (7 / 2) (by norm_num) [1] [1, 2, 3, 4, 5] [1, 2, 3, 4, 5] 1 1 rfl rfl 0
    have hout : sorted (((exStart 0).map (first exEnv)).map Prod.fst).flatten (((exStart 0).map (first exEnv)).map Prod.snd).flatten = [(1, 1), (2, 2), (3, 3), (4, 4), (5, 5)] := by
      norm_num [exStart, first, exEnv, sorted, List.insertionSort, List.orderedInsert]
    have ha : (1 / 2 : ℝ) * (3 + 4) = 7 / 2 := by norm_num
    unfold step
    rw [if_neg (by simp [exStart, exTune])]
    simp only [List.getLast?_nil, hout]
    simp only [List.map_cons, List.map_nil, Nat.reduceDiv, Nat.reduceAdd, List.getElem?_cons_succ, List.getElem?_cons_zero, ha]
    rw [show exEnv.cov ⟨[1, 2, 3, 4, 5], List.replicate 5 1⟩ = [1] from rfl, hl]
    simp only [hf]
    norm_num [List.replicate, abs_of_pos]
  have h2 : ∃ s, step exEnv ⟨5, 2, 2, 0, true⟩ 1 1 (exStart 1) (exTune 1) ⟨[(⟨[1, 2, 3, 4, 5], [1, 2, 3, 4, 5], [1, 1, 1, 1, 1], [1], 25⟩, 7 / 2)],
        [⟨[1, 2, 3, 4, 5], [1, 2, 3, 4, 5], [1, 1, 1, 1, 1], [1], 25⟩], [1, 2, 3, 4, 5], false⟩ = some s ∧
      s.hist.map (fun e => (e.1.params, e.1.distances, e.1.weights.length, e.1.covs, e.2)) =
        [([1, 2, 3, 4, 5], [1, 2, 3, 4, 5], 5, [1], 7 / 2), ([2, 2, 1, 1], [6, 6, 7, 7], 5, [1, 1], 7)] := by
    obtain ⟨l, hl, hf⟩ := exTuned 7 (by norm_num) [1, 1] [1, 2, 3, 4, 5] [1, 2, 3, 4, 5] 1 1 rfl rfl 1
    have hout : collect ((exStart 1).zipIdx.map fun (e : ℝ × Nat) => accept exEnv 1 2 [1] (7 / 2) [1, 2, 3, 4, 5] [1, 2, 3, 4, 5] e.2 e.1) = some [([1, 1], [7, 7]), ([2, 2], [6, 6])] := by
      norm_num [exStart, List.zipIdx, accept, chain, propose, prob, exEnv, collect]
    have hsort : sorted [(1 : ℝ), 1, 2, 2] [7, 7, 6, 6] = [(6, 2), (6, 2), (7, 1), (7, 1)] := by
      norm_num [sorted, List.insertionSort, List.orderedInsert]
    have ha : (1 / 2 : ℝ) * (7 + 7) = 7 := by norm_num
    unfold step
    rw [if_neg (by simp [exStart, exTune])]
    simp only [List.getLast?_singleton, hout, List.map_cons, List.map_nil, List.flatten_cons, List.flatten_nil, List.cons_append, List.nil_append, hsort, Nat.reduceDiv, Nat.reduceAdd,
      List.getElem?_cons_succ, List.getElem?_cons_zero, ha, hl, hf]
    rw [if_neg (by norm_num)]
    exact ⟨_, rfl, by simp⟩
  obtain ⟨s, h2, h3⟩ := h2
  refine ⟨s, ?_, h3⟩
  unfold run
  simp only
  rw [loop, h1]
  simp only [Bool.false_eq_true, if_false]
  rw [loop, h2]
  simp [loop]

end Verif.Subsim
