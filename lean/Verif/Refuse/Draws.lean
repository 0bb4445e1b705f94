import Verif.Refuse.First
import Verif.Learning.Model
import Mathlib.Probability.ProductMeasure
import Mathlib.Analysis.SpecificLimits.Basic
import Mathlib.Probability.Distributions.Uniform
/-
C220: simulators that refuse parameters, outside the samplers. `DrawFromPrior.sample_par_sim_pairs` keeps the `None` of a refused simulation as data and then fails to make an array out of the
simulations (inferences.py 386-406, 322-332); `StatisticsLearning` does not assign the statistics and then returns them (statisticslearning.py 212-221).
-/
namespace Verif.Refuse

open MeasureTheory

variable {W Θ Y : Type}

/-! ### Model -/

/-- `DrawFromPrior._sample_parameter_simulation`, inferences.py 386-406. `again y` is the test for values that are too large, with `discard_too_large_values`; `None` becomes NaN in the
test, which is not infinite. -/
def pairTask (prior : W → W × Θ) (sim : Θ → W → W × Option Y) (again : Y → Bool) : Nat → W → End (Θ × Option Y)
  | 0, _ => .running
  | fuel + 1, w =>
    let a := prior w
    match sim a.2 a.1 with
    | (_, none) => .done (a.2, none)
    | (w, some y) => if again y then pairTask prior sim again fuel w else .done (a.2, some y)

/-- Lines 327-332: an array of the simulations, of which the third and fourth dimension are used, so `None` among them raises. Data sets that are not refused are taken to have the same shape. -/
def stackPairs : List (Θ × Option Y) → End (List (Θ × Y))
  | [] => .done []
  | (_, none) :: _ => .raised
  | (θ, some y) :: l => (stackPairs l).bind fun r => .done ((θ, y) :: r)

/-- `_sample_par_sim_pairs`, lines 300-334, for the generators `ws` of the tasks. -/
def pairsPart (task : W → End (Θ × Option Y)) (ws : List W) : End (List (Θ × Y)) := (collectE (ws.map task)).bind stackPairs

/-- `sample_par_sim_pairs`, lines 260-272. `gen i` is the generator of draw `i`; the state of the loop is the number of generators made so far. -/
def pairs (task : W → End (Θ × Option Y)) (chunk n fuel : Nat) (gen : Nat → W) : End (List (Θ × Y)) :=
  match Rejection.chunkLoop (fun k pos => (pos + k, pairsPart task ((List.range' pos k).map gen))) chunk fuel n 0 with
  | none => .running
  | some (_, l) => (collectE l).bind fun parts => if parts.isEmpty then .raised else .done parts.flatten

/-- `StatisticsLearning.__init__`, statisticslearning.py 95-193, as `Learning.learn`, if `draw i` is `none` for a refused draw: `statistics` is not assigned, and line 221 raises. -/
noncomputable def learn (chain : List Statistics.Step) (n nVal perParam : Nat) (train val : Option (List Distance.Row × List Distance.Row)) (draw : Nat → Option Learning.Draw) :
    Option Learning.Sets :=
  match collect ((List.range (Learning.toGenerate n nVal train val)).map draw) with
  | none => none
  | some l => Learning.learn chain n nVal perParam train val fun i => l.getD i ⟨[], []⟩

/-! ### Specification -/

/-- The draw of the generator `w` ends with parameters that a simulator refuses. -/
def Refused (task : W → End (Θ × Option Y)) (w : W) : Prop := ∃ θ, task w = .done (θ, none)

/-- The draw of the generator `w` gives parameters and data. -/
def Drawn (task : W → End (Θ × Option Y)) (w : W) (p : Θ × Y) : Prop := task w = .done (p.1, some p.2)

/-! ### Chunks -/

theorem chunkLoop_map {S R R' : Type} (draw : Nat → S → S × R) (f : R → R') (chunk fuel : Nat) : ∀ (left : Int) (s : S),
    Rejection.chunkLoop (fun k s => ((draw k s).1, f (draw k s).2)) chunk fuel left s = (Rejection.chunkLoop draw chunk fuel left s).map fun p => (p.1, p.2.map f) := by
  induction fuel with
  | zero => intro left s; rfl
  | succ fuel ih =>
    intro left s
    unfold Rejection.chunkLoop
    split
    · simp only [ih]
      cases Rejection.chunkLoop draw chunk fuel (left - chunk) (draw (min left chunk).toNat s).1 <;> rfl
    · rfl

theorem chunkLoop_range (chunk : Nat) (hc : 0 < chunk) (fuel : Nat) : ∀ (left pos : Nat), left < fuel →
    ∃ e l, Rejection.chunkLoop (fun k pos => (pos + k, List.range' pos k)) chunk fuel left pos = some (e, l) ∧ l.flatten = List.range' pos left ∧ (l = [] ↔ left = 0) := by
  induction fuel with
  | zero => intro left pos h; omega
  | succ fuel ih =>
    intro left pos h
    unfold Rejection.chunkLoop
    by_cases h0 : left = 0
    · subst h0; exact ⟨pos, [], by simp, rfl, by simp⟩
    · rw [if_pos (by omega : (left : Int) > 0)]
      by_cases hle : left ≤ chunk
      · have hm : (min (left : Int) chunk).toNat = left := by omega
        have hrest : Rejection.chunkLoop (fun k pos => (pos + k, List.range' pos k)) chunk fuel ((left : Int) - chunk) (pos + left) = some (pos + left, []) := by
          cases fuel with
          | zero => omega
          | succ f => unfold Rejection.chunkLoop; rw [if_neg (by omega)]
        simp only [hm, hrest]
        exact ⟨_, _, rfl, by simp, by simp [h0]⟩
      · have hm : (min (left : Int) chunk).toNat = chunk := by omega
        obtain ⟨e, l, h1, h2, -⟩ := ih (left - chunk) (pos + chunk) (by omega)
        have hs : ((left - chunk : Nat) : Int) = (left : Int) - chunk := by omega
        rw [hs] at h1
        simp only [hm, h1]
        refine ⟨_, _, rfl, ?_, by simp [h0]⟩
        rw [List.flatten_cons, h2, List.range'_append_1]
        congr 1; omega

theorem collectE_eq_done {A : Type} (l : List (End A)) (r : List A) : collectE l = .done r ↔ l = r.map .done := by
  induction l generalizing r with
  | nil => cases r <;> simp [collectE]
  | cons e l ih =>
    cases e with
    | running => cases r <;> simp [collectE, End.bind]
    | raised => cases r <;> simp [collectE, End.bind]
    | done a =>
      cases hl : collectE l with
      | running =>
        cases r with
        | nil => simp [collectE, End.bind, hl]
        | cons b r => simp [collectE, End.bind, hl, ← ih]
      | raised =>
        cases r with
        | nil => simp [collectE, End.bind, hl]
        | cons b r => simp [collectE, End.bind, hl, ← ih]
      | done s =>
        cases r with
        | nil => simp [collectE, End.bind, hl]
        | cons b r => simp [collectE, End.bind, hl, ← ih]

theorem stack_done (l : List (Θ × Option Y)) (r : List (Θ × Y)) : stackPairs l = .done r ↔ l = r.map fun p => (p.1, some p.2) := by
  induction l generalizing r with
  | nil => cases r <;> simp [stackPairs]
  | cons p l ih =>
    rcases p with ⟨θ, _ | y⟩
    · cases r <;> simp [stackPairs]
    · cases hl : stackPairs l with
      | running =>
        cases r with
        | nil => simp [stackPairs, End.bind, hl]
        | cons b r => simp [stackPairs, End.bind, hl, ← ih]
      | raised =>
        cases r with
        | nil => simp [stackPairs, End.bind, hl]
        | cons b r => simp [stackPairs, End.bind, hl, ← ih]
      | done s =>
        cases r with
        | nil => simp [stackPairs, End.bind, hl]
        | cons b r => simp [stackPairs, End.bind, hl, ← ih, Prod.ext_iff]

theorem part_done (task : W → End (Θ × Option Y)) (ws : List W) (r : List (Θ × Y)) : pairsPart task ws = .done r ↔ List.Forall₂ (Drawn task) ws r := by
  have : pairsPart task ws = .done r ↔ ws.map task = r.map fun p => .done (p.1, some p.2) := by
    unfold pairsPart
    constructor
    · intro h
      cases hc : collectE (ws.map task) with
      | running => rw [hc] at h; cases h
      | raised => rw [hc] at h; cases h
      | done l =>
        rw [hc] at h
        rw [(collectE_eq_done _ _).1 hc, (stack_done _ _).1 h, List.map_map]; rfl
    · intro h
      have : collectE (ws.map task) = .done (r.map fun p => (p.1, some p.2)) := (collectE_eq_done _ _).2 (by rw [h, List.map_map]; rfl)
      rw [this]
      exact (stack_done _ _).2 rfl
  rw [this]
  constructor
  · intro h
    induction ws generalizing r with
    | nil => cases r with
      | nil => exact .nil
      | cons => simp at h
    | cons w ws ih => cases r with
      | nil => simp at h
      | cons p r =>
        simp only [List.map_cons, List.cons.injEq] at h
        exact .cons h.1 (ih r ((by
          unfold pairsPart
          rw [(collectE_eq_done (ws.map task) (r.map fun p => (p.1, some p.2))).2 (by rw [h.2, List.map_map]; rfl)]
          constructor
          · intro; exact h.2
          · intro; exact (stack_done _ _).2 rfl)) h.2)
  · intro h
    clear this
    induction h with
    | nil => rfl
    | cons hd _ ih => rw [List.map_cons, List.map_cons, ih]; exact congrArg (· :: _) hd

theorem parts_done (task : W → End (Θ × Option Y)) (gen : Nat → W) (l : List (List Nat)) : ∀ r : List (Θ × Y),
    (∃ parts, collectE (l.map fun ps => pairsPart task (ps.map gen)) = .done parts ∧ parts.flatten = r) ↔ List.Forall₂ (Drawn task) (l.flatten.map gen) r := by
  induction l with
  | nil =>
    intro r
    constructor
    · rintro ⟨parts, hp, rfl⟩
      rw [show parts = [] by cases hp; rfl]
      exact .nil
    · intro h
      cases h
      exact ⟨[], rfl, rfl⟩
  | cons ps l ih =>
    intro r
    constructor
    · rintro ⟨parts, hp, rfl⟩
      have hp := (collectE_eq_done _ _).1 hp
      cases parts with
      | nil => simp at hp
      | cons p parts =>
        simp only [List.map_cons, List.cons.injEq] at hp
        rw [List.flatten_cons, List.flatten_cons, List.map_append]
        exact List.rel_append ((part_done _ _ _).1 hp.1) ((ih parts.flatten).1 ⟨parts, (collectE_eq_done _ _).2 hp.2, rfl⟩)
    · intro h
      rw [List.flatten_cons, List.map_append] at h
      have h1 := List.forall₂_take_append r _ _ h.flip
      have h2 := List.forall₂_drop_append r _ _ h.flip
      obtain ⟨parts, hp, he⟩ := (ih _).2 h2.flip
      refine ⟨r.take (ps.map gen).length :: parts, ?_, ?_⟩
      · rw [collectE_eq_done, List.map_cons, List.map_cons, (part_done _ _ _).2 h1.flip, (collectE_eq_done _ _).1 hp]
      · rw [List.flatten_cons, he, List.take_append_drop]

/-- C220: the call returns exactly if there is something to draw and every draw gives parameters and data; then it returns the draws in their order, so `n` pairs for every chunk size. -/
theorem C220_pairs_partial (task : W → End (Θ × Option Y)) (chunk n fuel : Nat) (hc : 0 < chunk) (hf : n < fuel) (gen : Nat → W) (r : List (Θ × Y)) :
    pairs task chunk n fuel gen = .done r ↔ 0 < n ∧ List.Forall₂ (Drawn task) ((List.range n).map gen) r := by
  obtain ⟨e, l, h1, h2, h3⟩ := chunkLoop_range chunk hc fuel n 0 hf
  unfold pairs
  rw [chunkLoop_map (fun k pos => (pos + k, List.range' pos k)) (fun ps => pairsPart task (ps.map gen)) chunk fuel n 0, h1, List.range_eq_range', ← h2, ← parts_done]
  show (collectE (l.map fun ps => pairsPart task (ps.map gen))).bind _ = _ ↔ _
  cases hp : collectE (l.map fun ps => pairsPart task (ps.map gen)) with
  | running => simp [End.bind]
  | raised => simp [End.bind]
  | done parts =>
    have hl : parts.isEmpty = true ↔ n = 0 := by
      rw [← h3, List.isEmpty_iff]
      have := congrArg List.length ((collectE_eq_done _ _).1 hp)
      simp only [List.length_map] at this
      rw [← List.length_eq_zero_iff, ← List.length_eq_zero_iff, this]
    simp only [End.bind, End.done.injEq, exists_eq_left']
    by_cases hn : n = 0
    · rw [if_pos (hl.2 hn)]; simp [hn]
    · rw [if_neg (fun h => hn (hl.1 h))]; simp [Nat.pos_of_ne_zero hn]

theorem stack_running (l : List (Θ × Option Y)) : stackPairs l ≠ .running := by
  induction l with
  | nil => simp [stackPairs]
  | cons p l ih =>
    rcases p with ⟨θ, _ | y⟩
    · simp [stackPairs]
    · cases hl : stackPairs l with
      | running => exact absurd hl ih
      | raised => simp [stackPairs, hl, End.bind]
      | done => simp [stackPairs, hl, End.bind]

theorem collectE_running {A : Type} (l : List (End A)) (h : collectE l = .running) : .running ∈ l := by
  induction l with
  | nil => cases h
  | cons e l ih =>
    cases e with
    | running => simp
    | raised => cases h
    | done a =>
      cases hl : collectE l with
      | running => simp [ih hl]
      | raised => rw [collectE, hl] at h; cases h
      | done r => rw [collectE, hl] at h; cases h

theorem part_running (task : W → End (Θ × Option Y)) (ws : List W) (h : pairsPart task ws = .running) : ∃ w ∈ ws, task w = .running := by
  unfold pairsPart at h
  cases hc : collectE (ws.map task) with
  | running =>
    obtain ⟨w, hw, he⟩ := List.mem_map.1 (collectE_running _ hc)
    exact ⟨w, hw, he⟩
  | raised => rw [hc] at h; cases h
  | done l => rw [hc] at h; exact absurd h (stack_running l)

/-- C220 fails for `sample_par_sim_pairs`: if all draws end, the call raises exactly if nothing is to be drawn or a simulator refuses the parameters of one of the draws. -/
theorem C220_pairs_violated (task : W → End (Θ × Option Y)) (chunk n fuel : Nat) (hc : 0 < chunk) (hf : n < fuel) (gen : Nat → W) (he : ∀ i < n, ∃ p, task (gen i) = .done p) :
    pairs task chunk n fuel gen = .raised ↔ n = 0 ∨ ∃ i < n, Refused task (gen i) := by
  have hr : pairs task chunk n fuel gen ≠ .running := by
    intro h
    obtain ⟨e, l, h1, h2, h3⟩ := chunkLoop_range chunk hc fuel n 0 hf
    unfold pairs at h
    rw [chunkLoop_map (fun k pos => (pos + k, List.range' pos k)) (fun ps => pairsPart task (ps.map gen)) chunk fuel n 0, h1] at h
    change (collectE (l.map fun ps => pairsPart task (ps.map gen))).bind _ = _ at h
    cases hp : collectE (l.map fun ps => pairsPart task (ps.map gen)) with
    | running =>
      obtain ⟨ps, hps, hr⟩ := List.mem_map.1 (collectE_running _ hp)
      obtain ⟨w, hw, hr⟩ := part_running _ _ hr
      obtain ⟨i, hi, rfl⟩ := List.mem_map.1 hw
      have : i ∈ l.flatten := List.mem_flatten.2 ⟨ps, hps, hi⟩
      rw [h2, List.mem_range'_1] at this
      obtain ⟨p, hp⟩ := he i (by omega)
      rw [hr] at hp; cases hp
    | raised => rw [hp] at h; cases h
    | done parts =>
      rw [hp] at h
      simp only [End.bind] at h
      split at h <;> cases h
  have hd : (∃ r, pairs task chunk n fuel gen = .done r) ↔ 0 < n ∧ ¬∃ i < n, Refused task (gen i) := by
    simp only [C220_pairs_partial task chunk n fuel hc hf]
    constructor
    · rintro ⟨r, hn, h⟩
      refine ⟨hn, ?_⟩
      rintro ⟨i, hi, θ, hθ⟩
      obtain ⟨-, h⟩ := List.forall₂_iff_get.1 h
      have hi' : i < ((List.range n).map gen).length := by simpa using hi
      have := h i hi' (by obtain ⟨hl, -⟩ := List.forall₂_iff_get.1 ‹_›; omega)
      simp only [List.get_eq_getElem, List.getElem_map, List.getElem_range] at this
      rw [Drawn, hθ] at this
      cases this
    · rintro ⟨hn, h⟩
      have : ∀ m ≤ n, ∃ r, List.Forall₂ (Drawn task) ((List.range m).map gen) r := by
        intro m
        induction m with
        | zero => exact fun _ => ⟨[], .nil⟩
        | succ m ih =>
          intro hm
          obtain ⟨r, hr⟩ := ih (by omega)
          obtain ⟨⟨θ, y⟩, hp⟩ := he m (by omega)
          cases y with
          | none => exact absurd ⟨m, by omega, θ, hp⟩ h
          | some y =>
            refine ⟨r ++ [(θ, y)], ?_⟩
            rw [List.range_succ, List.map_append]
            exact List.rel_append hr (.cons hp .nil)
      obtain ⟨r, hr⟩ := this n le_rfl
      exact ⟨r, hn, hr⟩
  cases hp : pairs task chunk n fuel gen with
  | running => exact absurd hp hr
  | raised =>
    rw [hp] at hd
    simp only [reduceCtorEq, exists_false, false_iff, not_and, not_not] at hd
    simp only [true_iff]
    rcases Nat.eq_zero_or_pos n with h | h
    · exact .inl h
    · exact .inr (hd h)
  | done r =>
    have := hd.1 ⟨r, hp⟩
    simp only [reduceCtorEq, false_iff, not_or]
    exact ⟨by omega, this.2⟩

/-- `_sample_parameter_simulation` never raises. -/
theorem task_raised (prior : W → W × Θ) (sim : Θ → W → W × Option Y) (again : Y → Bool) (fuel : Nat) : ∀ w, pairTask prior sim again fuel w ≠ .raised := by
  induction fuel with
  | zero => intro w h; cases h
  | succ fuel ih =>
    intro w
    unfold pairTask
    rcases hs : sim (prior w).2 (prior w).1 with ⟨w', _ | y⟩
    · simp [hs]
    · simp only [hs]
      split
      · exact ih w'
      · simp

/-- What ends the draw of a pair: some number of simulations that were discarded, and then one that is refused or kept. -/
theorem C220_task (prior : W → W × Θ) (sim : Θ → W → W × Option Y) (again : Y → Bool) (fuel : Nat) : ∀ (w : W) (θ : Θ) (y : Option Y),
    pairTask prior sim again fuel w = .done (θ, y) →
    ∃ (k : Nat) (v : Nat → W), k < fuel ∧ v 0 = w ∧ (∀ j < k, ∃ z, sim (prior (v j)).2 (prior (v j)).1 = (v (j + 1), some z) ∧ again z = true) ∧
      θ = (prior (v k)).2 ∧ y = (sim θ (prior (v k)).1).2 ∧ ∀ z, y = some z → again z = false := by
  induction fuel with
  | zero => intro w θ y h; cases h
  | succ fuel ih =>
    intro w θ y h
    unfold pairTask at h
    rcases hs : sim (prior w).2 (prior w).1 with ⟨w', _ | z⟩
    · simp only [hs, End.done.injEq, Prod.mk.injEq] at h
      obtain ⟨rfl, rfl⟩ := h
      exact ⟨0, fun _ => w, by omega, rfl, by intro j hj; omega, rfl, by rw [hs], by simp⟩
    · simp only [hs] at h
      cases ha : again z with
      | true =>
        rw [ha, if_pos rfl] at h
        obtain ⟨k, v, hk, h0, hv, hθ, hy, hz⟩ := ih w' θ y h
        refine ⟨k + 1, fun j => Nat.casesOn j w v, by omega, rfl, ?_, hθ, hy, hz⟩
        intro j hj
        cases j with
        | zero => exact ⟨z, by show sim (prior w).2 (prior w).1 = (v 0, some z); rw [hs, h0], ha⟩
        | succ j => exact hv j (by omega)
      | false =>
        rw [ha, if_neg (by simp)] at h
        simp only [End.done.injEq, Prod.mk.injEq] at h
        obtain ⟨rfl, rfl⟩ := h
        exact ⟨0, fun _ => w, by omega, rfl, by intro j hj; omega, rfl, by rw [hs], by intro z' h; cases h; exact ha⟩

/-! ### How often the call returns -/

/-- C220 fails: if the generators of the draws are independent and one draw is refused with probability `p`, then the call returns `n` pairs with probability `(1 - p) ^ n` only. -/
theorem C220_chance_violated [MeasurableSpace W] (μ : Measure W) [IsProbabilityMeasure μ] (task : W → End (Θ × Option Y)) (he : ∀ w, ∃ p, task w = .done p)
    (hm : MeasurableSet {w | Refused task w}) (chunk n fuel : Nat) (hc : 0 < chunk) (hn : 0 < n) (hf : n < fuel) :
    Measure.infinitePi (fun _ : Nat => μ) {gen | ∃ r, pairs task chunk n fuel gen = .done r} = (1 - μ {w | Refused task w}) ^ n := by
  have hs : {gen : Nat → W | ∃ r, pairs task chunk n fuel gen = .done r} = Set.pi (Finset.range n) fun _ => {w | Refused task w}ᶜ := by
    ext gen
    have h := C220_pairs_violated task chunk n fuel hc hf gen fun i _ => he _
    simp only [Set.mem_setOf_eq, Set.mem_pi, Finset.mem_coe, Finset.mem_range, Set.mem_compl_iff]
    constructor
    · rintro ⟨r, hr⟩ i hi hR
      rw [h.2 (.inr ⟨i, hi, hR⟩)] at hr
      cases hr
    · intro hi
      have hne : pairs task chunk n fuel gen ≠ .raised := fun hr => by
        rcases h.1 hr with h0 | ⟨i, hin, hR⟩
        · omega
        · exact hi i hin hR
      have : ∀ m ≤ n, ∃ r, List.Forall₂ (Drawn task) ((List.range m).map gen) r := by
        intro m
        induction m with
        | zero => exact fun _ => ⟨[], .nil⟩
        | succ m ih =>
          intro hm
          obtain ⟨r, hr⟩ := ih (by omega)
          obtain ⟨⟨θ, y⟩, hp⟩ := he (gen m)
          cases y with
          | none => exact absurd ⟨θ, hp⟩ (hi m (by omega))
          | some y =>
            refine ⟨r ++ [(θ, y)], ?_⟩
            rw [List.range_succ, List.map_append]
            exact List.rel_append hr (.cons hp .nil)
      obtain ⟨r, hr⟩ := this n le_rfl
      exact ⟨r, (C220_pairs_partial task chunk n fuel hc hf gen r).2 ⟨hn, hr⟩⟩
  rw [hs, Measure.infinitePi_pi _ fun _ _ => hm.compl, Finset.prod_const, Finset.card_range, prob_compl_eq_one_sub hm]

/-- C220 fails: however rarely the simulator refuses, large numbers of pairs are almost never returned. -/
theorem C220_many_violated [MeasurableSpace W] (μ : Measure W) [IsProbabilityMeasure μ] (task : W → End (Θ × Option Y)) (he : ∀ w, ∃ p, task w = .done p)
    (hm : MeasurableSet {w | Refused task w}) (hp : μ {w | Refused task w} ≠ 0) (chunk : Nat) (hc : 0 < chunk) :
    Filter.Tendsto (fun n => Measure.infinitePi (fun _ : Nat => μ) {gen | ∃ r, pairs task chunk n (n + 1) gen = .done r}) Filter.atTop (nhds 0) := by
  have h : Filter.Tendsto (fun n => (1 - μ {w | Refused task w}) ^ n) Filter.atTop (nhds 0) :=
    ENNReal.tendsto_pow_atTop_nhds_zero_of_lt_one (ENNReal.sub_lt_self ENNReal.one_ne_top one_ne_zero hp)
  refine h.congr' ?_
  filter_upwards [Filter.eventually_gt_atTop 0] with n hn
  exact (C220_chance_violated μ task he hm chunk n (n + 1) hc hn (by omega)).symm

/-! ### Learning -/

/-- C220 fails for `StatisticsLearning`: no statistics are learned as soon as one of the draws is refused. -/
theorem C220_learning_violated (chain : List Statistics.Step) (n nVal perParam : Nat) (train val : Option (List Distance.Row × List Distance.Row)) (draw : Nat → Option Learning.Draw) (i : Nat)
    (hi : i < Learning.toGenerate n nVal train val) (h : draw i = none) : learn chain n nVal perParam train val draw = none := by
  unfold learn
  rw [(collect_eq_none _).2 (List.mem_map.2 ⟨i, List.mem_range.2 hi, h⟩)]

/-- C220: without refusals the training data are those of `Learning.learn`. -/
theorem C220_learning_partial (chain : List Statistics.Step) (n nVal perParam : Nat) (train val : Option (List Distance.Row × List Distance.Row)) (draw : Nat → Learning.Draw) :
    learn chain n nVal perParam train val (fun i => some (draw i)) = Learning.learn chain n nVal perParam train val draw := by
  have hc : collect ((List.range (Learning.toGenerate n nVal train val)).map fun i => some (draw i)) = some ((List.range (Learning.toGenerate n nVal train val)).map draw) :=
    (collect_eq_some _ _).2 (by rw [List.map_map]; rfl)
  unfold learn
  rw [hc]
  have hg : ∀ k, k = Learning.toGenerate n nVal train val → (List.range k).map (fun i => ((List.range k).map draw).getD i ⟨[], []⟩) = (List.range k).map draw := by
    intro k _
    apply List.map_congr_left
    intro i hi
    simp [List.getD_eq_getElem?_getD, List.getElem?_map, List.getElem?_range (List.mem_range.1 hi)]
  have hs : Learning.generatedSets chain n nVal perParam train val (fun i => ((List.range (Learning.toGenerate n nVal train val)).map draw).getD i ⟨[], []⟩) =
      Learning.generatedSets chain n nVal perParam train val draw := by
    unfold Learning.generatedSets
    simp only [hg _ rfl]
  show Learning.learn chain n nVal perParam train val (fun i => ((List.range (Learning.toGenerate n nVal train val)).map draw).getD i ⟨[], []⟩) = _
  unfold Learning.learn
  rw [hs]

/-! ### A simulator that refuses half of the prior -/

/-- Parameters are bits and the simulator refuses `true`. -/
def bits : Bool → End (Bool × Option Bool) := pairTask (fun w => (w, w)) (fun θ w => (w, if θ then none else some θ)) (fun _ => false) 1

theorem bits_done (w : Bool) : bits w = .done (w, if w then none else some w) := by cases w <;> rfl

theorem bits_refused : {w | Refused bits w} = {true} := by
  ext w
  simp only [Set.mem_setOf_eq, Set.mem_singleton_iff, Refused, bits_done]
  cases w <;> simp

example : bits false = .done (false, some false) ∧ ∃ (k : Nat) (v : Nat → Bool), k < 1 ∧ v 0 = false := by
  refine ⟨bits_done false, ?_⟩
  obtain ⟨k, v, h1, h2, -⟩ := C220_task (fun w : Bool => (w, w)) (fun θ w => (w, if θ then none else some θ)) (fun _ => false) 1 false false (some false) (bits_done false)
  exact ⟨k, v, h1, h2⟩

/-- Five draws in chunks of two; the fourth is refused. -/
example : pairs bits 2 5 6 (fun i => decide (i = 3)) = .raised :=
  (C220_pairs_violated bits 2 5 6 (by omega) (by omega) _ (fun i _ => ⟨_, bits_done _⟩)).2 (.inr ⟨3, by omega, true, bits_done true⟩)

/-- Five draws none of which is refused. -/
example : pairs bits 2 5 6 (fun _ => false) = .done (List.replicate 5 (false, false)) :=
  (C220_pairs_partial bits 2 5 6 (by omega) (by omega) _ _).2 ⟨by omega, by
    have h : Drawn bits false (false, false) := bits_done false
    exact .cons h (.cons h (.cons h (.cons h (.cons h .nil))))⟩

/-- A fair bit: ten pairs are returned once in 1024 calls. -/
example : Measure.infinitePi (fun _ : Nat => (PMF.uniformOfFintype Bool).toMeasure) {gen | ∃ r, pairs bits 4 10 11 gen = .done r} = (1 - 2⁻¹) ^ 10 := by
  rw [C220_chance_violated _ bits (fun w => ⟨_, bits_done w⟩) (MeasurableSet.of_discrete) 4 10 11 (by omega) (by omega) (by omega), bits_refused,
    PMF.toMeasure_apply_singleton _ _ (measurableSet_singleton _)]
  simp

example : Filter.Tendsto (fun n => Measure.infinitePi (fun _ : Nat => (PMF.uniformOfFintype Bool).toMeasure) {gen | ∃ r, pairs bits 4 n (n + 1) gen = .done r}) Filter.atTop (nhds 0) :=
  C220_many_violated _ bits (fun w => ⟨_, bits_done w⟩) (MeasurableSet.of_discrete) (by
    rw [bits_refused, PMF.toMeasure_apply_singleton _ _ (measurableSet_singleton _)]; simp) 4 (by omega)

/-- Learning with ten draws of which the eighth is refused. -/
example (chain : List Statistics.Step) : learn chain 10 0 1 none none (fun i => if i = 7 then none else some ⟨[1], [[(i : ℝ)]]⟩) = none :=
  C220_learning_violated chain 10 0 1 none none _ 7 (by simp [Learning.toGenerate]) (by simp)

end Verif.Refuse
