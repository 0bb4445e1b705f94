import Verif.Apmc.Lemmas
/-
Property theorem C49 and the part of C46 about `APMCABC`.
-/
namespace Verif.Apmc

open Verif.Pmc (Pop percentile normalise)
open Verif.Smc (propose normalise_sum)
open Verif.Rsmc (pyRound)

variable {W Θ Y : Type} (env : Env W Θ Y) (c : Config)

/-- The population of a step as a list of particles (value, distance, weight), and those of them that are carried over: exactly the particles strictly below the
threshold, in the same order, each with its own value and distance, and with its weight divided by the sum of these weights. -/
structure CarriedOver (r : Rec Θ) (l : List (Θ × ℝ × ℝ)) : Prop where
  params : r.params = l.map fun x => x.1
  distances : r.distances = l.map fun x => x.2.1
  weights : r.weights = l.map fun x => x.2.2
  keptParams : r.keptParams = (l.filter fun x => x.2.1 < r.eps).map fun x => x.1
  keptDistances : r.keptDistances = (l.filter fun x => x.2.1 < r.eps).map fun x => x.2.1
  keptWeights : r.keptWeights = (l.filter fun x => x.2.1 < r.eps).map fun x => x.2.2 / ((l.filter fun x => x.2.1 < r.eps).map fun x => x.2.2).sum

theorem keep_spec (eps : ℝ) (p : List Θ × List ℝ × List ℝ) (l : List (Θ × ℝ × ℝ)) (h1 : p.1 = l.map fun x => x.1) (h2 : p.2.1 = l.map fun x => x.2.1)
    (h3 : p.2.2 = l.map fun x => x.2.2) : CarriedOver (keep eps p) l := by
  have hm : (p.2.1.map fun d => decide (d < eps)) = l.map fun x => decide (x.2.1 < eps) := by rw [h2, List.map_map]; rfl
  refine ⟨h1, h2, h3, ?_, ?_, ?_⟩
  all_goals
    simp only [keep]
    rw [hm]
  · rw [h1, select_map, select_filter]; rfl
  · rw [h2, select_map, select_filter]; rfl
  · rw [h3, select_map, select_filter, normalise, List.map_map]; rfl

/-- What is known of a population. -/
structure Good (r : Rec Θ) : Prop where
  carried : ∃ l, CarriedOver r l
  threshold : percentile r.distances (c.alpha * 100) = some r.eps
  positive : ∀ x ∈ r.weights, 0 < x
  own : ∀ (i : Nat) (θ : Θ) (d : ℝ), r.params[i]? = some θ → r.distances[i]? = some d → ∃ w, d = env.dist (env.sim θ w).2

theorem carried_kept (r : Rec Θ) (l : List (Θ × ℝ × ℝ)) (h : CarriedOver r l) (hpos : ∀ x ∈ r.weights, 0 < x) :
    r.keptParams.length = r.keptWeights.length ∧ r.keptDistances.length = r.keptWeights.length ∧ (∀ x ∈ r.keptWeights, 0 < x) ∧
    (r.keptWeights ≠ [] → r.keptWeights.sum = 1) := by
  have hp : ∀ x ∈ (l.filter fun x => x.2.1 < r.eps).map (fun x => x.2.2), 0 < x := by
    intro x hx
    obtain ⟨y, hy, rfl⟩ := List.mem_map.1 hx
    refine hpos _ ?_
    rw [h.weights]
    exact List.mem_map.2 ⟨y, (List.mem_filter.1 hy).1, rfl⟩
  refine ⟨by rw [h.keptParams, h.keptWeights]; simp, by rw [h.keptDistances, h.keptWeights]; simp, ?_, ?_⟩
  · intro x hx
    rw [h.keptWeights] at hx
    obtain ⟨y, hy, rfl⟩ := List.mem_map.1 hx
    have hy' : y.2.2 ∈ (l.filter fun x => x.2.1 < r.eps).map (fun x => x.2.2) := List.mem_map.2 ⟨y, hy, rfl⟩
    exact div_pos (hp _ hy') (List.sum_pos _ hp (List.ne_nil_of_mem hy'))
  · intro hne
    have hne' : (l.filter fun x => x.2.1 < r.eps).map (fun x => x.2.2) ≠ [] := by
      intro hnil
      rw [List.map_eq_nil_iff] at hnil
      rw [h.keptWeights, hnil] at hne
      exact hne rfl
    have := normalise_sum _ (List.sum_pos _ hp hne').ne'
    rw [normalise, List.map_map] at this
    rw [h.keptWeights]; exact this

theorem good_step (hk : ∀ p a b, 0 < env.kernel p a b) (hp : ∀ θ, 0 ≤ env.pdf θ) (fuel t : Nat) (start : List W) (s s' : State Θ)
    (hI : ∀ r, s.hist.getLast? = some r → Good env c r) (h : step env c fuel t start s = some s') :
    ∃ r, s'.hist = s.hist ++ [r] ∧ Good env c r ∧
      r.params.length = (if wanted c t = c.n then c.n else ((s.hist.getLast?.map fun r => r.keptParams.length).getD 0) + wanted c t) := by
  obtain ⟨out, eps, hne, hlen, hout, heps, rfl⟩ := step_spec env c fuel t start s s' h
  have hol : out.length = wanted c t := by rw [← hlen]; simpa using (congrArg List.length hout).symm
  have hacc : ∀ o ∈ out, ∃ w, accept env fuel (seen s) w = some o := by
    intro o ho
    have : some o ∈ out.map some := List.mem_map.2 ⟨o, ho, rfl⟩
    rw [← hout, List.mem_map] at this
    obtain ⟨w, -, hw⟩ := this
    exact ⟨w, hw⟩
  have hseen : ∀ p, seen s = some p → p.params.length = p.weights.length ∧ ∀ x ∈ p.weights, 0 < x := by
    intro p hp
    unfold seen at hp
    rw [Option.map_eq_some_iff] at hp
    obtain ⟨r, hr, rfl⟩ := hp
    obtain ⟨l, hl⟩ := (hI r hr).carried
    obtain ⟨a, -, b, -⟩ := carried_kept r l hl (hI r hr).positive
    exact ⟨a, b⟩
  -- the merged population as particles
  obtain ⟨l, m1, m2, m3, m4, m5⟩ : ∃ l : List (Θ × ℝ × ℝ), (merge c s out).1 = l.map (fun x => x.1) ∧ (merge c s out).2.1 = l.map (fun x => x.2.1) ∧
      (merge c s out).2.2 = l.map (fun x => x.2.2) ∧ (∀ x ∈ l, 0 < x.2.2 ∧ ∃ w, x.2.1 = env.dist (env.sim x.1 w).2) ∧
      l.length = (if wanted c t = c.n then c.n else ((s.hist.getLast?.map fun r => r.keptParams.length).getD 0) + wanted c t) := by
    have hfresh : ∀ x ∈ out.map (fun o => (o.θ, o.d, o.weight)), 0 < x.2.2 ∧ ∃ w, x.2.1 = env.dist (env.sim x.1 w).2 := by
      intro x hx
      obtain ⟨o, ho, rfl⟩ := List.mem_map.1 hx
      obtain ⟨w, hw⟩ := hacc o ho
      obtain ⟨a, b, -⟩ := accept_weight env hk hp fuel (seen s) w o hseen hw
      exact ⟨a, b⟩
    unfold merge
    by_cases hn : out.length = c.n
    · rw [if_pos hn]
      refine ⟨out.map (fun o => (o.θ, o.d, o.weight)), by simp, by simp, by simp, hfresh, ?_⟩
      rw [if_pos (by omega)]; simpa using hn
    · rw [if_neg hn]
      rw [if_neg (by omega)]
      cases hr : s.hist.getLast? with
      | none =>
        refine ⟨out.map (fun o => (o.θ, o.d, o.weight)), by simp, by simp, by simp, hfresh, ?_⟩
        simpa using hol
      | some r =>
        obtain ⟨l, hl⟩ := (hI r hr).carried
        obtain ⟨k1, k2, k3, -⟩ := carried_kept r l hl (hI r hr).positive
        refine ⟨(l.filter fun x => x.2.1 < r.eps).map (fun x => (x.1, x.2.1, x.2.2 / ((l.filter fun x => x.2.1 < r.eps).map fun x => x.2.2).sum)) ++
          out.map (fun o => (o.θ, o.d, o.weight)), ?_, ?_, ?_, ?_, ?_⟩
        · simp only [hl.keptParams, List.map_append, List.map_map]; rfl
        · simp only [hl.keptDistances, List.map_append, List.map_map]; rfl
        · simp only [hl.keptWeights, List.map_append, List.map_map]; rfl
        · intro x hx
          rcases List.mem_append.1 hx with hx | hx
          · obtain ⟨y, hy, rfl⟩ := List.mem_map.1 hx
            constructor
            · refine k3 _ ?_
              rw [hl.keptWeights]
              exact List.mem_map.2 ⟨y, hy, rfl⟩
            · obtain ⟨i, hi⟩ := List.mem_iff_getElem?.1 (List.mem_filter.1 hy).1
              exact (hI r hr).own i y.1 y.2.1 (by rw [hl.params, List.getElem?_map, hi]; rfl) (by rw [hl.distances, List.getElem?_map, hi]; rfl)
          · exact hfresh x hx
        · simp [hl.keptParams, hol]
  have hspec := keep_spec eps (merge c s out) l m1 m2 m3
  refine ⟨_, rfl, ⟨⟨l, hspec⟩, heps, ?_, ?_⟩, ?_⟩
  · intro x hx
    rw [hspec.weights] at hx
    obtain ⟨y, hy, rfl⟩ := List.mem_map.1 hx
    exact (m4 y hy).1
  · intro i θ d h1 h2
    rw [hspec.params, List.getElem?_map, Option.map_eq_some_iff] at h1
    rw [hspec.distances, List.getElem?_map, Option.map_eq_some_iff] at h2
    obtain ⟨x, hx, rfl⟩ := h1
    obtain ⟨y, hy, rfl⟩ := h2
    rw [hx, Option.some.injEq] at hy
    subst hy
    exact (m4 x (List.mem_of_getElem? hx)).2
  · rw [hspec.params, List.length_map, m5]

/-- C49, what holds of it, for positive kernel densities and non-negative prior densities. The threshold of every step is the percentile of the distances of its population; each particle has its own distance;
exactly the particles strictly below the threshold are carried over, in order, with their values and distances; and their weights are positive and, unless nothing is carried over, sum to one. The first population has
`n_samples` particles; the next one consists of the particles carried over and `n_samples - round(n_samples * alpha)` new ones, hence has `n_samples` particles if exactly
`round(n_samples * alpha)` are carried over. Missing: that this is always so; it is not, see below. -/
theorem C49_partial (hk : ∀ p a b, 0 < env.kernel p a b) (hp : ∀ θ, 0 ≤ env.pdf θ) (fuel : Nat) (start : Nat → List W) (s : State Θ)
    (h : run env c fuel start = some s) (k : Nat) (r : Rec Θ) (hr : s.hist[k]? = some r) :
    (∃ l, CarriedOver r l) ∧ percentile r.distances (c.alpha * 100) = some r.eps ∧
    (∀ (i : Nat) (θ : Θ) (d : ℝ), r.params[i]? = some θ → r.distances[i]? = some d → ∃ w, d = env.dist (env.sim θ w).2) ∧
    (∀ x ∈ r.keptWeights, 0 < x) ∧ (r.keptParams ≠ [] → r.keptWeights.sum = 1) ∧
    (k = 0 → r.params.length = c.n) ∧
    ∀ r', s.hist[k + 1]? = some r' → pyRound (c.n * c.alpha) ≠ 0 → pyRound (c.n * c.alpha) ≤ c.n →
      (r'.params.length : ℤ) = r.keptParams.length + (c.n - pyRound (c.n * c.alpha)) ∧
      ((r.keptParams.length : ℤ) = pyRound (c.n * c.alpha) → r'.params.length = c.n) := by
  unfold run at h
  obtain ⟨t', -, -, ⟨-, hI1, hI2⟩, -⟩ := loop_inv env c fuel start
    (fun t s => s.hist.length = t ∧ (∀ r ∈ s.hist, Good env c r) ∧
      ∀ (k : Nat) (r : Rec Θ), s.hist[k]? = some r → r.params.length =
        (if wanted c k = c.n then c.n else (((s.hist.take k).getLast?.map fun r => r.keptParams.length).getD 0) + wanted c k))
    (fun t s s' hI _ hs => by
      obtain ⟨r, h1, h2, h3⟩ := good_step env c hk hp fuel t (start t) s s' (fun r hr => hI.2.1 r (List.mem_of_getLast? hr)) hs
      rw [h1]
      refine ⟨by simp [hI.1], ?_, ?_⟩
      · intro r' hr'
        rcases List.mem_append.1 hr' with hr' | hr'
        · exact hI.2.1 r' hr'
        · simp only [List.mem_singleton] at hr'; rw [hr']; exact h2
      · intro k r' hr'
        rcases Nat.lt_trichotomy k s.hist.length with hlt | heq | hgt
        · rw [List.getElem?_append_left hlt] at hr'
          rw [List.take_append_of_le_length hlt.le]
          exact hI.2.2 k r' hr'
        · subst heq
          simp only [List.getElem?_concat_length, Option.some.injEq] at hr'
          subst hr'
          rw [List.take_left', h3, hI.1]
          rfl
        · rw [List.getElem?_eq_none (by simp; omega)] at hr'; cases hr') c.steps 0 _ s ⟨rfl, by simp, by simp⟩ h
  have hg := hI1 r (List.mem_of_getElem? hr)
  obtain ⟨l, hl⟩ := hg.carried
  obtain ⟨k1, k2, k3, k4⟩ := carried_kept r l hl hg.positive
  refine ⟨⟨l, hl⟩, hg.threshold, hg.own, k3, ?_, ?_, ?_⟩
  · intro hne
    refine k4 fun hnil => hne ?_
    rw [hnil] at k1
    exact List.length_eq_zero_iff.1 k1
  · rintro rfl
    have := hI2 0 r hr
    rw [if_pos (by simp [wanted])] at this
    exact this
  · intro r' hr' hz hle
    have := hI2 (k + 1) r' hr'
    have hw : (wanted c (k + 1) : ℤ) = c.n - pyRound (c.n * c.alpha) := by
      unfold wanted
      rw [if_pos (by omega)]
      omega
    rw [if_neg (by omega), List.getLast?_take, if_neg (by omega)] at this
    rw [show k + 1 - 1 = k by omega, hr] at this
    simp only [Option.some_or, Option.map_some, Option.getD_some] at this
    constructor
    · omega
    · intro h; omega

/-! ### Concrete runs -/

/-- The state of a worker is the next value it produces; data are the value itself, the distance is that to zero. -/
noncomputable def exEnv : Env ℝ ℝ ℝ where
  dist y := y
  pdf _ := 1
  kernel _ _ _ := 1
  prior w := (w, w)
  choose _ w := (w, 0)
  perturb _ _ w := (w, some w)
  sim θ w := (w, θ)

theorem percentile_three : percentile [0, 1, 2] 50 = some 1 := by
  norm_num [percentile, List.insertionSort, List.orderedInsert]

theorem percentile_two (x : ℝ) (hx : 0 ≤ x) : percentile [0, x] 50 = some (x / 2) := by
  have h2 : ⌊(1 / 2 : ℝ)⌋₊ = 0 := Nat.floor_eq_zero.2 (by norm_num)
  have hs : [0, x].insertionSort (· ≤ ·) = [0, x] := by simp [List.insertionSort, List.orderedInsert, hx]
  unfold percentile
  rw [if_neg (by norm_num), hs]
  norm_num [h2]
  ring

theorem pyRound_three : pyRound ((3 : ℕ) * (1 / 2)) = 2 := by
  have hf : ⌊((3 : ℕ) * (1 / 2) : ℝ)⌋ = 1 := Int.floor_eq_iff.2 (by norm_num)
  have hr : Int.fract ((3 : ℕ) * (1 / 2) : ℝ) = 1 / 2 := by rw [Int.fract, hf]; norm_num
  rw [pyRound, hr, hf]
  norm_num

theorem pyRound_two : pyRound ((2 : ℕ) * (1 / 2)) = 1 := by
  have h1 : ((2 : ℕ) * (1 / 2) : ℝ) = 1 := by norm_num
  rw [h1]
  simp [pyRound]

noncomputable def threeStart (t : Nat) : List ℝ := if t = 0 then [0, 1, 2] else [1]

/-- C49 is violated, with `alpha = 0.5`: three samples are asked for; one particle lies strictly below the median and is carried over, one
(3 - round(1.5) = 1) is new, so the second population has two particles. The hypotheses of `C49_partial` are satisfied here. -/
theorem C49_size_violated : (∀ p a b, 0 < exEnv.kernel p a b) ∧ (∀ θ, 0 ≤ exEnv.pdf θ) ∧
    ∃ s, run exEnv ⟨3, 2, 1 / 2, 0, true⟩ 1 threeStart = some s ∧ s.journal.length = 2 ∧
      (s.journal.map fun r => r.params.length) = [3, 2] ∧ (s.journal.map fun r => r.keptParams.length) = [1, 1] := by
  refine ⟨fun _ _ _ => one_pos, fun _ => zero_le_one, ?_⟩
  have h1 : step exEnv ⟨3, 2, 1 / 2, 0, true⟩ 1 0 (threeStart 0) ⟨[], [], [], false⟩ =
      some ⟨[1], [⟨1, [0, 1, 2], [0, 1, 2], [1, 1, 1], [0], [0], [1]⟩], [⟨1, [0, 1, 2], [0, 1, 2], [1, 1, 1], [0], [0], [1]⟩], false⟩ := by
    have := percentile_three
    norm_num [step, threeStart, wanted, seen, accept, exEnv, collect, merge, acceptance, keep, select, normalise, this]
    simp
  have hw : wanted ⟨3, 2, 1 / 2, 0, true⟩ 1 = 1 := by simp only [wanted]; rw [pyRound_three]; rfl
  have h2 : ∃ s, step exEnv ⟨3, 2, 1 / 2, 0, true⟩ 1 1 (threeStart 1) ⟨[1], [⟨1, [0, 1, 2], [0, 1, 2], [1, 1, 1], [0], [0], [1]⟩],
        [⟨1, [0, 1, 2], [0, 1, 2], [1, 1, 1], [0], [0], [1]⟩], false⟩ = some s ∧ s.journal.length = 2 ∧
      (s.journal.map fun r => r.params.length) = [3, 2] ∧ (s.journal.map fun r => r.keptParams.length) = [1, 1] := by
    have := percentile_two 1 zero_le_one
    norm_num [step, threeStart, hw, seen, accept, propose, exEnv, collect, merge, acceptance, keep, select, normalise, mixture, this]
  obtain ⟨s, h2, h3⟩ := h2
  refine ⟨s, ?_, h3⟩
  unfold run
  simp only
  rw [loop, h1]
  simp only [Bool.false_eq_true, if_false]
  rw [loop, h2]
  simp only [Bool.false_eq_true, if_false, loop]

noncomputable def twoStart (t : Nat) : List ℝ := if t = 0 then [0, 1] else [1]

/-- C46 is violated for `APMCABC`: if the run stops early because of the acceptance rate and only the last population is asked for, the journal stays empty although
populations have been computed. Here the run stops after the second of three steps. -/
theorem C46_apmc_violated : ∃ s, run exEnv ⟨2, 3, 1 / 2, 1 / 10, false⟩ 1 twoStart = some s ∧ s.stopped = true ∧ s.hist.length = 2 ∧ s.journal = [] := by
  have hw : wanted ⟨2, 3, 1 / 2, 1 / 10, false⟩ 1 = 1 := by simp only [wanted]; rw [pyRound_two]; rfl
  have hp := percentile_two 1 zero_le_one
  have h1 : step exEnv ⟨2, 3, 1 / 2, 1 / 10, false⟩ 1 0 (twoStart 0) ⟨[], [], [], false⟩ =
      some ⟨[1 / 2], [⟨1 / 2, [0, 1], [0, 1], [1, 1], [0], [0], [1]⟩], [], false⟩ := by
    norm_num [step, twoStart, wanted, seen, accept, exEnv, collect, merge, acceptance, keep, select, normalise, hp]
    simp
  have h2 : ∃ s, step exEnv ⟨2, 3, 1 / 2, 1 / 10, false⟩ 1 1 (twoStart 1) ⟨[1 / 2], [⟨1 / 2, [0, 1], [0, 1], [1, 1], [0], [0], [1]⟩], [], false⟩ = some s ∧
      s.stopped = true ∧ s.hist.length = 2 ∧ s.journal = [] := by
    norm_num [step, twoStart, hw, seen, accept, propose, exEnv, collect, merge, acceptance, keep, select, normalise, mixture, hp]
  obtain ⟨s, h2, h3, h4, h5⟩ := h2
  refine ⟨s, ?_, h3, h4, h5⟩
  unfold run
  simp only
  rw [loop, h1]
  simp only [Bool.false_eq_true, if_false]
  rw [loop, h2]
  simp only [Bool.false_eq_true, if_false, loop, h3, if_true]

/-- C46 for `APMCABC`, what holds: if at least one step was carried out and all populations are asked for, or the run does all of its steps, the last population
of the journal is that of the last step. -/
theorem C46_apmc_partial (fuel : Nat) (start : Nat → List W) (s : State Θ) (h : run env c fuel start = some s) (h1 : s.hist ≠ [])
    (hf : c.full = true ∨ s.hist.length = c.steps) : s.journal.getLast? = s.hist.getLast? := by
  unfold run at h
  obtain ⟨t', -, -, ⟨hI, hJ⟩, -⟩ := loop_inv env c fuel start
    (fun t s => s.hist.length = t ∧ (1 ≤ t → (c.full = true ∨ t = c.steps) → s.journal.getLast? = s.hist.getLast?))
    (fun t s s' hI _ hs => by
      obtain ⟨out, eps, -, -, -, -, rfl⟩ := step_spec env c fuel t (start t) s s' hs
      refine ⟨by simp [hI.1], fun _ hf => ?_⟩
      by_cases hfull : c.full = true
      · simp [hfull]
      · rcases hf with hf | hf
        · exact absurd hf hfull
        · have : t = c.steps - 1 := by omega
          simp [hfull, this]) c.steps 0 _ s ⟨rfl, by simp⟩ h
  have hpos := List.length_pos_iff.2 h1
  exact hJ (by omega) (hf.imp id (by omega))

end Verif.Apmc
