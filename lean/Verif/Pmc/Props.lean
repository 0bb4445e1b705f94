import Verif.Pmc.Lemmas
import Mathlib.Tactic.FieldSimp
import Mathlib.Algebra.Order.BigOperators.Group.List
/-
Property theorems C39 - C41 and C77.
-/
namespace Verif.Pmc

theorem percentile_le (l : List ℝ) (q x hi : ℝ) (h : percentile l q = some x) (hh : ∀ y ∈ l, y ≤ hi) : x ≤ hi := by
  obtain ⟨lo, hlo⟩ : ∃ lo : ℝ, ∀ y ∈ l, lo ≤ y := by
    clear h hh
    induction l with
    | nil => exact ⟨0, by simp⟩
    | cons a l ih =>
      obtain ⟨lo, h⟩ := ih
      refine ⟨min a lo, fun y hy => ?_⟩
      rcases List.mem_cons.1 hy with rfl | hy
      · exact min_le_left _ _
      · exact (min_le_right _ _).trans (h y hy)
  exact (percentile_some l q x h lo hi fun y hy => ⟨hlo y hy, hh y hy⟩).2

/-! ### C39 -/

/-- C39 with one initial threshold, for every run that returns: there is one population for each step, the first threshold is the given one, thresholds never
increase, and all distances of a population are at most its threshold. -/
theorem C39_thresholds {W Θ Y : Type} (env : Env W Θ Y) (steps : Nat) (e0 pct : ℝ) (fuel : Nat) (start : Nat → List W)
    (before : Option (Pop Θ)) (counter : Nat) (s : State Θ) (h : pmcRun env steps [e0] pct fuel start before counter = some s) :
    s.hist.length = steps ∧ (∀ r, s.hist[0]? = some r → r.eps = e0) ∧ (s.hist.map (·.eps)).Pairwise (· ≥ ·) ∧
    ∀ r ∈ s.hist, ∀ d ∈ r.distances, d ≤ r.eps := by
  obtain ⟨arr, harr, hi⟩ := inv_run env steps [e0] pct fuel start before counter s h
  have harr' : ∀ j, arr[j]? = if j = 0 then some (some e0) else if j < steps then some none else none := by
    unfold initEps at harr
    split at harr
    · rename_i hl
      simp only [List.length_cons, List.length_nil, Nat.zero_add] at hl
      subst hl
      simp only [Option.some.injEq] at harr
      subst harr
      intro j
      cases j with
      | zero => rfl
      | succ j => simp
    · split at harr
      · rename_i e n he hx
        simp only [List.cons.injEq, and_true] at he
        simp only [Option.some.injEq] at harr
        subst harr he
        intro j
        cases j with
        | zero => rfl
        | succ j =>
          rw [List.getElem?_cons_succ, List.getElem?_replicate]
          by_cases hj : j < n
          · rw [if_pos hj, if_neg (Nat.succ_ne_zero j), if_pos (Nat.succ_lt_succ hj)]
          · rw [if_neg hj, if_neg (Nat.succ_ne_zero j), if_neg (fun h => hj (Nat.lt_of_succ_lt_succ h))]
      · simp at harr
  have hd : ∀ r ∈ s.hist, ∀ d ∈ r.distances, d ≤ r.eps := by
    intro r hr
    obtain ⟨j, hj⟩ := List.mem_iff_getElem?.1 hr
    exact (hi.recs j r hj).2.2.2.1
  have hlink : ∀ j r r', s.hist[j]? = some r → s.hist[j + 1]? = some r' → r'.eps ≤ r.eps := by
    intro j r r' h1 h2
    obtain ⟨q, q1, q2⟩ := hi.link j r r' h1 h2
    rw [harr', if_neg (by omega)] at q2
    split at q2
    · simp only [comb, Option.map_some, Option.elim_none, Option.some.injEq] at q2
      subst q2
      exact percentile_le _ _ _ _ q1 (hd r (List.mem_of_getElem? h1))
    · simp [comb] at q2
  have hgap : ∀ (k j : Nat) (r r' : Rec Θ), s.hist[j]? = some r → s.hist[j + k]? = some r' → r'.eps ≤ r.eps := by
    intro k
    induction k with
    | zero => intro j r r' h1 h2; rw [Nat.add_zero, h1] at h2; simp only [Option.some.injEq] at h2; rw [h2]
    | succ k ih =>
      intro j r r' h1 h2
      have hlt : j + k < s.hist.length := by have := (List.getElem?_eq_some_iff.1 h2).1; omega
      have h3 := List.getElem?_eq_getElem hlt
      exact (hlink (j + k) _ r' h3 h2).trans (ih j r _ h1 h3)
  refine ⟨hi.len, ?_, ?_, hd⟩
  · intro r hr
    have := hi.head r hr
    rw [harr', if_pos rfl] at this
    simpa using this.symm
  · rw [List.pairwise_iff_getElem]
    intro i j hi' hj hij
    simp only [List.length_map] at hi' hj
    simp only [List.getElem_map]
    refine hgap (j - i) i _ _ (List.getElem?_eq_getElem hi') ?_
    rw [show i + (j - i) = j by omega]
    exact List.getElem?_eq_getElem hj

/-- C39: any other number of thresholds than one or one per step is refused. -/
theorem C39_refused {W Θ Y : Type} (env : Env W Θ Y) (steps : Nat) (epsInit : List ℝ) (pct : ℝ) (fuel : Nat) (start : Nat → List W)
    (before : Option (Pop Θ)) (counter : Nat) (h1 : epsInit.length ≠ 1) (h2 : epsInit.length ≠ steps) :
    pmcRun env steps epsInit pct fuel start before counter = none := by
  have : initEps epsInit steps = none := by
    unfold initEps
    rw [if_neg h2]
    split
    · simp at h1
    · rfl
  simp [pmcRun, this]

/-- With one threshold for each step, the first is used as it is, and each later one is the larger of the given value and the percentile of the distances before. -/
theorem C39_given {W Θ Y : Type} (env : Env W Θ Y) (steps : Nat) (epsInit : List ℝ) (hl : epsInit.length = steps) (pct : ℝ) (fuel : Nat)
    (start : Nat → List W) (before : Option (Pop Θ)) (counter : Nat) (s : State Θ)
    (h : pmcRun env steps epsInit pct fuel start before counter = some s) :
    (∀ r, s.hist[0]? = some r → epsInit[0]? = some r.eps) ∧
    (∀ (j : Nat) r r', s.hist[j]? = some r → s.hist[j + 1]? = some r' → ∃ q e, percentile r.distances pct = some q ∧
      epsInit[j + 1]? = some e ∧ r'.eps = max q e) ∧
    ∀ r ∈ s.hist, ∀ d ∈ r.distances, d ≤ r.eps := by
  obtain ⟨arr, harr, hi⟩ := inv_run env steps epsInit pct fuel start before counter s h
  unfold initEps at harr
  rw [if_pos hl] at harr
  simp only [Option.some.injEq] at harr
  subst harr
  refine ⟨?_, ?_, ?_⟩
  · intro r hr
    have := hi.head r hr
    rw [List.getElem?_map] at this
    cases he : epsInit[0]? with
    | none => rw [he] at this; simp at this
    | some e => rw [he] at this; simpa using this
  · intro j r r' h1 h2
    obtain ⟨q, q1, q2⟩ := hi.link j r r' h1 h2
    rw [List.getElem?_map] at q2
    cases he : epsInit[j + 1]? with
    | none => rw [he] at q2; simp [comb] at q2
    | some e => rw [he] at q2; simp [comb] at q2; exact ⟨q, e, q1, rfl, q2.symm⟩
  · intro r hr
    obtain ⟨j, hj⟩ := List.mem_iff_getElem?.1 hr
    exact (hi.recs j r hj).2.2.2.1

/-! ### C40 -/

theorem normalise_spec (l : List ℝ) (h0 : ∀ x ∈ l, 0 ≤ x) (hs : 0 < l.sum) :
    (∀ x ∈ normalise l, 0 ≤ x) ∧ (normalise l).sum = 1 ∧ (normalise l).length = l.length := by
  refine ⟨?_, ?_, by simp [normalise]⟩
  · intro x hx
    obtain ⟨y, hy, rfl⟩ := List.mem_map.1 hx
    exact div_nonneg (h0 y hy) hs.le
  · unfold normalise
    have : (fun x : ℝ => x / l.sum) = fun x => x * (1 / l.sum) := by funext x; ring
    rw [this, List.sum_map_mul_right]
    simp only [List.map_id']
    field_simp

theorem sum_pos_of_pos (l : List ℝ) (h : ∀ x ∈ l, 0 < x) (hne : l ≠ []) : 0 < l.sum := by
  cases l with
  | nil => exact absurd rfl hne
  | cons a l =>
    have : 0 ≤ l.sum := List.sum_nonneg fun y hy => (h y (by simp [hy])).le
    rw [List.sum_cons]
    linarith [h a (by simp)]

/-- C40 for a fresh run that returns, with at least one sample. Prior densities are not negative, every threshold is below the maximal distance, and the mixture of kernels around
one population is positive at the particles of the next. Then in each population the weights are non-negative and sum to one; in the first they are
equal; in a later one they are proportional to the prior density over the mixture `Σ_a w_a K(a, θ)` around the population before. -/
theorem C40_weights {W Θ Y : Type} (env : Env W Θ Y) (hpdf : ∀ θ, 0 ≤ env.pdf θ) (steps : Nat) (epsInit : List ℝ) (pct : ℝ) (fuel : Nat)
    (start : Nat → List W) (hstart : ∀ t, start t ≠ []) (counter : Nat) (s : State Θ)
    (h : pmcRun env steps epsInit pct fuel start none counter = some s)
    (hmax : ∀ r ∈ s.hist, ∀ m, env.distMax = some m → r.eps < m)
    (hmix : ∀ (j : Nat) r r', s.hist[j]? = some r → s.hist[j + 1]? = some r' → ∀ θ ∈ r'.params,
      0 < (List.zipWith (fun w a => w * env.kernel ⟨r.params, r.weights⟩ a θ) r.weights r.params).sum) :
    ∀ (j : Nat) r, s.hist[j]? = some r →
      r.weights.length = r.params.length ∧ (∀ w ∈ r.weights, 0 ≤ w) ∧ r.weights.sum = 1 ∧
      (j = 0 → ∀ w ∈ r.weights, w = 1 / r.params.length) ∧
      (∀ (i : Nat) rp, j = i + 1 → s.hist[i]? = some rp → ∃ c > 0, ∀ (k : Nat) θ w, r.params[k]? = some θ → r.weights[k]? = some w →
        w = c * (env.pdf θ / (List.zipWith (fun w a => w * env.kernel ⟨rp.params, rp.weights⟩ a θ) rp.weights rp.params).sum)) := by
  obtain ⟨arr, -, hi⟩ := inv_run env steps epsInit pct fuel start none counter s h
  intro j r hr
  obtain ⟨r1, r2, r3, r4, r5, r6⟩ := hi.recs j r hr
  have hne : r.params ≠ [] := by
    intro he
    rw [he] at r1
    exact hstart j (List.length_eq_zero_iff.1 r1.symm)
  have habove : above env.distMax r.eps = true := by
    unfold above
    cases hm : env.distMax with
    | none => rfl
    | some m => simpa using hmax r (List.mem_of_getElem? hr) m hm
  cases j with
  | zero =>
    have hraw : r.params.map (rawWeight env (start 0).length (popBefore none s.hist 0)) = List.replicate r.params.length (1 / (r.params.length : ℝ)) := by
      rw [← r1]
      refine List.eq_replicate_iff.2 ⟨by simp, ?_⟩
      intro b hb
      obtain ⟨θ, -, rfl⟩ := List.mem_map.1 hb
      rfl
    have hpos : (0 : ℝ) < r.params.length := by exact_mod_cast List.length_pos_iff.2 hne
    rw [hraw] at r3
    obtain ⟨n1, n2, n3⟩ := normalise_spec (List.replicate r.params.length (1 / (r.params.length : ℝ)))
      (by intro x hx; rw [List.eq_of_mem_replicate hx]; positivity) (by simp [List.sum_replicate]; field_simp; linarith)
    rw [r3]
    refine ⟨by rw [n3]; simp, n1, n2, fun _ w hw => ?_, fun i rp hi => by omega⟩
    obtain ⟨x, hx, rfl⟩ := List.mem_map.1 hw
    rw [List.eq_of_mem_replicate hx]
    simp only [List.sum_replicate, nsmul_eq_mul]
    field_simp
  | succ i =>
    have hrp : ∃ rp, s.hist[i]? = some rp := ⟨_, List.getElem?_eq_getElem (by have := (List.getElem?_eq_some_iff.1 hr).1; omega)⟩
    obtain ⟨rp, hrp⟩ := hrp
    have hpb : popBefore none s.hist (i + 1) = some ⟨rp.params, rp.weights⟩ := by simp [popBefore, hrp]
    rw [hpb] at r3 r5
    have hprior := r5 habove rfl
    have hpos : ∀ x ∈ r.params.map (rawWeight env (start (i + 1)).length (some ⟨rp.params, rp.weights⟩)), 0 < x := by
      intro x hx
      obtain ⟨θ, hθ, rfl⟩ := List.mem_map.1 hx
      have h1 := hmix i rp r hrp hr θ hθ
      have h2 : 0 < env.pdf θ := lt_of_le_of_ne (hpdf θ) (hprior θ hθ).symm
      exact div_pos h2 h1
    have hsum := sum_pos_of_pos _ hpos (by simpa using hne)
    obtain ⟨n1, n2, n3⟩ := normalise_spec _ (fun x hx => (hpos x hx).le) hsum
    rw [← r3] at n1 n2 n3
    refine ⟨by rw [n3]; simp, n1, n2, fun h => by omega, fun i' rp' hi' hrp' => ?_⟩
    have : i' = i := by omega
    subst this
    rw [hrp] at hrp'
    simp only [Option.some.injEq] at hrp'
    subst hrp'
    refine ⟨1 / (r.params.map (rawWeight env (start (i' + 1)).length (some ⟨rp.params, rp.weights⟩))).sum, by positivity, ?_⟩
    intro k θ w hk hw
    rw [r3] at hw
    unfold normalise at hw
    rw [List.getElem?_map, List.getElem?_map, hk] at hw
    simp only [Option.map_some, Option.some.injEq] at hw
    rw [← hw]
    simp only [rawWeight, mixture]
    ring

/-! ### A run that returns -/

/-- A simple setting: everything has distance zero; particles from the prior are 1, perturbed ones 2. -/
noncomputable def easy : Env Unit Nat Unit where
  distMax := none
  dist := fun _ => 0
  pdf := fun _ => 1
  kernel := fun _ _ _ => 1
  held := fun _ => 0
  prior := fun w => (w, 1)
  choose := fun _ w => (w, 0)
  perturb := fun _ _ w => (w, some 2)
  sim := fun _ w => (w, ())

theorem easy_prior : resampleTask easy 1 none 3 () = some (1, 0, 1) := by
  simp [resampleTask, resampleLoop, above, easy, show ¬ (1 : ℝ) < 0 by norm_num]

theorem easy_perturbed (p : Pop Nat) (eps : ℝ) (h : 0 ≤ eps) : resampleTask easy eps (some p) 3 () = some (2, 0, 1) := by
  simp [resampleTask, resampleLoop, proposeLoop, above, easy, not_lt.2 h]

theorem percentile_zero (q : ℝ) (h0 : 0 ≤ q) (h1 : q ≤ 100) : percentile [0, 0] q = some 0 := by
  obtain ⟨x, h, hb⟩ := percentile_between [0, 0] q (by simp) h0 h1
  have := hb 0 0 (by simp)
  rw [h, le_antisymm this.2 this.1]

/-- Two steps with two samples: the first population comes from the prior, the second is perturbed. -/
theorem easy_run : ∃ s, pmcRun easy 2 [1] 50 3 (fun _ => [(), ()]) none 0 = some s ∧
    s.hist = [⟨1, [1, 1], [0, 0], [1 / 2, 1 / 2]⟩, ⟨0, [2, 2], [0, 0], [1 / 2, 1 / 2]⟩] ∧ s.counter = 4 := by
  have hp := percentile_zero 50 (by norm_num) (by norm_num)
  have hr : ∀ p θ, rawWeight easy 2 (some p) θ = 1 / mixture easy p θ := fun p θ => rfl
  have hm : ∀ θ, mixture easy ⟨[1, 1], [1 / 2, 1 / 2]⟩ θ = 1 := fun θ => by simp [mixture, easy]; norm_num
  have hr0 : ∀ θ, rawWeight easy 2 none θ = 1 / 2 := fun θ => by simp [rawWeight]
  have step1 : pmcStep easy 2 50 3 0 [(), ()] ⟨[some 1, none], none, 0, []⟩ =
      some ⟨[some 1, some 0], some ⟨[1, 1], [1 / 2, 1 / 2]⟩, 2, [⟨1, [1, 1], [0, 0], [1 / 2, 1 / 2]⟩]⟩ := by
    simp [pmcStep, easy_prior, collect, nextEps, hp, normalise, hr0]
    norm_num
  have step2 : pmcStep easy 2 50 3 1 [(), ()] ⟨[some 1, some 0], some ⟨[1, 1], [1 / 2, 1 / 2]⟩, 2, [⟨1, [1, 1], [0, 0], [1 / 2, 1 / 2]⟩]⟩ =
      some ⟨[some 1, some 0], some ⟨[2, 2], [1 / 2, 1 / 2]⟩, 4,
        [⟨1, [1, 1], [0, 0], [1 / 2, 1 / 2]⟩, ⟨0, [2, 2], [0, 0], [1 / 2, 1 / 2]⟩]⟩ := by
    have h1 := easy_perturbed ⟨[1, 1], [1 / 2, 1 / 2]⟩ 0 (by norm_num)
    simp only [pmcStep, List.getElem?_cons_zero, List.getElem?_cons_succ, List.map_cons, List.map_nil, h1, collect, nextEps, List.length_cons,
      List.length_nil, normalise, hr, hm]
    norm_num
  refine ⟨⟨[some 1, some 0], some ⟨[2, 2], [1 / 2, 1 / 2]⟩, 4,
    [⟨1, [1, 1], [0, 0], [1 / 2, 1 / 2]⟩, ⟨0, [2, 2], [0, 0], [1 / 2, 1 / 2]⟩]⟩, ?_, rfl, rfl⟩
  have : initEps [1] 2 = some [some 1, none] := by simp [initEps]
  rw [pmcRun, this]
  simp only
  rw [pmcLoop, step1]
  simp only
  rw [pmcLoop, step2]
  simp only
  rw [pmcLoop]

/-- The hypotheses of `C40_weights` hold for it. -/
example : ∃ s, pmcRun easy 2 [1] 50 3 (fun _ => [(), ()]) none 0 = some s ∧ (∀ r ∈ s.hist, ∀ m, easy.distMax = some m → r.eps < m) ∧
    ∀ (j : Nat) r r', s.hist[j]? = some r → s.hist[j + 1]? = some r' → ∀ θ ∈ r'.params,
      0 < (List.zipWith (fun w a => w * easy.kernel ⟨r.params, r.weights⟩ a θ) r.weights r.params).sum := by
  obtain ⟨s, h1, h2, -⟩ := easy_run
  refine ⟨s, h1, by simp [easy], ?_⟩
  intro j r r' hr hr' θ _
  rw [h2] at hr hr'
  have hj : j = 0 := by have := (List.getElem?_eq_some_iff.1 hr').1; simp at this; exact this
  subst hj
  simp only [List.getElem?_cons_zero, Option.some.injEq] at hr
  subst hr
  simp [easy]

/-! ### C77: a second call -/

/-- C77, what holds: given what population the sampler holds (none, for a new one), a call gives the same populations, thresholds, distances and weights whatever the
simulation counter left by earlier calls; the counter of the call is added to it. Missing: a sampler that holds a population should behave like a new one. -/
theorem C77_partial {W Θ Y : Type} (env : Env W Θ Y) (steps : Nat) (epsInit : List ℝ) (pct : ℝ) (fuel : Nat) (start : Nat → List W)
    (before : Option (Pop Θ)) (counter : Nat) :
    pmcRun env steps epsInit pct fuel start before counter =
      (pmcRun env steps epsInit pct fuel start before 0).map fun s => { s with counter := counter + s.counter } := by
  have hstep : ∀ (t : Nat) (l : List W) (s : State Θ), pmcStep env steps pct fuel t l { s with counter := counter + s.counter } =
      (pmcStep env steps pct fuel t l s).map fun s => { s with counter := counter + s.counter } := by
    intro t l s
    unfold pmcStep
    simp only
    split
    · split
      · split
        · rfl
        · split
          · rfl
          · simp [Nat.add_assoc]
      · rfl
    · rfl
  have hloop : ∀ (k t : Nat) (s : State Θ), pmcLoop env steps pct fuel start k t { s with counter := counter + s.counter } =
      (pmcLoop env steps pct fuel start k t s).map fun s => { s with counter := counter + s.counter } := by
    intro k
    induction k with
    | zero => intro t s; rfl
    | succ k ih =>
      intro t s
      unfold pmcLoop
      rw [hstep]
      cases pmcStep env steps pct fuel t (start t) s with
      | none => rfl
      | some s' => exact ih _ _
  unfold pmcRun
  cases initEps epsInit steps with
  | none => rfl
  | some arr => exact hloop _ _ ⟨arr, before, 0, []⟩

/-- C77 fails: if the sampler has been used before, so that the manager still holds a population, a new call without journal does not draw from the prior at all: its
result is the same for every prior sampler. -/
theorem C77_ignores_prior_violated {W Θ Y : Type} (env : Env W Θ Y) (other : W → W × Θ) (steps : Nat) (epsInit : List ℝ) (pct : ℝ)
    (fuel : Nat) (start : Nat → List W) (p : Pop Θ) (counter : Nat) :
    pmcRun { env with prior := other } steps epsInit pct fuel start (some p) counter =
      pmcRun env steps epsInit pct fuel start (some p) counter := by
  have hprop : ∀ (p : Pop Θ) (i fuel : Nat) (w : W), proposeLoop { env with prior := other } p i fuel w = proposeLoop env p i fuel w := by
    intro p i fuel
    induction fuel with
    | zero => intro w; rfl
    | succ fuel ih =>
      intro w
      unfold proposeLoop
      simp only
      split
      · exact ih _
      · split
        · rfl
        · exact ih _
  have hloop : ∀ (eps : ℝ) (p : Pop Θ) (fuel : Nat) (w : W) (θ : Θ) (d : Option ℝ) (c : Nat),
      resampleLoop { env with prior := other } eps (some p) fuel w θ d c = resampleLoop env eps (some p) fuel w θ d c := by
    intro eps p fuel
    induction fuel with
    | zero => intros; rfl
    | succ fuel ih =>
      intro w θ d c
      unfold resampleLoop
      simp only [hprop]
      split
      · split
        · rfl
        · exact ih _ _ _ _
      · rfl
  have htask : ∀ (eps : ℝ) (p : Pop Θ) (fuel : Nat) (w : W),
      resampleTask { env with prior := other } eps (some p) fuel w = resampleTask env eps (some p) fuel w := by
    intro eps p fuel w
    unfold resampleTask
    simp only [hloop]
  have hraw : ∀ n pop θ, rawWeight { env with prior := other } n pop θ = rawWeight env n pop θ := by
    intro n pop θ; cases pop <;> rfl
  have hstep : ∀ t (start : List W) (s : State Θ), s.pop.isSome →
      pmcStep { env with prior := other } steps pct fuel t start s = pmcStep env steps pct fuel t start s := by
    intro t start s hs
    obtain ⟨q, hq⟩ := Option.isSome_iff_exists.1 hs
    have h1 : ∀ eps, (start.map (resampleTask { env with prior := other } eps s.pop fuel)) = start.map (resampleTask env eps s.pop fuel) := by
      intro eps; rw [hq]; exact List.map_congr_left fun w _ => htask eps q fuel w
    have h2 : ∀ params : List Θ, params.map (rawWeight { env with prior := other } start.length s.pop) = params.map (rawWeight env start.length s.pop) := by
      intro params; exact List.map_congr_left fun θ _ => hraw _ _ _
    unfold pmcStep
    simp only [h1, h2]
  have hrun : ∀ k t (s : State Θ), s.pop.isSome →
      pmcLoop { env with prior := other } steps pct fuel start k t s = pmcLoop env steps pct fuel start k t s := by
    intro k
    induction k with
    | zero => intros; rfl
    | succ k ih =>
      intro t s hs
      unfold pmcLoop
      rw [hstep t (start t) s hs]
      split
      · rfl
      · rename_i s1 hs1
        obtain ⟨r, -, -, hpop, -⟩ := pmcStep_spec env steps pct fuel t (start t) s s1 hs1
        exact ih _ _ (by rw [hpop]; rfl)
  unfold pmcRun
  split
  · rfl
  · exact hrun _ _ _ rfl

/-- C77 fails in the simple setting: the same call with one step gives particles 1 from the prior the first time, and perturbed particles 2 the second time. -/
theorem C77_second_run_violated :
    ∃ s1, pmcRun easy 1 [1] 50 3 (fun _ => [(), ()]) none 0 = some s1 ∧ s1.hist.map (·.params) = [[1, 1]] ∧
    ∃ s2, pmcRun easy 1 [1] 50 3 (fun _ => [(), ()]) s1.pop 0 = some s2 ∧ s2.hist.map (·.params) = [[2, 2]] := by
  have hr : ∀ p θ, rawWeight easy 2 (some p) θ = 1 / mixture easy p θ := fun p θ => rfl
  have hm : ∀ θ, mixture easy ⟨[1, 1], [1 / 2, 1 / 2]⟩ θ = 1 := fun θ => by simp [mixture, easy]; norm_num
  have hr0 : ∀ θ, rawWeight easy 2 none θ = 1 / 2 := fun θ => by simp [rawWeight]
  have hi : initEps [1] 1 = some [some 1] := by simp [initEps]
  have step1 : pmcStep easy 1 50 3 0 [(), ()] ⟨[some 1], none, 0, []⟩ =
      some ⟨[some 1], some ⟨[1, 1], [1 / 2, 1 / 2]⟩, 2, [⟨1, [1, 1], [0, 0], [1 / 2, 1 / 2]⟩]⟩ := by
    simp [pmcStep, easy_prior, collect, nextEps, normalise, hr0]
    norm_num
  have step2 : pmcStep easy 1 50 3 0 [(), ()] ⟨[some 1], some ⟨[1, 1], [1 / 2, 1 / 2]⟩, 0, []⟩ =
      some ⟨[some 1], some ⟨[2, 2], [1 / 2, 1 / 2]⟩, 2, [⟨1, [2, 2], [0, 0], [1 / 2, 1 / 2]⟩]⟩ := by
    have h1 := easy_perturbed ⟨[1, 1], [1 / 2, 1 / 2]⟩ 1 (by norm_num)
    simp only [pmcStep, List.getElem?_cons_zero, List.getElem?_cons_succ, List.map_cons, List.map_nil, h1, collect, nextEps, List.length_cons,
      List.length_nil, normalise, hr, hm]
    norm_num
  refine ⟨⟨[some 1], some ⟨[1, 1], [1 / 2, 1 / 2]⟩, 2, [⟨1, [1, 1], [0, 0], [1 / 2, 1 / 2]⟩]⟩, ?_, rfl,
    ⟨[some 1], some ⟨[2, 2], [1 / 2, 1 / 2]⟩, 2, [⟨1, [2, 2], [0, 0], [1 / 2, 1 / 2]⟩]⟩, ?_, rfl⟩
  · rw [pmcRun, hi]
    simp only
    rw [pmcLoop, step1]
    simp only
    rw [pmcLoop]
  · rw [pmcRun, hi]
    simp only
    rw [pmcLoop, step2]
    simp only
    rw [pmcLoop]

/-! ### C41 -/

theorem normalise_scale (l : List ℝ) (c : ℝ) (hc : c ≠ 0) : normalise (l.map (· * c)) = normalise l := by
  unfold normalise
  rw [List.sum_map_mul_right, List.map_map]
  refine List.map_congr_left fun x _ => ?_
  simp only [Function.comp, List.map_id']
  rw [mul_div_mul_right _ _ hc]

/-- What `PMC` computes, exactly: weights proportional to the *square* of the prior density, times likelihood, over the mixture. -/
theorem pmcWeights_eq (particles : List (ℝ × ℝ × ℝ)) (hp : ∀ e ∈ particles, 0 < e.2.1 ∧ 0 < e.2.2) :
    pmcWeights particles = normalise (particles.map fun e => e.2.1 ^ 2 * Real.exp e.1 / e.2.2) := by
  unfold pmcWeights
  simp only
  generalize (particles.map fun x => Real.log (1 * x.2.1 / x.2.2) + (Real.log x.2.1 + x.1)).foldr max
    ((particles.map fun x => Real.log (1 * x.2.1 / x.2.2) + (Real.log x.2.1 + x.1)).headD 0) = m
  rw [← normalise_scale (particles.map fun e => e.2.1 ^ 2 * Real.exp e.1 / e.2.2) (Real.exp (-m)) (Real.exp_ne_zero _)]
  congr 1
  rw [List.map_map, List.map_map]
  refine List.map_congr_left fun e he => ?_
  obtain ⟨h1, h2⟩ := hp e he
  simp only [Function.comp]
  rw [show Real.log (1 * e.2.1 / e.2.2) + (Real.log e.2.1 + e.1) - m = Real.log (1 * e.2.1 / e.2.2) + Real.log e.2.1 + e.1 + -m by ring,
    Real.exp_add, Real.exp_add, Real.exp_add, Real.exp_log (by positivity), Real.exp_log h1]
  ring

/-- The weights of population Monte Carlo: proportional to prior density times likelihood over the mixture of kernels, with sum one. -/
noncomputable def pmcTarget (particles : List (ℝ × ℝ × ℝ)) : List ℝ :=
  let w := particles.map fun e => e.2.1 * Real.exp e.1 / e.2.2
  w.map (· / w.sum)

/-- C41 when the prior density is the same at all particles (a uniform prior): the weights are the ones of population Monte Carlo and they sum to one. Missing: other priors. -/
theorem C41_weights_partial (particles : List (ℝ × ℝ × ℝ)) (hp : ∀ e ∈ particles, 0 < e.2.1 ∧ 0 < e.2.2) (c : ℝ)
    (hc : ∀ e ∈ particles, e.2.1 = c) : pmcWeights particles = pmcTarget particles ∧ (particles ≠ [] → (pmcWeights particles).sum = 1) := by
  have key : pmcWeights particles = pmcTarget particles := by
    rw [pmcWeights_eq particles hp]
    by_cases hne : particles = []
    · subst hne; rfl
    · obtain ⟨e, he⟩ := List.exists_mem_of_ne_nil _ hne
      have hc0 : c ≠ 0 := by rw [← hc e he]; exact (hp e he).1.ne'
      have := normalise_scale (particles.map fun e => e.2.1 * Real.exp e.1 / e.2.2) c hc0
      rw [List.map_map] at this
      unfold pmcTarget
      simp only
      refine Eq.trans ?_ this
      congr 1
      refine List.map_congr_left fun e he => ?_
      simp only [Function.comp]
      rw [hc e he]
      ring
  refine ⟨key, fun hne => ?_⟩
  rw [pmcWeights_eq particles hp]
  have hpos : ∀ x ∈ particles.map (fun e => e.2.1 ^ 2 * Real.exp e.1 / e.2.2), 0 < x := by
    intro x hx
    obtain ⟨e, he, rfl⟩ := List.mem_map.1 hx
    obtain ⟨h1, h2⟩ := hp e he
    positivity
  exact (normalise_spec _ (fun x hx => (hpos x hx).le) (sum_pos_of_pos _ hpos (by simpa using hne))).2.1

/-- C41 fails for other priors: with prior densities 1 and 2 and all else equal, the weights are 1/5 and 4/5 instead of 1/3 and 2/3. -/
theorem C41_weights_violated : pmcWeights [(0, 1, 1), (0, 2, 1)] = [1 / 5, 4 / 5] ∧ pmcTarget [(0, 1, 1), (0, 2, 1)] = [1 / 3, 2 / 3] := by
  constructor
  · rw [pmcWeights_eq _ (by simp)]
    simp [normalise]
    norm_num
  · simp [pmcTarget]
    norm_num

example : ∀ e ∈ [((0 : ℝ), (2 : ℝ), (1 : ℝ)), (1, 2, 3)], (0 < e.2.1 ∧ 0 < e.2.2) ∧ e.2.1 = 2 := by simp

end Verif.Pmc
