import Verif.Rsmc.Lemmas
import Mathlib.Analysis.SpecialFunctions.Log.Basic
/-
Property theorems C47, C48 and the part of C46 about `RSMCABC`.
-/
namespace Verif.Rsmc

open Verif.Pmc (Pop above)
open Verif.Smc (propose)

variable {W Θ Y : Type} (env : Env W Θ Y) (c : Config)

/-! ### C47 -/

theorem accept_some (fuel : Nat) (eps : ℝ) (p : Pop Θ) (ds : List ℝ) (r : Nat) (w : W) (held : Θ) (o : Out Θ)
    (h : accept env fuel eps (some (p, ds)) r w held = some o) :
    ∃ (θ : Θ) (dθ : ℝ), p.params[(env.choose p.params.length w).2]? = some θ ∧ ds[(env.choose p.params.length w).2]? = some dθ ∧
      moveLoop env fuel eps p (env.choose p.params.length w).2 θ dθ r (env.choose p.params.length w).1 held env.distMax 0 0 = some o := by
  unfold accept at h
  simp only [Option.bind_eq_some_iff] at h
  obtain ⟨θ, h1, dθ, h2, h3⟩ := h
  exact ⟨θ, dθ, h1, h2, h3⟩

/-- C47, what holds of it. A worker of the first step returns parameters drawn from the prior together with their own distance (unless the maximal
distance is already below the threshold), and counts as one acceptance. Later, with at least one move, a worker chooses one of the particles; if all moves are rejected it returns the value and the distance of that
particle; and the distance it returns is always that of the particle or that of a data set simulated from an accepted proposal, which has positive prior density, lies strictly below the threshold and has passed the acceptance draw.
Missing: that the value returned is the accepted proposal; this is false, see below. -/
theorem C47_rejected_partial (fuel : Nat) (eps : ℝ) (r : Nat) (w : W) (held : Θ) (o : Out Θ) :
    (accept env fuel eps none r w held = some o → o.accepted = 1 ∧ ∃ d, o.d = some d ∧ d ≤ eps ∧
      ((o.θ = held ∧ env.distMax = some d) ∨ ∃ w, d = env.dist (env.sim o.θ w).2)) ∧
    ∀ (p : Pop Θ) (ds : List ℝ), accept env fuel eps (some (p, ds)) r w held = some o → 1 ≤ r →
      ∃ (i : Nat) (θ : Θ) (dθ : ℝ), i = (env.choose p.params.length w).2 ∧ p.params[i]? = some θ ∧ ds[i]? = some dθ ∧
        (o.accepted = 0 → o.θ = θ ∧ o.d = some dθ) ∧
        (o.d = some dθ ∨ ∃ θ' w, env.pdf θ' ≠ 0 ∧ o.d = some (env.dist (env.sim θ' w).2) ∧ env.dist (env.sim θ' w).2 < eps ∧
          (env.bern (prob env p θ θ') (env.sim θ' w).1).2 = true) := by
  constructor
  · intro h
    simp only [accept, Option.map_eq_some_iff] at h
    obtain ⟨e, he, rfl⟩ := h
    obtain ⟨x, h1, h2, h3⟩ := priorLoop_spec env eps fuel w held env.distMax 0 e he
    exact ⟨rfl, x, h1, h2, h3⟩
  · intro p ds h hr
    obtain ⟨θ, dθ, h1, h2, h3⟩ := accept_some env fuel eps p ds r w held o h
    obtain ⟨-, -, -, h4⟩ := moveLoop_spec env fuel eps p _ θ dθ r _ held _ 0 0 o h3
    obtain ⟨a, -, b⟩ := h4 hr
    refine ⟨_, θ, dθ, rfl, h1, h2, fun h0 => ⟨a, ?_⟩, ?_⟩
    · rcases b with b | ⟨b, -⟩
      · exact b
      · omega
    · rcases b with b | ⟨-, b⟩
      · exact .inl b
      · exact .inr b

/-- C47 is violated, for all models, kernels and random numbers: the value that a worker returns is never an accepted proposal, it is always the value of the old particle
(the prior density of the old value is computed after the proposal has been stored, which stores the old value again). -/
theorem C47_value_violated (fuel : Nat) (eps : ℝ) (r : Nat) (w : W) (held : Θ) (o : Out Θ) (p : Pop Θ) (ds : List ℝ)
    (h : accept env fuel eps (some (p, ds)) r w held = some o) (hr : 1 ≤ r) :
    p.params[(env.choose p.params.length w).2]? = some o.θ := by
  obtain ⟨θ, dθ, h1, h2, h3⟩ := accept_some env fuel eps p ds r w held o h
  obtain ⟨-, -, -, h4⟩ := moveLoop_spec env fuel eps p _ θ dθ r _ held _ 0 0 o h3
  rw [(h4 hr).1]; exact h1

/-- A model whose data are the parameter itself, with distance to zero; the perturbation halves the value, and every move below the threshold is accepted. -/
noncomputable def exEnv : Env Unit ℝ ℝ where
  distMax := none
  dist y := y
  pdf _ := 1
  kernel _ _ _ := 1
  prior w := (w, 1)
  choose _ w := (w, 0)
  perturb p i w := (w, (p.params[i]?).map (· / 2))
  sim θ w := (w, θ)
  bern _ w := (w, true)

/-- C47 is violated: the distance of every data set is equal to the parameter, yet an accepted move returns the old value 1 with the distance 1/2 of
the proposal. -/
theorem C47_distance_violated : (∀ θ w, exEnv.dist (exEnv.sim θ w).2 = θ) ∧
    accept exEnv 1 1 (some (⟨[1], [1]⟩, [1])) 1 () 1 = some ⟨1, some (1 / 2), 1, 1⟩ := by
  refine ⟨fun _ _ => rfl, ?_⟩
  norm_num [accept, exEnv, moveLoop, propose]

/-! ### C48 -/

/-- What is known of the kept particles. -/
structure Kept (s : State Θ) (k : List Θ × List ℝ) : Prop where
  params : k.1.length = c.n - c.drop
  distances : k.2.length = c.n - c.drop
  sorted : k.2.Pairwise (· ≤ ·)
  below : ∀ e, s.epsilons.getLast? = some e → ∀ d ∈ k.2, d ≤ e
  nonempty : s.epsilons ≠ []

structure Inv (s : State Θ) : Prop where
  fresh : s.kept = none → s.epsilons = [] ∧ s.moves = 1 ∧ s.hist = []
  kept : ∀ k, s.kept = some k → Kept c s k
  moves : 0 ≤ s.moves
  eps : s.hist.map Rec.eps = s.epsilons
  decreasing : s.epsilons.Pairwise (· ≥ ·)
  first : ∀ e, s.epsilons.head? = some e → e = c.epsInit
  hist : ∀ r ∈ s.hist, r.params.length = c.n ∧ r.distances.length = c.n ∧ 1 ≤ r.moves ∧ ∀ d ∈ r.distances, d ≤ r.eps

theorem accepted_le (fuel : Nat) (eps : ℝ) (s : State Θ) (w : W) (held : Θ) (o : Out Θ) (hI : Inv c s)
    (h : accept env fuel eps (seen s) s.moves.toNat w held = some o) : (o.accepted : Int) ≤ s.moves := by
  cases hk : s.kept with
  | none =>
    rw [(hI.fresh hk).2.1]
    have := ((C47_rejected_partial env fuel eps s.moves.toNat w held o).1 (by simpa [seen, hk] using h)).1
    omega
  | some k =>
    simp only [seen, hk, Option.map_some] at h
    obtain ⟨θ, dθ, h1, h2, h3⟩ := accept_some env fuel eps _ _ _ w held o h
    obtain ⟨-, h4, -⟩ := moveLoop_spec env fuel eps _ _ θ dθ _ _ held _ 0 0 o h3
    have := hI.moves
    omega

theorem sum_le_mul (l : List Nat) (r : Int) (h : ∀ x ∈ l, (x : Int) ≤ r) : (l.sum : Int) ≤ r * l.length := by
  induction l with
  | nil => simp
  | cons x l ih =>
    have h1 := h x (by simp)
    have h2 := ih fun y hy => h y (by simp [hy])
    simp only [List.sum_cons, List.length_cons, Nat.cast_add, Nat.cast_one]
    have : r * (l.length + 1 : Int) = r * l.length + r := by ring
    omega

theorem nextMoves_nonneg (hc0 : 0 < c.const) (hc1 : c.const ≤ 1) (r : Int) (k acc : Nat) (m : Int) (hr : 0 ≤ r) (hacc : (acc : Int) ≤ r * k)
    (h : nextMoves c r k acc = some m) : 1 ≤ r ∧ 0 ≤ m := by
  unfold nextMoves at h
  simp only at h
  by_cases h0 : r * (k : Int) = 0
  · rw [if_pos h0] at h; cases h
  rw [if_neg h0] at h
  have hr1 : 1 ≤ r := by
    rcases hr.lt_or_eq with hr | hr
    · omega
    · rw [← hr] at h0; simp at h0
  refine ⟨hr1, ?_⟩
  split at h
  · simp only [Option.some.injEq] at h; omega
  · rename_i hp
    simp only [Option.some.injEq] at h
    subst h
    rw [not_or] at hp
    have hpos : (0 : ℝ) < (r * k : ℤ) := by
      have : (0 : Int) < r * k := lt_of_le_of_ne (by positivity) (Ne.symm h0)
      exact_mod_cast this
    have hle : (acc : ℝ) ≤ (r * k : ℤ) := by exact_mod_cast hacc
    have hp1 : (acc : ℝ) / (r * k : ℤ) ≤ 1 := (div_le_one hpos).2 hle
    have hp0 : 0 ≤ (acc : ℝ) / (r * k : ℤ) := by positivity
    have hlt : (acc : ℝ) / (r * k : ℤ) < 1 := lt_of_le_of_ne hp1 hp.1
    have h1 : Real.log c.const ≤ 0 := Real.log_nonpos hc0.le hc1
    have h2 : Real.log (1 - (acc : ℝ) / (r * k : ℤ)) ≤ 0 := Real.log_nonpos (by linarith) (by linarith)
    have : 0 ≤ Real.log c.const / Real.log (1 - (acc : ℝ) / (r * k : ℤ)) := div_nonneg_of_nonpos h1 h2
    rw [pyInt, if_pos this]
    exact Int.floor_nonneg.2 this

/-- The distances of a step. -/
theorem new_distances (fuel : Nat) (eps : ℝ) (s : State Θ) (hI : Inv c s) (hm : 1 ≤ s.moves) (heps : threshold c s = some eps) (w : W) (held : Θ) (o : Out Θ) (d : ℝ)
    (h : accept env fuel eps (seen s) s.moves.toNat w held = some o) (hd : o.d = some d) : d ≤ eps := by
  cases hk : s.kept with
  | none =>
    obtain ⟨-, x, h1, h2, -⟩ := (C47_rejected_partial env fuel eps s.moves.toNat w held o).1 (by simpa [seen, hk] using h)
    rw [h1, Option.some.injEq] at hd; rw [← hd]; exact h2
  | some k =>
    simp only [seen, hk, Option.map_some] at h
    obtain ⟨i, θ, dθ, -, -, h3, -, h5⟩ := (C47_rejected_partial env fuel eps s.moves.toNat w held o).2 _ _ h (by omega)
    simp only [threshold, hk] at heps
    have hK := hI.kept k hk
    rcases h5 with h5 | ⟨θ', w', -, h5, h6, -⟩
    · rw [hd, Option.some.injEq] at h5
      rw [h5]
      have hmem := List.mem_of_getElem? h3
      obtain ⟨l, hl⟩ := List.getLast?_eq_some_iff.1 heps
      rw [hl] at hmem
      have hs := hK.sorted
      rw [hl, List.pairwise_append] at hs
      rcases List.mem_append.1 hmem with hm' | hm'
      · exact hs.2.2 dθ hm' eps (by simp)
      · simp only [List.mem_singleton] at hm'; exact hm'.le
    · rw [hd, Option.some.injEq] at h5; rw [h5]; exact h6.le

theorem inv_step (hc0 : 0 < c.const) (hc1 : c.const ≤ 1) (fuel t : Nat) (start : List (W × Θ)) (s s' : State Θ) (hI : Inv c s)
    (h : step env c fuel t start s = .ok s') : Inv c s' := by
  obtain ⟨eps, out, ds, r, m, heps, hfin, hne, hlen, hout, hds, hm, hr, rfl⟩ := step_spec env c fuel t start s s' h
  have hol : out.length = start.length := by simpa using (congrArg List.length hout).symm
  have hdl : ds.length = out.length := by simpa using (congrArg List.length hds).symm
  have hacc : ∀ o ∈ out, ∃ e ∈ start, accept env fuel eps (seen s) s.moves.toNat e.1 e.2 = some o := by
    intro o ho
    have : some o ∈ out.map some := List.mem_map.2 ⟨o, ho, rfl⟩
    rw [← hout, List.mem_map] at this
    exact this
  have hsum : ((out.map Out.accepted).sum : Int) ≤ s.moves * start.length := by
    have := sum_le_mul (out.map Out.accepted) s.moves fun x hx => by
      obtain ⟨o, ho, rfl⟩ := List.mem_map.1 hx
      obtain ⟨e, -, he⟩ := hacc o ho
      exact accepted_le env c fuel eps s _ _ o hI he
    rwa [List.length_map, hol] at this
  obtain ⟨hm1, hm0⟩ := nextMoves_nonneg c hc0 hc1 s.moves start.length _ m hI.moves hsum hm
  have hnew : ∀ d ∈ ds, d ≤ eps := by
    intro d hd
    have : some d ∈ ds.map some := List.mem_map.2 ⟨d, hd, rfl⟩
    rw [← hds, List.mem_map] at this
    obtain ⟨o, ho, hod⟩ := this
    obtain ⟨e, -, he⟩ := hacc o ho
    exact new_distances env c fuel eps s hI hm1 heps _ _ o d he hod
  -- the particles that were kept
  have hbase : (base c s out.length).1.length + out.length = c.n ∧ (base c s out.length).2.length + out.length = c.n ∧
      ∀ d ∈ (base c s out.length).2, d ≤ eps := by
    unfold base
    split
    · rename_i h'; simp [h']
    · rename_i h'
      rw [hol, hlen] at h'
      cases hk : s.kept with
      | none => simp [wanted, hk] at h'
      | some k =>
        have hK := hI.kept k hk
        have hw : out.length = c.drop := by rw [hol, hlen, wanted, hk]; simp
        simp only [threshold, hk] at heps
        have hpos : 0 < k.2.length := by
          rcases Nat.eq_zero_or_pos k.2.length with h0 | h0
          · rw [List.length_eq_zero_iff] at h0; rw [h0] at heps; simp at heps
          · exact h0
        have h1 := hK.params
        have h2 := hK.distances
        refine ⟨by simp only [Option.getD_some]; omega, by simp only [Option.getD_some]; omega, ?_⟩
        intro d hd
        simp only [Option.getD_some] at hd
        obtain ⟨l, hl⟩ := List.getLast?_eq_some_iff.1 heps
        have hs := hK.sorted
        rw [hl] at hd
        rw [hl, List.pairwise_append] at hs
        rcases List.mem_append.1 hd with hm' | hm'
        · exact hs.2.2 d hm' eps (by simp)
        · simp only [List.mem_singleton] at hm'; exact hm'.le
  obtain ⟨hb1, hb2, hb3⟩ := hbase
  have hrp : r.params.length = c.n := by rw [hr]; simpa using hb1
  have hrd : r.distances.length = c.n := by rw [hr]; simp only [List.length_append, hdl]; exact hb2
  have hrb : ∀ d ∈ r.distances, d ≤ eps := by
    intro d hd
    rw [hr] at hd
    rcases List.mem_append.1 hd with hd | hd
    · exact hb3 d hd
    · exact hnew d hd
  obtain ⟨t1, t2, t3, t4⟩ := trim_spec c r.params r.distances hrp hrd
  have hle : ∀ e, s.epsilons.getLast? = some e → eps ≤ e := by
    intro e he
    cases hk : s.kept with
    | none => rw [(hI.fresh hk).1] at he; simp at he
    | some k =>
      simp only [threshold, hk] at heps
      exact (hI.kept k hk).below e he eps (List.mem_of_getLast? heps)
  refine ⟨by simp, ?_, hm0, ?_, ?_, ?_, ?_⟩
  · intro k hk
    simp only [Option.some.injEq] at hk
    subst hk
    refine ⟨t1, t2, t3, ?_, by simp⟩
    intro e he d hd
    simp only [List.getLast?_append, List.getLast?_singleton, Option.some_or, Option.some.injEq] at he
    subst he
    obtain ⟨i, hi⟩ := List.mem_iff_getElem?.1 hd
    have hil := (List.getElem?_eq_some_iff.1 hi).1
    rw [t2, ← t1] at hil
    obtain ⟨j, -, hj⟩ := t4 i _ d (List.getElem?_eq_getElem hil) hi
    exact hrb d (List.mem_of_getElem? hj)
  · simp [hI.eps, hr]
  · rw [List.pairwise_append]
    refine ⟨hI.decreasing, by simp, ?_⟩
    intro x hx y hy
    simp only [List.mem_singleton] at hy
    subst hy
    obtain ⟨l, e, hl⟩ : ∃ l e, s.epsilons = l ++ [e] := ⟨_, _, (List.dropLast_append_getLast (List.ne_nil_of_mem hx)).symm⟩
    have h1 := hle e (by rw [hl]; simp)
    have hd := hI.decreasing
    rw [hl, List.pairwise_append] at hd
    rw [hl] at hx
    rcases List.mem_append.1 hx with hx | hx
    · exact le_trans h1 (hd.2.2 x hx e (by simp))
    · simp only [List.mem_singleton] at hx; rw [hx]; exact h1
  · intro e he
    cases hk : s.kept with
    | none =>
      rw [(hI.fresh hk).1] at he
      simp only [threshold, hk, Option.some.injEq] at heps
      simpa [heps, eq_comm] using he
    | some k =>
      rw [List.head?_append_of_ne_nil _ (hI.kept k hk).nonempty] at he
      exact hI.first e he
  · intro r' hr'
    rcases List.mem_append.1 hr' with hr' | hr'
    · exact hI.hist r' hr'
    · simp only [List.mem_singleton] at hr'
      subst hr'
      exact ⟨hrp, hrd, by rw [hr]; exact hm1, fun d hd => by rw [show r'.eps = eps by rw [hr]]; exact hrb d hd⟩

/-- C48, for runs that end and `0 < const ≤ 1`. The thresholds begin with `epsilon_init` and never grow; the population of every step consists of `n_samples`
particles, each with a distance that is at most the threshold of the step; and the journal has exactly these populations (of all steps, or of the last one). -/
theorem C48_thresholds (hc0 : 0 < c.const) (hc1 : c.const ≤ 1) (fuel : Nat) (start : Nat → List (W × Θ)) (s : State Θ) (h : run env c fuel start = .ok s) :
    s.hist.length = c.steps ∧ s.hist.map Rec.eps = s.epsilons ∧ (∀ e, s.epsilons.head? = some e → e = c.epsInit) ∧ s.epsilons.Pairwise (· ≥ ·) ∧
    (∀ r ∈ s.hist, r.params.length = c.n ∧ r.distances.length = c.n ∧ ∀ d ∈ r.distances, d ≤ r.eps) ∧
    (c.full = true → s.journal = s.hist) ∧ (c.full = false → s.journal = s.hist.getLast?.toList) := by
  have hI := loop_inv env c fuel start (fun t s => Inv c s ∧ s.hist.length = t ∧ (c.full = true → s.journal = s.hist) ∧
      (c.full = false → (t = c.steps → s.journal = s.hist.getLast?.toList)))
    (fun t s s' hI hs => by
      refine ⟨inv_step env c hc0 hc1 fuel t (start t) s s' hI.1 hs, ?_⟩
      obtain ⟨eps, out, ds, r, m, -, -, -, -, -, -, -, -, rfl⟩ := step_spec env c fuel t (start t) s s' hs
      refine ⟨by simp [hI.2.1], ?_, ?_⟩
      · intro hf; simp [hf, hI.2.2.1 hf]
      · intro hf ht
        have : t = c.steps - 1 := by omega
        simp [hf, this]) c.steps 0 _ s
    ⟨⟨by simp, by simp, by simp, by simp, by simp, by simp, by simp⟩, rfl, by simp, by simp⟩ h
  obtain ⟨hI, hl, h1, h2⟩ := hI
  refine ⟨by omega, hI.eps, hI.first, hI.decreasing, ?_, h1, fun hf => h2 hf (by omega)⟩
  intro r hr
  obtain ⟨a, b, -, d⟩ := hI.hist r hr
  exact ⟨a, b, d⟩

/-- A consequence of the violation of C47, for all runs that end and `0 < const ≤ 1`: after the first step no new parameter value ever enters the population. -/
theorem C47_no_new_values_violated (hc0 : 0 < c.const) (hc1 : c.const ≤ 1) (fuel : Nat) (start : Nat → List (W × Θ)) (s : State Θ) (h : run env c fuel start = .ok s)
    (r0 : Rec Θ) (h0 : s.hist.head? = some r0) : ∀ r ∈ s.hist, ∀ θ ∈ r.params, θ ∈ r0.params := by
  have hI := loop_inv env c fuel start (fun _ s => Inv c s ∧ ∀ r0, s.hist.head? = some r0 →
      (∀ r ∈ s.hist, ∀ θ ∈ r.params, θ ∈ r0.params) ∧ ∀ k, s.kept = some k → ∀ θ ∈ k.1, θ ∈ r0.params)
    (fun t s s' hI hs => by
      have hI' := inv_step env c hc0 hc1 fuel t (start t) s s' hI.1 hs
      refine ⟨hI', ?_⟩
      obtain ⟨eps, out, ds, r, m, heps, hfin, hne, hlen, hout, hds, hm, hr, rfl⟩ := step_spec env c fuel t (start t) s s' hs
      have hr' := hI'.hist r (by simp)
      obtain ⟨t1, t2, t3, t4⟩ := trim_spec c r.params r.distances hr'.1 hr'.2.1
      have htrim : ∀ θ ∈ (trim c r.params r.distances).1, θ ∈ r.params := by
        intro θ hθ
        obtain ⟨i, hi⟩ := List.mem_iff_getElem?.1 hθ
        have hil := (List.getElem?_eq_some_iff.1 hi).1
        rw [t1, ← t2] at hil
        obtain ⟨j, hj, -⟩ := t4 i θ _ hi (List.getElem?_eq_getElem hil)
        exact List.mem_of_getElem? hj
      intro r0 h0
      have key : ∀ θ ∈ r.params, θ ∈ r0.params := by
        cases hk : s.kept with
        | none =>
          rw [(hI.1.fresh hk).2.2] at h0
          simp only [List.nil_append, List.head?_cons, Option.some.injEq] at h0
          rw [h0]; exact fun _ h => h
        | some k =>
          have hnil : s.hist ≠ [] := by
            intro hn
            have := hI.1.eps
            rw [hn] at this
            exact (hI.1.kept k hk).nonempty (by simpa using this.symm)
          simp only at h0
          rw [List.head?_append_of_ne_nil _ hnil] at h0
          obtain ⟨a, b⟩ := hI.2 r0 h0
          intro θ hθ
          rw [hr] at hθ
          simp only at hθ
          rcases List.mem_append.1 hθ with hθ | hθ
          · rw [base] at hθ
            split at hθ
            · simp at hθ
            · rw [hk, Option.getD_some] at hθ
              exact b k hk θ hθ
          · obtain ⟨o, ho, rfl⟩ := List.mem_map.1 hθ
            have : some o ∈ out.map some := List.mem_map.2 ⟨o, ho, rfl⟩
            rw [← hout, List.mem_map] at this
            obtain ⟨e, -, he⟩ := this
            simp only [seen, hk, Option.map_some] at he
            have hm1 : 1 ≤ s.moves := by have := hr'.2.2.1; rw [hr] at this; exact this
            exact b k hk _ (List.mem_of_getElem? (C47_value_violated env fuel eps _ _ _ o _ _ he (by omega)))
      refine ⟨?_, ?_⟩
      · intro r1 h1 θ hθ
        rcases List.mem_append.1 h1 with h1 | h1
        · cases hk : s.kept with
          | none => rw [(hI.1.fresh hk).2.2] at h1; simp at h1
          | some k =>
            simp only at h0
            rw [List.head?_append_of_ne_nil _ (List.ne_nil_of_mem h1)] at h0
            exact (hI.2 r0 h0).1 r1 h1 θ hθ
        · simp only [List.mem_singleton] at h1; subst h1; exact key θ hθ
      · intro k hk θ hθ
        simp only [Option.some.injEq] at hk
        subst hk
        exact key θ (htrim θ hθ)) c.steps 0 _ s
    ⟨⟨by simp, by simp, by simp, by simp, by simp, by simp, by simp⟩, by simp⟩ h
  exact (hI.2 r0 h0).1

/-- A remark on C48: if the fraction of accepted moves exceeds `1 - const`, the next step tries no moves at all, and then the run raises (the model's step gives no state). -/
theorem C48_no_moves_raises (fuel t : Nat) (start : List (W × Θ)) (s : State Θ) (k acc : Nat) (r : Int) (hc0 : 0 < c.const) (hc1 : c.const ≤ 1)
    (hp : 1 - c.const < (acc : ℝ) / (r * k : ℤ)) (hp1 : (acc : ℝ) / (r * k : ℤ) < 1) (hm : nextMoves c r k acc = some s.moves) :
    s.moves = 0 ∧ ∀ s', step env c fuel t start s ≠ .ok s' := by
  have h0 : s.moves = 0 := by
    unfold nextMoves at hm
    simp only at hm
    split at hm
    · cases hm
    rw [if_neg (by rw [not_or]; exact ⟨hp1.ne, by intro h; rw [h] at hp; linarith⟩), Option.some.injEq] at hm
    have h1 : Real.log c.const ≤ 0 := Real.log_nonpos hc0.le hc1
    have hlt : Real.log (1 - (acc : ℝ) / (r * k : ℤ)) < Real.log c.const := Real.log_lt_log (by linarith) (by linarith)
    have hneg : Real.log (1 - (acc : ℝ) / (r * k : ℤ)) < 0 := by linarith
    have hq : 0 ≤ Real.log c.const / Real.log (1 - (acc : ℝ) / (r * k : ℤ)) := div_nonneg_of_nonpos h1 hneg.le
    rw [← hm, pyInt, if_pos hq, Int.floor_eq_iff]
    refine ⟨by simpa using hq, ?_⟩
    rw [div_lt_iff_of_neg hneg]
    simpa using hlt
  refine ⟨h0, fun s' h => ?_⟩
  obtain ⟨eps, out, ds, r, m, -, -, -, -, -, -, hm', -⟩ := step_spec env c fuel t start s s' h
  simp [nextMoves, h0] at hm'

/-! ### Concrete runs and C46 -/

theorem pyRound_one : pyRound ((2 : ℕ) * (1 / 2)) = 1 := by
  have h1 : ((2 : ℕ) * (1 / 2) : ℝ) = 1 := by norm_num
  rw [h1]
  have : Int.fract (1 : ℝ) = 0 := Int.fract_one
  simp [pyRound]

/-- Two particles, two steps. -/
noncomputable def exConfig (final : ℝ) : Config := ⟨2, 2, 1 / 2, 1, final, 1 / 100, true⟩

theorem exConfig_drop (final : ℝ) : (exConfig final).drop = 1 := by
  simp only [Config.drop, exConfig]
  rw [pyRound_one]; rfl

def exStart (t : Nat) : List (Unit × ℝ) := if t = 0 then [((), 0), ((), 0)] else [((), 0)]

/-- After the first step both particles have the value and the distance 1. -/
theorem exRun_first (final : ℝ) (hf : final ≤ 1) : step exEnv (exConfig final) 2 0 (exStart 0) ⟨[], none, 1, [], [], 0⟩ =
    .ok ⟨[1], some ([1], [1]), 1, [⟨1, 1, [1, 1], [1, 1]⟩], [⟨1, 1, [1, 1], [1, 1]⟩], 2⟩ := by
  have hd := exConfig_drop final
  have hnot : ¬ (1 : ℝ) < final := not_lt.2 hf
  norm_num [step, threshold, exStart, wanted, exConfig, hnot, seen, accept, priorLoop, exEnv, above, collect, nextMoves, base, trim]
  rw [show (⟨2, 2, 1 / 2, 1, final, 1 / 100, true⟩ : Config) = exConfig final from rfl, hd]
  simp

/-- In the second step the threshold is again 1 and the replenished particle has the old value with the distance of the proposal. -/
theorem exRun_second (final : ℝ) (hf : final ≤ 1) : step exEnv (exConfig final) 2 1 (exStart 1)
      ⟨[1], some ([1], [1]), 1, [⟨1, 1, [1, 1], [1, 1]⟩], [⟨1, 1, [1, 1], [1, 1]⟩], 2⟩ =
    .ok ⟨[1, 1], some ([1], [1 / 2]), 1, [⟨1, 1, [1, 1], [1, 1]⟩, ⟨1, 1, [1, 1], [1, 1 / 2]⟩], [⟨1, 1, [1, 1], [1, 1]⟩, ⟨1, 1, [1, 1], [1, 1 / 2]⟩], 3⟩ := by
  have hd := exConfig_drop final
  have hnot : ¬ (1 : ℝ) < final := not_lt.2 hf
  have hd' : (⟨2, 2, 1 / 2, 1, final, 1 / 100, true⟩ : Config).drop = 1 := hd
  norm_num [step, threshold, exStart, wanted, exConfig, hnot, seen, accept, moveLoop, propose, exEnv, above, collect, nextMoves, base, trim, hd']

/-- The hypotheses of C48 are satisfiable: a run of two steps. -/
theorem exRun : run exEnv (exConfig 0) 2 exStart =
    .ok ⟨[1, 1], some ([1], [1 / 2]), 1, [⟨1, 1, [1, 1], [1, 1]⟩, ⟨1, 1, [1, 1], [1, 1 / 2]⟩], [⟨1, 1, [1, 1], [1, 1]⟩, ⟨1, 1, [1, 1], [1, 1 / 2]⟩], 3⟩ := by
  unfold run
  rw [show (exConfig 0).steps = 2 from rfl, loop, exRun_first 0 (by norm_num)]
  simp only
  rw [loop, exRun_second 0 (by norm_num)]
  simp only [loop]

/-- C46 is violated: a run of `RSMCABC` whose threshold falls below `epsilon_final` never returns a journal. All runs that end keep their
thresholds at or above `epsilon_final`, and a step that finds the threshold below fails in the call that should log the stop. -/
theorem C46_rsmc_violated (fuel : Nat) (start : Nat → List (W × Θ)) :
    (∀ s, run env c fuel start = .ok s → ∀ e ∈ s.epsilons, c.epsFinal ≤ e) ∧
    ∀ t l s eps, threshold c s = some eps → eps < c.epsFinal → step env c fuel t l s = .error .stopping := by
  constructor
  · intro s h
    exact loop_inv env c fuel start (fun _ s => ∀ e ∈ s.epsilons, c.epsFinal ≤ e)
      (fun t s s' hI hs => by
        obtain ⟨eps, out, ds, r, m, -, hfin, -, -, -, -, -, -, rfl⟩ := step_spec env c fuel t (start t) s s' hs
        intro e he
        rcases List.mem_append.1 he with he | he
        · exact hI e he
        · simp only [List.mem_singleton] at he; rw [he]; exact hfin) c.steps 0 _ s (by simp) h
  · intro t l s eps h1 h2
    unfold step
    rw [h1]
    simp only
    rw [if_pos h2]

/-- A run that carries out one step, falls below `epsilon_final = 3 / 2` with its second threshold 1, and fails. -/
theorem C46_rsmc_run_violated : run exEnv ⟨2, 2, 1 / 2, 2, 3 / 2, 1 / 100, true⟩ 2 exStart = .error .stopping := by
  have hd' : (⟨2, 2, 1 / 2, 2, 3 / 2, 1 / 100, true⟩ : Config).drop = 1 := by
    simp only [Config.drop]
    rw [pyRound_one]; rfl
  have h1 : step exEnv ⟨2, 2, 1 / 2, 2, 3 / 2, 1 / 100, true⟩ 2 0 (exStart 0) ⟨[], none, 1, [], [], 0⟩ =
      .ok ⟨[2], some ([1], [1]), 1, [⟨2, 1, [1, 1], [1, 1]⟩], [⟨2, 1, [1, 1], [1, 1]⟩], 2⟩ := by
    norm_num [step, threshold, exStart, wanted, seen, accept, priorLoop, exEnv, above, collect, nextMoves, base, trim, hd']
    simp
  unfold run
  rw [show (⟨2, 2, 1 / 2, 2, 3 / 2, 1 / 100, true⟩ : Config).steps = 2 from rfl, loop, h1]
  simp only
  rw [loop, (C46_rsmc_violated exEnv ⟨2, 2, 1 / 2, 2, 3 / 2, 1 / 100, true⟩ 2 exStart).2 1 _ _ 1 rfl (by norm_num)]

end Verif.Rsmc
