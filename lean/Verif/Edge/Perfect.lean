import Verif.Rejection.Props
import Verif.Pmc.Lemmas
import Verif.Rsmc.Props
import Verif.Subsim.Model
import Verif.Apmc.Model
/-
C216: a simulation as close to the observation as is possible (say, one that reproduces it) is accepted by every sampler, whatever its threshold.
-/
namespace Verif.Edge

open Verif.Pmc (Pop above)
open Verif.Smc (below)

/-! ### RejectionABC and PMCABC: what holds -/

/-- C216 for `RejectionABC`: if no data set is closer than `m` and the threshold can be met at all, then a worker stops at the latest with the first trial that has distance `m`: it
returns, after at most `k + 1` trials. -/
theorem C216_rejectionabc_partial {W Θ Y D : Type} [LinearOrder D] (trial : W → W × Θ × Option Y) (dist : Y → D) (distMax eps m : D) (hmax : eps < distMax)
    (hm : m ≤ eps) (fuel : Nat) (w : W) (k : Nat) (y : Y) (hy : (trial (Rejection.after trial w k)).2.2 = some y) (hd : dist y = m) (hf : k + 2 ≤ fuel) :
    ∃ θ d c w', Rejection.rejectTask trial dist distMax eps fuel w = .done (θ, d, c, w') ∧ c ≤ k + 1 := by
  obtain ⟨h1, h2, h3⟩ := Rejection.C36_task trial dist distMax eps hmax fuel w
  have h3' := h3 k y hy (hd ▸ hm) hf
  cases h : Rejection.rejectTask trial dist distMax eps fuel w with
  | running => exact absurd h h3'
  | unbound => exact absurd h h2
  | done r =>
    obtain ⟨θ, d, c, w'⟩ := r
    refine ⟨θ, d, c, w', rfl, ?_⟩
    obtain ⟨-, -, -, -, -, h4⟩ := h1 θ d c w' h
    by_contra hc
    exact absurd (h4 k (by omega) y hy) (not_lt.2 (hd ▸ hm))

/-- C216 for `PMCABC`, with or without a previous population: a worker returns the first of its proposals if the data simulated from it have the smallest possible distance, also if
the threshold is this distance. -/
theorem C216_pmcabc_partial {W Θ Y : Type} (env : Pmc.Env W Θ Y) (eps m : ℝ) (hm : m ≤ eps) (hmax : above env.distMax eps = true) (fuel : Nat) (w : W) :
    (env.dist (env.sim (env.prior w).2 (env.prior w).1).2 = m →
      Pmc.resampleTask env eps none (fuel + 2) w = some ((env.prior w).2, m, 1)) ∧
    ∀ (p : Pop Θ) (w' : W) (θ : Θ), Pmc.proposeLoop env p (env.choose p.weights w).2 (fuel + 1) (env.choose p.weights w).1 = some (w', θ) →
      env.dist (env.sim θ w').2 = m → Pmc.resampleTask env eps (some p) (fuel + 2) w = some (θ, m, 1) := by
  have hn : above (some m) eps = false := by simpa [above] using hm
  constructor
  · intro h
    rw [Pmc.resampleTask, Pmc.resampleLoop, if_pos hmax]
    simp only [h]
    rw [Pmc.resampleLoop]
    simp [hn]
  · intro p w' θ hp h
    rw [Pmc.resampleTask, Pmc.resampleLoop, if_pos hmax]
    simp only [hp, h]
    rw [Pmc.resampleLoop]
    simp [hn]

/-! ### RSMCABC -/

section
open Rsmc
variable {W Θ Y : Type} (env : Rsmc.Env W Θ Y) (c : Rsmc.Config)

theorem moveLoop_none (fuel : Nat) (m : ℝ) (hm : ∀ y, m ≤ env.dist y) (p : Pop Θ) (i : Nat) (θ : Θ) (dθ : ℝ) (r : Nat) (w : W) (held : Θ) (d : Option ℝ)
    (acc n : Nat) (o : Out Θ) (h : moveLoop env fuel m p i θ dθ r w held d acc n = some o) : o.accepted = acc ∧ (1 ≤ r → o.θ = θ ∧ o.d = some dθ) := by
  induction r generalizing w held d acc n with
  | zero =>
    simp only [moveLoop, Option.some.injEq] at h
    subst h
    simp
  | succ r ih =>
    rw [moveLoop] at h
    cases hp : Smc.propose env.pdf (env.perturb p i) fuel w with
    | none => rw [hp] at h; cases h
    | some q =>
      obtain ⟨w', θ'⟩ := q
      rw [hp] at h
      simp only [if_neg (not_lt.2 (hm _))] at h
      obtain ⟨h1, h2⟩ := ih _ _ _ _ _ h
      refine ⟨h1, fun _ => ?_⟩
      by_cases hr : r = 0
      · subst hr
        simp only [moveLoop, Option.some.injEq] at h
        subst h
        exact ⟨rfl, rfl⟩
      · exact h2 (by omega)

/-- C216 is violated in `RSMCABC`: if the threshold is the smallest possible distance, then every proposal is rejected, also one whose data have this distance; what is
returned is the old particle with its old distance. -/
theorem C216_rsmcabc_move_violated (fuel : Nat) (m : ℝ) (hm : ∀ y, m ≤ env.dist y) (p : Pop Θ) (ds : List ℝ) (r : Nat) (hr : 1 ≤ r) (w : W) (held : Θ) (o : Out Θ)
    (h : accept env fuel m (some (p, ds)) r w held = some o) :
    o.accepted = 0 ∧ ∃ i : Nat, p.params[i]? = some o.θ ∧ ∃ d, ds[i]? = some d ∧ o.d = some d := by
  obtain ⟨θ, dθ, h1, h2, h3⟩ := accept_some env fuel m p ds r w held o h
  obtain ⟨h4, h5⟩ := moveLoop_none env fuel m hm p _ θ dθ r _ held _ 0 0 o h3
  obtain ⟨h6, h7⟩ := h5 hr
  exact ⟨h4, _, h6 ▸ h1, dθ, h2, h7⟩

/-- All kept particles have distance `m`, and are among the values `K`. -/
structure Frozen (m : ℝ) (K : List Θ) (s : State Θ) : Prop where
  kept : ∃ k, s.kept = some k ∧ k.1.length = c.n - c.drop ∧ k.2.length = c.n - c.drop ∧ k.2 ≠ [] ∧ (∀ d ∈ k.2, d = m) ∧ ∀ θ ∈ k.1, θ ∈ K
  moves : 1 ≤ s.moves

theorem last_eq (m : ℝ) (l : List ℝ) (hl : l ≠ []) (h : ∀ d ∈ l, d = m) : l.getLast? = some m := by
  rw [List.getLast?_eq_some_getLast hl, h _ (List.getLast_mem hl)]

theorem frozen_step (m : ℝ) (hm : ∀ y, m ≤ env.dist y) (K : List Θ) (fuel t : Nat) (start : List (W × Θ)) (s s' : State Θ) (hF : Frozen c m K s)
    (h : step env c fuel t start s = .ok s') :
    Frozen c m K s' ∧ s'.moves = 1 ∧ ∃ r : Rec Θ, s'.hist = s.hist ++ [r] ∧ r.eps = m ∧ (∀ θ ∈ r.params, θ ∈ K) ∧ ∀ d ∈ r.distances, d = m := by
  obtain ⟨k, hk, l1, l2, l3, l4, l5⟩ := hF.kept
  have hpos : 0 < c.n - c.drop := l2 ▸ List.length_pos_iff.2 l3
  have hthr : threshold c s = some m := by simp only [threshold, hk]; exact last_eq m k.2 l3 l4
  have hw : wanted c s = c.drop := by simp [wanted, hk]
  unfold step at h
  rw [hthr] at h
  simp only at h
  split at h
  · cases h
  split at h
  · cases h
  rename_i hst
  rw [not_or, hw] at hst
  obtain ⟨hst1, hst2⟩ := hst
  rw [ne_eq, not_not] at hst1
  split at h
  · cases h
  rename_i out hout
  split at h
  · cases h
  rename_i ds hds
  split at h
  · cases h
  rename_i moves hmoves
  simp only [Except.ok.injEq] at h
  subst h
  have hlen : out.length = start.length := by have := congrArg List.length ((collect_eq_some _ _).1 hout); simpa using this.symm
  have hdlen : ds.length = out.length := by have := congrArg List.length ((collect_eq_some _ _).1 hds); simpa using this.symm
  have hacc : ∀ o ∈ out, o.accepted = 0 ∧ o.θ ∈ K ∧ o.d = some m := by
    intro o ho
    obtain ⟨e, -, he⟩ : ∃ e ∈ start, accept env fuel m (seen s) s.moves.toNat e.1 e.2 = some o := by
      have : some o ∈ start.map fun e => accept env fuel m (seen s) s.moves.toNat e.1 e.2 := by
        rw [(collect_eq_some _ _).1 hout]; exact List.mem_map.2 ⟨o, ho, rfl⟩
      obtain ⟨e, h1, h2⟩ := List.mem_map.1 this
      exact ⟨e, h1, h2⟩
    simp only [seen, hk, Option.map_some] at he
    obtain ⟨a, i, b, d, e1, e2⟩ := C216_rsmcabc_move_violated env fuel m hm _ _ _ (by have := hF.moves; omega) _ _ o he
    exact ⟨a, l5 _ (List.mem_of_getElem? b), by rw [e2, l4 d (List.mem_of_getElem? e1)]⟩
  have hsum : (out.map Out.accepted).sum = 0 := by
    rw [List.sum_eq_zero]
    intro x hx
    obtain ⟨o, ho, rfl⟩ := List.mem_map.1 hx
    exact (hacc o ho).1
  have hds' : ∀ d ∈ ds, d = m := by
    intro d hd
    have : some d ∈ out.map Out.d := by rw [(collect_eq_some _ _).1 hds]; exact List.mem_map.2 ⟨d, hd, rfl⟩
    obtain ⟨o, ho, h1⟩ := List.mem_map.1 this
    rw [(hacc o ho).2.2, Option.some.injEq] at h1
    exact h1.symm
  have hmv : moves = 1 := by
    rw [hsum] at hmoves
    unfold nextMoves at hmoves
    simp only [Nat.cast_zero, zero_div, or_true, if_true] at hmoves
    split at hmoves
    · cases hmoves
    · exact (Option.some.inj hmoves).symm
  have hb : base c s out.length = k := by
    have : out.length ≠ c.n := by omega
    simp [base, this, hk]
  rw [hb]
  have hP : ∀ θ ∈ k.1 ++ out.map Out.θ, θ ∈ K := by
    intro θ hθ
    rcases List.mem_append.1 hθ with h1 | h1
    · exact l5 θ h1
    · obtain ⟨o, ho, rfl⟩ := List.mem_map.1 h1
      exact (hacc o ho).2.1
  have hD : ∀ d ∈ k.2 ++ ds, d = m := by
    intro d hd
    rcases List.mem_append.1 hd with h1 | h1
    · exact l4 d h1
    · exact hds' d h1
  obtain ⟨t1, t2, -, t4⟩ := trim_spec c (k.1 ++ out.map Out.θ) (k.2 ++ ds) (by simp; omega) (by simp; omega)
  refine ⟨⟨⟨_, rfl, t1, t2, ?_, ?_, ?_⟩, by simp [hmv]⟩, hmv, _, rfl, rfl, hP, hD⟩
  · rw [← List.length_pos_iff, t2]; exact hpos
  · intro d hd
    obtain ⟨i, hi⟩ := List.mem_iff_getElem?.1 hd
    have hi' : i < c.n - c.drop := by rw [← t2]; exact (List.getElem?_eq_some_iff.1 hi).1
    obtain ⟨j, -, h2⟩ := t4 i _ d (List.getElem?_eq_getElem (by rw [t1]; exact hi')) hi
    exact hD d (List.mem_of_getElem? h2)
  · intro θ hθ
    obtain ⟨i, hi⟩ := List.mem_iff_getElem?.1 hθ
    have hi' : i < c.n - c.drop := by rw [← t1]; exact (List.getElem?_eq_some_iff.1 hi).1
    obtain ⟨j, h1, -⟩ := t4 i θ _ hi (List.getElem?_eq_getElem (by rw [t2]; exact hi'))
    exact hP θ (List.mem_of_getElem? h1)

/-- C216 is violated in `RSMCABC`, for the rest of a run: once all kept particles have the smallest possible distance, all later steps have this distance as threshold and
accept nothing, although proposals may reproduce the observation as well as the kept particles do: all later populations consist of copies of the particles that were kept. -/
theorem C216_rsmcabc_run_violated (m : ℝ) (hm : ∀ y, m ≤ env.dist y) (fuel : Nat) (start : Nat → List (W × Θ)) (j t : Nat) (s s' : State Θ)
    (k : List Θ × List ℝ) (hk : s.kept = some k) (h1 : k.1.length = c.n - c.drop) (h2 : k.2.length = c.n - c.drop) (h3 : k.2 ≠ []) (h4 : ∀ d ∈ k.2, d = m)
    (hr : 1 ≤ s.moves) (h : loop env c fuel start j t s = .ok s') :
    ∃ l, s'.hist = s.hist ++ l ∧ l.length = j ∧ ∀ r ∈ l, r.eps = m ∧ (∀ θ ∈ r.params, θ ∈ k.1) ∧ ∀ d ∈ r.distances, d = m := by
  have hF : Frozen c m k.1 s := ⟨⟨k, hk, h1, h2, h3, h4, fun _ => id⟩, hr⟩
  clear hk h1 h2 h3 h4 hr
  induction j generalizing t s with
  | zero =>
    simp only [loop, Except.ok.injEq] at h
    exact ⟨[], by simp [h], rfl, by simp⟩
  | succ j ih =>
    rw [loop] at h
    cases hs : step env c fuel t (start t) s with
    | error e => rw [hs] at h; cases h
    | ok s1 =>
      rw [hs] at h
      obtain ⟨hF', -, r, e1, e2⟩ := frozen_step env c m hm k.1 fuel t (start t) s s1 hF hs
      obtain ⟨l, a1, a2, a3⟩ := ih _ _ h hF'
      refine ⟨r :: l, by simp [a1, e1], by simp [a2], ?_⟩
      intro q hq
      rcases List.mem_cons.1 hq with rfl | hq
      · exact e2
      · exact a3 q hq

end

/-! ### ABCsubsim -/

/-- C216 is violated in `ABCsubsim`: if the annealing parameter is the smallest possible distance, then the chains do not move (if an event of probability zero does not happen), whatever the
data simulated from the proposals. -/
theorem C216_abcsubsim_violated {W Θ Y M : Type} (env : Subsim.Env W Θ Y M) (m : ℝ) (hm : ∀ y, m ≤ env.dist y) (hb : ∀ w, (env.bern 0 w).2 = false) (fuel : Nat)
    (covs : List M) (base : Θ) (k : Nat) (w : W) (θ : Θ) (d : ℝ) (r : List Θ × List ℝ) (h : Subsim.chain env fuel covs m base k w θ d = some r) :
    r = (List.replicate k θ, List.replicate k d) := by
  induction k generalizing w r with
  | zero => simp only [Subsim.chain, Option.some.injEq] at h; simp [← h]
  | succ k ih =>
    rw [Subsim.chain] at h
    cases hp : Smc.propose env.pdf (env.perturb covs base) fuel w with
    | none => rw [hp] at h; cases h
    | some q =>
      obtain ⟨w', θ'⟩ := q
      rw [hp] at h
      have h0 : Subsim.prob env covs m θ θ' (env.dist (env.sim θ' w').2) = 0 := by
        simp [Subsim.prob, not_lt.2 (hm _)]
      simp only [h0, hb, Bool.false_eq_true, if_false, Option.map_eq_some_iff] at h
      obtain ⟨r', h1, rfl⟩ := h
      rw [ih _ _ h1]
      rfl

/-! ### SMCABC -/

/-- C216 is violated in `SMCABC`: if the new threshold is the smallest possible distance, all particles lose their weight, also those whose data have this distance (in the code all
weights become NaN). -/
theorem C216_smcabc_violated {W Θ Y : Type} (env : Smc.Env W Θ Y) (c : Smc.Config) (old m : ℝ) (p : Smc.Rec Θ Y)
    (hd : ∀ d ∈ p.distances, m ≤ d) (hs : ∀ y ∈ p.sims, ∀ d ∈ env.dists y, m ≤ d) : Smc.newWeights env c old m p = none := by
  unfold Smc.newWeights
  simp only
  rw [if_pos]
  cases c.bernton with
  | true =>
    simp only [if_true, Smc.berntonWeights]
    rw [List.sum_eq_zero]
    intro x hx
    obtain ⟨d, h1, rfl⟩ := List.mem_map.1 hx
    exact if_neg (not_lt.2 (hd d h1))
  | false =>
    simp only [Bool.false_eq_true, if_false, Smc.dmWeights]
    rw [List.sum_eq_zero]
    intro x hx
    obtain ⟨i, hi, rfl⟩ := List.mem_iff_getElem.1 hx
    rw [List.getElem_zipWith, List.getElem_map]
    have h0 : below m (env.dists (p.sims[i]'(by simp at hi; omega))) = 0 := by
      unfold below
      rw [Nat.cast_eq_zero, List.countP_eq_zero]
      intro d h1
      simpa using hs _ (List.getElem_mem _) d h1
    simp [h0]

/-! ### APMCABC -/

section
open Apmc
variable {W Θ Y : Type} (env : Apmc.Env W Θ Y) (c : Apmc.Config)

theorem select_none {α β : Type} (p : β → Bool) (l : List β) (h : ∀ x ∈ l, p x = false) (l' : List α) : select (l.map p) l' = [] := by
  induction l generalizing l' with
  | nil => simp [select]
  | cons x l ih =>
    cases l' with
    | nil => simp [select, h x (by simp)]
    | cons y l' => simp [select, h x (by simp), ih fun z hz => h z (by simp [hz])]

/-- C216 is violated in `APMCABC`: if the threshold of a step is the smallest possible distance (as it is if sufficiently many particles reproduce the observation), then no particle is carried
over, not even those with this distance, and the next step fails. -/
theorem C216_apmcabc_violated (m : ℝ) (s : State Θ) (p : List Θ × List ℝ × List ℝ) (hd : ∀ d ∈ p.2.1, m ≤ d) (hs : s.hist.getLast? = some (keep m p)) :
    (keep m p).keptParams = [] ∧ ∀ fuel t start, step env c fuel t start s = none := by
  have h0 : (keep m p).keptParams = [] := by
    unfold keep
    exact select_none _ _ (fun d h => by simpa using hd d h) _
  refine ⟨h0, fun fuel t start => ?_⟩
  unfold step
  split
  · rfl
  rename_i hst
  rw [not_or] at hst
  obtain ⟨w, l, rfl⟩ := List.exists_cons_of_ne_nil hst.2
  have : collect ((w :: l).map fun w => accept env fuel (seen s) w) = none := by
    have ha : accept env fuel (seen s) w = none := by
      simp [seen, hs, accept, h0]
    rw [List.map_cons, ha]
    rfl
  rw [this]

/-- C216 is violated in `APMCABC`, for whole runs: if all data sets have the same distance (they all reproduce the observation, say), no run of two or more steps returns. -/
theorem C216_apmcabc_run_violated (m : ℝ) (hm : ∀ y, env.dist y = m) (hn : 2 ≤ c.steps) (hc : c.cutoff ≤ 1) (fuel : Nat) (start : Nat → List W) :
    run env c fuel start = none := by
  obtain ⟨k, hk⟩ : ∃ k, c.steps = k + 2 := ⟨c.steps - 2, by omega⟩
  unfold run
  rw [hk, loop]
  simp only [Bool.false_eq_true, if_false]
  cases h0 : step env c fuel 0 (start 0) ⟨[], [], [], false⟩ with
  | none => rfl
  | some s =>
    simp only
    unfold step at h0
    split at h0
    · cases h0
    rename_i hst
    rw [not_or, ne_eq, not_not] at hst
    split at h0
    · cases h0
    rename_i out hout
    split at h0
    · cases h0
    rename_i eps heps
    simp only [Option.some.injEq] at h0
    have hlen : out.length = c.n := by
      have := congrArg List.length ((collect_eq_some _ _).1 hout)
      simp only [List.length_map] at this
      rw [← this, hst.1]
      simp [wanted]
    have hacc : acceptance c (⟨[], [], [], false⟩ : State Θ) out = 1 := by simp [acceptance, hlen]
    have hd : ∀ d ∈ (merge c (⟨[], [], [], false⟩ : State Θ) out).2.1, d = m := by
      intro d hd
      simp only [merge, if_pos hlen, List.mem_map] at hd
      obtain ⟨o, ho, rfl⟩ := hd
      have : some o ∈ (start 0).map fun w => accept env fuel (seen (⟨[], [], [], false⟩ : State Θ)) w := by
        rw [(collect_eq_some _ _).1 hout]; exact List.mem_map.2 ⟨o, ho, rfl⟩
      obtain ⟨w, -, h1⟩ := List.mem_map.1 this
      simp only [seen, List.getLast?_nil, Option.map_none, accept, Option.some.injEq] at h1
      rw [← h1]
      exact hm _
    have he : eps = m := by
      obtain ⟨a, b⟩ := Pmc.percentile_some _ _ _ heps m m fun y hy => by simp [hd y hy]
      exact le_antisymm b a
    subst he
    have hs : s.hist.getLast? = some (keep eps (merge c (⟨[], [], [], false⟩ : State Θ) out)) := by rw [← h0]; simp
    have hstop : s.stopped = false := by rw [← h0]; simp [hacc, hc]
    rw [loop, hstop]
    simp only [Bool.false_eq_true, if_false]
    rw [(C216_apmcabc_violated env c eps s _ (fun d h => (hd d h).ge) hs).2]

end

/-! ### Examples -/

/-- A trial that reproduces the observation at once, with threshold zero. -/
example : ∃ θ d c w', Rejection.rejectTask (fun w : Unit => (w, (7 : Nat), some (0 : Nat))) id 1 0 2 () = .done (θ, d, c, w') ∧ c ≤ 0 + 1 :=
  C216_rejectionabc_partial _ id 1 0 0 (by decide) le_rfl 2 () 0 0 rfl rfl le_rfl

/-- A model that always reproduces the observation. -/
noncomputable def perfectPmc : Pmc.Env Unit ℝ Unit where
  distMax := none
  dist _ := 0
  pdf _ := 1
  kernel _ _ _ := 1
  prior w := (w, 3)
  choose _ w := (w, 0)
  perturb p i w := (w, p.params[i]?)
  sim _ w := (w, ())
  held _ := 0

/-- With threshold zero the worker returns its first proposal. -/
example : Pmc.resampleTask perfectPmc 0 none 2 () = some (3, 0, 1) ∧ Pmc.resampleTask perfectPmc 0 (some ⟨[5], [1]⟩) 2 () = some (5, 0, 1) := by
  have h := C216_pmcabc_partial perfectPmc 0 0 le_rfl rfl 0 ()
  exact ⟨h.1 rfl, h.2 ⟨[5], [1]⟩ () 5 (by norm_num [Pmc.proposeLoop, perfectPmc]) rfl⟩

/-- The same model for `RSMCABC`; proposals add one. -/
noncomputable def perfectRsmc : Rsmc.Env Unit ℝ Unit where
  distMax := none
  dist _ := 0
  pdf _ := 1
  kernel _ _ _ := 1
  prior w := (w, 3)
  choose _ w := (w, 0)
  perturb p i w := (w, (p.params[i]?).map (· + 1))
  sim _ w := (w, ())
  bern _ w := (w, true)

noncomputable def perfectConfig : Rsmc.Config := ⟨2, 2, 1 / 2, 1, 0, 1 / 2, true⟩

theorem perfect_drop : perfectConfig.drop = 1 := by
  simp only [Rsmc.Config.drop, perfectConfig]
  rw [Rsmc.pyRound_one]; rfl

/-- A step from one kept particle with distance zero: the proposal has distance zero too, but the new particle is a copy of the old one. -/
example : ∃ s', Rsmc.loop perfectRsmc perfectConfig 1 (fun _ => [((), 0)]) 1 1 ⟨[1], some ([3], [0]), 1, [], [], 0⟩ = .ok s' ∧
    s'.hist.map Rsmc.Rec.params = [[3, 3]] := by
  refine ⟨⟨[1, 0], some (Rsmc.trim perfectConfig [3, 3] [0, 0]), 1, [⟨0, 1, [3, 3], [0, 0]⟩], [⟨0, 1, [3, 3], [0, 0]⟩], 1⟩, ?_, rfl⟩
  rw [Rsmc.loop, Rsmc.step]
  simp only [Rsmc.threshold, Rsmc.wanted, perfect_drop]
  norm_num [Rsmc.seen, Rsmc.accept, Rsmc.moveLoop, Smc.propose, perfectRsmc, collect, Rsmc.nextMoves, Rsmc.base, perfectConfig, Rsmc.loop]

/-- The same model for `ABCsubsim`. -/
noncomputable def perfectSubsim : Subsim.Env Unit ℝ Unit Unit where
  dist _ := 0
  pdf _ := 1
  kernel _ _ _ := 1
  prior w := (w, 3)
  perturb _ b w := (w, some (b + 1))
  sim _ w := (w, ())
  bern p w := (w, decide (0 < p))
  cov _ := []
  scale _ := id

example : Subsim.chain perfectSubsim 1 [] 0 3 2 () 3 0 = some ([3, 3], [0, 0]) ∧ ∀ w, (perfectSubsim.bern 0 w).2 = false := by
  refine ⟨?_, fun _ => by simp [perfectSubsim]⟩
  norm_num [Subsim.chain, Subsim.prob, Smc.propose, perfectSubsim]

/-- The same model for `SMCABC`: a population in which all data reproduce the observation, final threshold zero. -/
noncomputable def perfectSmc : Smc.Env Unit ℝ Unit where
  dist _ := 0
  dists _ := [0]
  pdf _ := 1
  kernel _ _ _ := 1
  prior w := (w, 3)
  perturb _ _ w := (w, some 4)
  around _ _ w := (w, some 4)
  sim _ w := (w, ())
  bern _ w := (w, true)
  pick _ w := (w, 0)

example (c : Smc.Config) : Smc.newWeights perfectSmc c 1 0 ⟨[3, 4], [(), ()], [0, 0], [1 / 2, 1 / 2]⟩ = none :=
  C216_smcabc_violated perfectSmc c 1 0 _ (by simp) (by simp [perfectSmc])

/-- The same model for `APMCABC`: two particles and two steps. -/
noncomputable def perfectApmc : Apmc.Env Unit ℝ Unit where
  dist _ := 0
  pdf _ := 1
  kernel _ _ _ := 1
  prior w := (w, 3)
  choose _ w := (w, 0)
  perturb p i w := (w, (p.params[i]?).map (· + 1))
  sim _ w := (w, ())

example : Apmc.run perfectApmc ⟨2, 2, 1 / 2, 1 / 10, true⟩ 5 (fun t => if t = 0 then [(), ()] else [()]) = none :=
  C216_apmcabc_run_violated perfectApmc _ 0 (fun _ => rfl) le_rfl (by norm_num) 5 _

end Verif.Edge
