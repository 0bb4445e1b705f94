import Verif.Smc.Moves
/-
C92: the runs of `SMCABC` are those of the specification.
-/
namespace Verif.Smc

open Verif.Pmc (Pop normalise)
open Spec

variable {W Θ Y A : Type} (env : Env W Θ Y) (c : Config) (dr : Draws)

/-! ### Bisection -/

theorem bisection_sign (f : ℝ → ℝ) (tol σ : ℝ) (fuel : Nat) (low high x : ℝ) (hlh : low ≤ high) (hl : 0 < σ * f low) (hh : σ * f high < 0)
    (h : bisection f tol fuel low high = some x) :
    f x = 0 ∨ ∃ a b, low ≤ a ∧ a ≤ x ∧ x ≤ b ∧ b ≤ high ∧ x - a ≤ tol ∧ b - x ≤ tol ∧ 0 < σ * f a ∧ σ * f b < 0 := by
  induction fuel generalizing low high with
  | zero => simp [bisection] at h
  | succ fuel ih =>
    rw [bisection] at h
    split at h
    · split at h
      · rename_i h0
        simp only [Option.some.injEq] at h
        subst h; exact .inl h0
      · rename_i h0
        have hs : σ ≠ 0 := by rintro rfl; simp at hl
        split at h
        · rename_i hneg
          have hm : σ * f ((low + high) / 2) < 0 := by
            by_contra hc
            push Not at hc
            have := mul_nonneg hl.le hc
            have h2 : 0 < σ ^ 2 := by positivity
            nlinarith
          rcases ih low ((low + high) / 2) (by linarith) hl hm h with h1 | ⟨a, b, h1, h2, h3, h4, h5⟩
          · exact .inl h1
          · exact .inr ⟨a, b, h1, h2, h3, by linarith, h5⟩
        · rename_i hneg
          have hm : 0 < σ * f ((low + high) / 2) := by
            have hne : σ * f ((low + high) / 2) ≠ 0 := mul_ne_zero hs h0
            by_contra hc
            have hc' : σ * f ((low + high) / 2) < 0 := lt_of_le_of_ne (not_lt.1 hc) hne
            have := mul_neg_of_pos_of_neg hl hc'
            have h2 : 0 < σ ^ 2 := by positivity
            have h3 : σ ^ 2 * (f low * f ((low + high) / 2)) < 0 := by linarith [this, show σ * f low * (σ * f ((low + high) / 2)) = σ ^ 2 * (f low * f ((low + high) / 2)) by ring]
            exact hneg (by by_contra hq; push Not at hq; have := mul_nonneg h2.le hq; linarith)
          rcases ih ((low + high) / 2) high (by linarith) hm hh h with h1 | ⟨a, b, h1, h2, h3, h4, h5⟩
          · exact .inl h1
          · exact .inr ⟨a, b, by linarith, h2, h3, h4, h5⟩
    · rename_i hw
      simp only [Option.some.injEq] at h
      subst h
      exact .inr ⟨low, high, le_refl _, by linarith, by linarith, le_refl _, by linarith, by linarith, hl, hh⟩

/-- If the function does not vanish and has the same sign everywhere, the search ends at the upper end. -/
theorem bisection_stuck (f : ℝ → ℝ) (tol σ : ℝ) (fuel : Nat) (low high x : ℝ) (hlh : low ≤ high) (hs : ∀ z, low ≤ z → z ≤ high → 0 < σ * f z)
    (h : bisection f tol fuel low high = some x) : high - tol ≤ x := by
  induction fuel generalizing low with
  | zero => simp [bisection] at h
  | succ fuel ih =>
    rw [bisection] at h
    have h1 := hs low (le_refl _) hlh
    have h2 := hs ((low + high) / 2) (by linarith) (by linarith)
    split at h
    · split at h
      · rename_i h0
        rw [h0] at h2; simp at h2
      · split at h
        · rename_i hneg
          have h3 : 0 < σ ^ 2 * (f low * f ((low + high) / 2)) := by
            have := mul_pos h1 h2
            linarith [show σ * f low * (σ * f ((low + high) / 2)) = σ ^ 2 * (f low * f ((low + high) / 2)) by ring]
          have h4 : σ ^ 2 * (f low * f ((low + high) / 2)) ≤ 0 := mul_nonpos_of_nonneg_of_nonpos (sq_nonneg _) hneg.le
          linarith
        · exact ih _ (by linarith) (fun z hz hz' => hs z (by linarith) hz') h
    · simp only [Option.some.injEq] at h
      subst h; linarith

/-! ### Weights -/

theorem list_sum_sq_div (l : List ℝ) (z : ℝ) : ((l.map fun x => x / z).map (· ^ 2)).sum = (l.map (· ^ 2)).sum / z ^ 2 := by
  induction l with
  | nil => simp
  | cons a l ih =>
    simp only [List.map_cons, List.sum_cons] at ih ⊢
    rw [ih]; ring

theorem ess_normalise (l : List ℝ) : ess (normalise l) = essRaw l := by
  unfold ess essRaw normalise
  rw [list_sum_sq_div]
  simp

theorem ess_one (l : List ℝ) (h : l.sum = 1) : ess l = essRaw l := by
  unfold ess essRaw
  rw [h]; ring

/-- The unnormalised weights of the model. -/
noncomputable def rawOf (e x : ℝ) (p : Rec Θ Y) : List ℝ :=
  if c.bernton then berntonWeights p.distances x else dmWeights p.weights (p.sims.map env.dists) e x

/-- All lists of the population have as many entries as there are parameters. -/
structure Even (p : Rec Θ Y) : Prop where
  sims : p.sims.length = p.params.length
  distances : p.distances.length = p.params.length
  weights : p.weights.length = p.params.length

theorem rawOf_spec (e x : ℝ) (p : Rec Θ Y) (hp : Even p) : RawWeights env c.bernton e x p (rawOf env c e x p) := by
  unfold rawOf
  refine ⟨?_, ?_⟩
  · split
    · simp [berntonWeights, hp.distances]
    · simp [dmWeights, hp.weights, hp.sims]
  · intro i wt y d hw hy hd
    unfold rawWeight
    split
    · unfold berntonWeights
      rw [List.getElem?_map, hd]
      simp only [Option.map_some]
    · rw [dm_getElem _ _ _ _ i wt (env.dists y) hw (by rw [List.getElem?_map, hy]; rfl)]
      simp only [closer_eq]

/-- The weights are determined by the specification. -/
theorem rawWeights_unique (e x : ℝ) (p : Rec Θ Y) (hp : Even p) (l : List ℝ) (h : RawWeights env c.bernton e x p l) : l = rawOf env c e x p := by
  have h' := rawOf_spec env c e x p hp
  apply List.ext_getElem?
  intro i
  by_cases hi : i < p.params.length
  · have a1 := h.2 i _ _ _ (List.getElem?_eq_getElem (hp.weights ▸ hi)) (List.getElem?_eq_getElem (hp.sims ▸ hi)) (List.getElem?_eq_getElem (hp.distances ▸ hi))
    have a2 := h'.2 i _ _ _ (List.getElem?_eq_getElem (hp.weights ▸ hi)) (List.getElem?_eq_getElem (hp.sims ▸ hi)) (List.getElem?_eq_getElem (hp.distances ▸ hi))
    rw [a1, a2]
  · rw [List.getElem?_eq_none (by rw [h.1]; omega), List.getElem?_eq_none (by rw [h'.1]; omega)]

theorem kept_iff (e x v : ℝ) (p : Rec Θ Y) (hp : Even p) : Kept env c dr e p x v ↔ v = kept c dr p (rawOf env c e x p) := by
  constructor
  · rintro ⟨l, h1, h2⟩
    rw [rawWeights_unique env c e x p hp l h1] at h2
    exact h2
  · intro h
    exact ⟨_, rawOf_spec env c e x p hp, h⟩

/-- The function of the bisection, with the sign that makes it grow with what is left. -/
theorem fun_eq (e x : ℝ) (p : Rec Θ Y) (hn : p.distances.length = c.n) (hs : p.weights.sum = 1) (hpos : 0 < essRaw p.weights) :
    ∃ σ : ℝ, σ ≠ 0 ∧ ∀ x, (if c.bernton then berntonFun dr.unique p.distances c.alpha else dmFun p.weights (p.sims.map env.dists) e c.alpha) x =
      σ * (kept c dr p (rawOf env c e x p) - c.alpha) ∧ (σ = 1 ∨ σ = - essRaw p.weights) := by
  by_cases hb : c.bernton = true
  · refine ⟨1, one_ne_zero, fun x => ⟨?_, .inl rfl⟩⟩
    simp only [hb, if_true, berntonFun, rawOf, kept, normalise, hn]
    by_cases h0 : (berntonWeights p.distances x).sum = 0
    · rw [if_neg (not_not.2 h0), if_pos h0]; ring
    · rw [if_pos h0, if_neg h0]; ring
  · refine ⟨-essRaw p.weights, neg_ne_zero.2 hpos.ne', fun x => ⟨?_, .inr rfl⟩⟩
    have hb' : c.bernton = false := by simpa using hb
    simp only [hb', Bool.false_eq_true, if_false, dmFun, rawOf, kept, ess_normalise, ess_one _ hs]
    by_cases h0 : (dmWeights p.weights (p.sims.map env.dists) e x).sum = 0
    · simp only [if_pos h0]; ring
    · simp only [if_neg h0]
      field_simp
      ring

theorem essRaw_pos (l : List ℝ) (h0 : ∀ x ∈ l, 0 ≤ x) (hs : l.sum = 1) : 0 < essRaw l := by
  unfold essRaw
  rw [hs]
  refine div_pos (by norm_num) ?_
  have : ∃ x ∈ l, 0 < x := by
    by_contra hc
    push Not at hc
    have h2 : ∀ l : List ℝ, (∀ x ∈ l, x ≤ 0) → l.sum ≤ 0 := by
      intro l
      induction l with
      | nil => simp
      | cons a l ih => intro h; rw [List.sum_cons]; linarith [h a (by simp), ih fun x hx => h x (by simp [hx])]
    linarith [h2 l hc]
  obtain ⟨x, hx, hx0⟩ := this
  exact sum_pos_of_mem _ (by intro y hy; obtain ⟨z, -, rfl⟩ := List.mem_map.1 hy; positivity) (x ^ 2) (List.mem_map_of_mem hx) (by positivity)

theorem threshold_spec (fuel : Nat) (e e' : ℝ) (p : Rec Θ Y) (hg : Good env c e p) (hc : c.final < e) (h : newEps env c dr fuel e p = some e') :
    Threshold env c dr e p e' := by
  have hp : Even p := ⟨by rw [hg.sims, hg.params], by rw [hg.distances, hg.params], by rw [hg.weights, hg.params]⟩
  obtain ⟨h1, h2⟩ := newEps_spec env c dr fuel e e' p h hc
  refine ⟨h1.le, h2, ?_⟩
  intro v v' hv hv' hlt hlt'
  rw [kept_iff env c dr e _ _ p hp] at hv hv'
  subst hv hv'
  obtain ⟨σ, hσ, hf⟩ := fun_eq env c dr e 0 p hg.distances hg.sum (essRaw_pos _ hg.nonneg hg.sum)
  unfold newEps at h
  rw [Option.map_eq_some_iff] at h
  obtain ⟨x, hx, he⟩ := h
  have hm := bisection_mem _ _ _ _ _ _ hx hc
  rw [if_neg (by linarith [hm.1])] at he
  subst he
  have s2 : 0 < σ ^ 2 := by positivity
  rcases bisection_sign _ 0.001 (-σ) fuel c.final e x hc.le (by rw [(hf _).1]; nlinarith) (by rw [(hf _).1]; nlinarith) hx with h0 | ⟨a, b, h3, h4, h5, h6, h7, h8, h9, h10⟩
  · left
    rw [kept_iff env c dr e _ _ p hp]
    rw [(hf x).1] at h0
    rcases mul_eq_zero.1 h0 with h0 | h0
    · exact absurd h0 hσ
    · linarith
  · right
    rw [(hf _).1] at h9 h10
    refine ⟨a, b, _, _, h3, h4, h5, h6, h7, h8, (kept_iff env c dr e _ _ p hp).2 rfl, ?_, (kept_iff env c dr e _ _ p hp).2 rfl, ?_⟩
    · by_contra hq
      push Not at hq
      have := mul_nonneg s2.le (sub_nonneg.2 hq)
      nlinarith
    · by_contra hq
      push Not at hq
      have := mul_nonneg s2.le (sub_nonneg.2 hq)
      nlinarith

theorem resampled_spec (t : Nat) (e e' : ℝ) (p : Rec Θ Y) (wts : List ℝ) (q : Pop Θ) (hw : newWeights env c e e' p = some wts)
    (h : resampled c dr t p.params wts = some q) : Resampled c dr t p (rawOf env c e e' p) q := by
  unfold newWeights at hw
  simp only at hw
  change (if (rawOf env c e e' p).sum = 0 then none else some (normalise (rawOf env c e e' p))) = some wts at hw
  split at hw
  · cases hw
  · rename_i h0
    simp only [Option.some.injEq] at hw
    subst hw
    refine ⟨h0, ?_⟩
    unfold resampled at h
    rw [ess_normalise] at h
    split at h
    · rename_i hc
      rw [if_pos hc]
      rw [Option.map_eq_some_iff] at h
      obtain ⟨l, hl, rfl⟩ := h
      rw [collect_eq_some] at hl
      have hlen := congrArg List.length hl
      simp only [List.length_map] at hlen
      refine ⟨hlen.symm, ?_, by simp [equalWeights]⟩
      intro i j hj
      have := congrArg (fun l : List (Option Θ) => l[i]?) hl
      simp only [List.getElem?_map] at this
      change (dr.choice t (normalise (rawOf env c e e' p)))[i]? = some j at hj
      rw [hj] at this
      simp only [Option.map_some] at this
      cases hli : l[i]? with
      | none => simp [hli] at this
      | some θ =>
        simp only [hli, Option.map_some, Option.some.injEq] at this
        exact ⟨θ, this, rfl⟩
    · rename_i hc
      rw [if_neg hc]
      simp only [Option.some.injEq] at h
      subst h
      exact ⟨rfl, rfl⟩

theorem moved_move (fuel : Nat) (eps : ℝ) (p : Pop Θ) (ys : List Y) (start : List W) (l : List (Out Θ Y))
    (h : moved env c fuel eps p ys start = some l) : l.length = start.length ∧
      ∀ (i : Nat) (o : Out Θ Y), l[i]? = some o → ∃ θ wt y w,
        p.params[i]? = some θ ∧ p.weights[i]? = some wt ∧ ys[i]? = some y ∧ start[i]? = some w ∧ Move env c.which c.r eps p i θ wt y w o := by
  unfold moved at h
  rw [collect_eq_some] at h
  have hlen := congrArg List.length h
  simp only [List.length_map, List.length_zipIdx] at hlen
  refine ⟨hlen.symm, ?_⟩
  intro i o ho
  have hi := congrArg (fun l : List (Option (Out Θ Y)) => l[i]?) h
  simp only [List.getElem?_map, ho, Option.map_some, List.getElem?_zipIdx] at hi
  cases hs : start[i]? with
  | none => simp [hs] at hi
  | some w =>
    simp only [hs, Option.map_some, Option.some.injEq, Nat.zero_add, Option.bind_eq_some_iff] at hi
    obtain ⟨θ, h1, wt, h2, y, h3, h4⟩ := hi
    exact ⟨θ, wt, y, w, h1, h2, h3, rfl, mcmc_move env _ _ _ _ _ _ _ _ _ _ _ h4⟩

theorem history_ne_nil (start : Nat → List W) (first : ℝ) (es : List ℝ) (ps : List (Rec Θ Y)) (k : Nat) (h : History env c dr start first es ps k) : ps ≠ [] := by
  cases h <;> simp

/-- **C92.** Every run of SMCABC that does anything is one of the specification: there is a history of thresholds and populations in which the first population comes from the prior, each later
threshold follows the rule, weights and resampling are as specified, and every particle is moved by the kernel that was asked for, with the new threshold. The thresholds reported are those of
the history, the reported number of simulations is the sum over all moves, the journal holds the whole history (full output) or the last population, if the last step was reached. -/
theorem C92_run (distMax : Option ℝ) (fuel : Nat) (start : Nat → List W) (s : State Θ Y) (hn : 0 < c.n)
    (h : smcRun env c dr distMax fuel start = some s) :
    (s.done = 0 ∧ s.last = none ∧ s.journal = [] ∧ s.epsilons = [distMax.getD (10 ^ 5)] ∧ s.counter = 0) ∨
    ∃ ps, History env c dr start (distMax.getD (10 ^ 5)) s.epsilons ps s.counter ∧ ps.length = s.done ∧ s.last = ps.getLast? ∧
      (c.full = true → s.journal = ps) ∧ (c.full = false → s.journal = if s.done = c.steps then ps.getLast?.toList else []) := by
  unfold smcRun at h
  split at h
  swap
  · cases h
  rename_i hcond
  obtain ⟨t', ht', hI, -⟩ := smcLoop_inv env c dr fuel start
    (fun t s => t = s.done ∧ (s.done ≤ c.steps → ((s.done = 0 ∧ s.last = none ∧ s.journal = [] ∧ s.epsilons = [distMax.getD (10 ^ 5)] ∧ s.counter = 0) ∨
      ∃ ps, History env c dr start (distMax.getD (10 ^ 5)) s.epsilons ps s.counter ∧ ps.length = s.done ∧ s.last = ps.getLast? ∧
        (∀ p, s.last = some p → Good env c s.cur p) ∧
        (c.full = true → s.journal = ps) ∧ (c.full = false → s.journal = if s.done = c.steps then ps.getLast?.toList else []))))
    (fun t s s' hI hc hs => by
      obtain ⟨ht, hI⟩ := hI
      have hgood := good_step env c dr hn fuel t (start t) (hcond.2.2 t) s s'
      have hsav : ∀ (past : List ℝ) (cur : ℝ) (weights : List ℝ) (outs : List (Out Θ Y)), (save c t s past cur weights outs).done = s.done + 1 := fun _ _ _ _ => rfl
      rcases smcStep_spec env c dr fuel t (start t) s s' hs with ⟨hl, hs'⟩ | ⟨p, eps, wts, q, l, hp, he, hw, hq, hl, hs'⟩
      · refine ⟨by rw [hs', hsav, ht], fun hle => .inr ?_⟩
        rw [hs', hsav] at hle
        rcases hI (by omega) with ⟨h1, h2, h3, h4, h5⟩ | ⟨ps, h1, h2, h3, -⟩
        · have ht0 : t = 0 := by omega
          refine ⟨[outRec (equalWeights c.n) ((start t).map (initial env))], ?_, by rw [hs', hsav, h1]; rfl, by rw [hs']; rfl,
            fun p hp => hgood (fun p hp' => by rw [h2] at hp'; cases hp') hc hs p hp, ?_, ?_⟩
          · rw [hs']
            have e1 : (save c t s s.past s.cur (equalWeights c.n) ((start t).map (initial env))).epsilons = [distMax.getD (10 ^ 5)] := h4
            have e2 : (save c t s s.past s.cur (equalWeights c.n) ((start t).map (initial env))).counter = (((start t).map (initial env)).map Out.count).sum := by
              simp [save, h5]
            rw [e1, e2]
            have hw : equalWeights c.n = List.replicate c.n (1 / (c.n : ℝ)) := by simp [equalWeights]
            unfold outRec
            rw [hw]
            refine .first _ ⟨by rw [ht0, List.length_map], ?_⟩
            intro i w hw
            refine ⟨_, _, _, _, rfl, rfl, ?_⟩
            rw [ht0, List.getElem?_map, hw]; rfl
          · intro hf; rw [hs']; simp [save, hf, h3]; omega
          · intro hf; rw [hs']; simp only [save, hf, h1, h3, ht0, Bool.false_eq_true, if_false, false_and, true_and, false_or, List.getLast?_singleton, Option.toList_some]
            by_cases hst : c.steps = 1
            · simp [hst]
            · rw [if_neg (by omega), if_neg (by omega)]
        · exfalso
          rw [hl] at h3
          have : ps = [] := List.getLast?_eq_none_iff.1 h3.symm
          exact history_ne_nil env c dr _ _ _ _ _ h1 this
      · refine ⟨by rw [hs', hsav, ht], fun hle => .inr ?_⟩
        rw [hs', hsav] at hle
        rcases hI (by omega) with ⟨h1, h2, h3, h4, h5⟩ | ⟨ps, h1, h2, h3, h4, h5, h6⟩
        · rw [hp] at h2; cases h2
        · rw [hp] at h3
          obtain ⟨ps', rfl⟩ : ∃ ps', ps = ps' ++ [p] := by
            rw [eq_comm, List.getLast?_eq_some_iff] at h3
            exact h3
          have hgp := h4 p hp
          have heven : Even p := ⟨by rw [hgp.sims, hgp.params], by rw [hgp.distances, hgp.params], by rw [hgp.weights, hgp.params]⟩
          have hlen : t = ps'.length + 1 := by rw [ht, ← h2]; simp
          refine ⟨ps' ++ [p] ++ [outRec q.weights l], ?_, by rw [hs', hsav, ← h2]; simp, by rw [hs']; simp [save],
            fun p' hp' => hgood (fun p0 hp0 => h4 p0 hp0) hc hs p' hp', ?_, ?_⟩
          · rw [hs']
            have e1 : (save c t s (s.past ++ [s.cur]) eps q.weights l).epsilons = s.past ++ [s.cur] ++ [eps] := rfl
            have e2 : (save c t s (s.past ++ [s.cur]) eps q.weights l).counter = s.counter + (l.map Out.count).sum := rfl
            rw [e1, e2]
            refine .step s.past s.cur eps ps' p s.counter q.weights l h1 hc ?_
            rw [← hlen]
            have hmm := moved_move env c fuel eps q p.sims (start t) l hl
            exact ⟨threshold_spec env c dr fuel s.cur eps p hgp hc he, _, q, rawOf_spec env c s.cur eps p heven, resampled_spec env c dr t s.cur eps p wts q hw hq, rfl,
              hmm.1, hmm.2⟩
          · intro hf; rw [hs']; simp [save, hf, h5 hf]; omega
          · intro hf
            have hne : ¬ s.done = c.steps := by omega
            have h6' := h6 hf
            rw [if_neg hne] at h6'
            rw [hs']
            simp only [save, hf, h6', Bool.false_eq_true, if_false, false_and, true_and, false_or, List.getLast?_append, List.getLast?_singleton, Option.some_or, Option.toList_some]
            by_cases hst : t = c.steps - 1
            · rw [if_pos hst, if_pos (by omega)]
            · rw [if_neg hst, if_neg (by omega)]) c.steps 0 _ _ ⟨rfl, fun _ => .inl ⟨rfl, rfl, rfl, rfl, rfl⟩⟩ h
  rcases hI.2 (by omega) with h1 | ⟨ps, h1, h2, h3, -, h5, h6⟩
  · exact .inl h1
  · exact .inr ⟨ps, h1, h2, h3, h5, h6⟩

end Verif.Smc
