import Verif.Apmc.Spec
import Verif.Apmc.Props
import Verif.Smc.RHit
/-
C100: runs of `APMCABC` are histories of the specification. C101: the weights of particles carried over and of new particles.
-/
namespace Verif.Apmc

open Verif.Pmc (Pop percentile normalise)
open Verif.Smc (propose propose_spec)
open Verif.Rsmc (pyRound)
open Spec

variable {W Θ Y : Type} (env : Env W Θ Y) (c : Config)

theorem accept_first (fuel : Nat) (w : W) (o : Out Θ) (h : accept env fuel none w = some o) : FirstTask env w o := by
  simp only [accept, Option.some.injEq] at h
  subst h
  exact ⟨_, _, _, rfl, rfl, rfl, rfl⟩

theorem mixture_eq (kept : List (Out Θ)) (θ : Θ) : mixture env (asPop kept) θ = proposalDensity env kept θ := by
  unfold mixture proposalDensity
  congr 1
  generalize hp : asPop kept = p
  have h1 : (asPop kept).weights = kept.map Out.weight := rfl
  have h2 : (asPop kept).params = kept.map Out.θ := rfl
  rw [← hp, h1, h2, hp]
  clear hp h1 h2
  induction kept with
  | nil => rfl
  | cons a l ih => simp only [List.map_cons, List.zipWith_cons_cons, ih]

theorem accept_task (fuel : Nat) (kept : List (Out Θ)) (w : W) (o : Out Θ) (h : accept env fuel (some (asPop kept)) w = some o) : Task env kept w o := by
  simp only [accept, Option.bind_eq_some_iff, Option.map_eq_some_iff] at h
  obtain ⟨θ, hθ, a, ha, rfl⟩ := h
  refine ⟨?_, a.1, _, _, propose_spec _ _ _ _ _ _ ha, rfl, rfl, ?_⟩
  · have := (List.getElem?_eq_some_iff.1 hθ).1
    simpa [asPop] using this
  · rw [one_mul, mixture_eq]

/-- The population of a step as particles. -/
structure Particles (r : Rec Θ) (pop : List (Out Θ)) : Prop where
  params : r.params = pop.map Out.θ
  distances : r.distances = pop.map Out.d
  weights : r.weights = pop.map Out.weight

theorem keep_particles (eps : ℝ) (pop : List (Out Θ)) (m : List Θ × List ℝ × List ℝ) (hm : m = (pop.map Out.θ, pop.map Out.d, pop.map Out.weight)) :
    Particles (keep eps m) pop ∧ (keep eps m).keptParams = (carried eps pop).map Out.θ ∧ (keep eps m).keptDistances = (carried eps pop).map Out.d ∧
      (keep eps m).keptWeights = (carried eps pop).map Out.weight := by
  subst hm
  have hm : ((pop.map Out.d).map fun d => decide (d < eps)) = pop.map fun a => decide (a.d < eps) := by rw [List.map_map]; rfl
  have hc : closer eps pop = pop.filter fun a => decide (a.d < eps) := by unfold closer; congr!
  refine ⟨⟨rfl, rfl, rfl⟩, ?_, ?_, ?_⟩
  all_goals simp only [keep, carried, hm, List.map_map, select_map, select_filter, hc, normalise]
  · rfl
  · rfl
  · rfl

/-- What a run knows about its history. -/
structure Follows (first : W → Out Θ → Prop) (start : Nat → List W) (t : Nat) (s : State Θ) : Prop where
  count : s.hist.length = t
  empty : s.hist = [] → s = ⟨[], [], [], false⟩
  some : ∀ r, s.hist.getLast? = some r → ∃ pops kept, HistoryFrom env c first start s.epsilons pops kept s.stopped ∧ List.Forall₂ Particles s.hist pops ∧
    r.keptParams = kept.map Out.θ ∧ r.keptDistances = kept.map Out.d ∧ r.keptWeights = kept.map Out.weight
  full : c.full = true → s.journal = s.hist
  last : c.full = false → s.journal = if t = c.steps ∧ 0 < t then s.hist.drop (t - 1) else []

theorem history_eps (first : W → Out Θ → Prop) (start : Nat → List W) (es : List ℝ) (pops : List (List (Out Θ))) (kept : List (Out Θ)) (b : Bool) (h : HistoryFrom env c first start es pops kept b) : es ≠ [] := by
  cases h <;> simp

theorem follows_step (first : W → Out Θ → Prop) (fuel t : Nat) (start : Nat → List W) (s s' : State Θ) (hfirst : s.hist = [] → ∀ w o, accept env fuel none w = some o → first w o) (hI : Follows env c first start t s) (ht : t < c.steps) (hs : s.stopped = false)
    (h : step env c fuel t (start t) s = some s') : Follows env c first start (t + 1) s' := by
  obtain ⟨out, eps, hne, hlen, hout, heps, hs'⟩ := step_spec env c fuel t (start t) s s' h
  have hol : out.length = (start t).length := by
    have := congrArg List.length hout; simpa using this.symm
  have htask : ∀ (i : Nat) (o : Out Θ) (w : W), out[i]? = some o → (start t)[i]? = some w → accept env fuel (seen s) w = some o := by
    intro i o w ho hw
    have := congrArg (·[i]?) hout
    simp only [List.getElem?_map, ho, hw, Option.map_some, Option.some.injEq] at this
    exact this
  generalize hr : keep eps (merge c s out) = r at *
  have hjl : (s.hist ++ [r]).drop t = [r] := by rw [← hI.count]; simp
  refine ⟨by rw [hs']; simp [hI.count], by rw [hs']; simp, ?_, ?_, ?_⟩
  · intro r' hr'
    rw [hs'] at hr' ⊢
    simp only [List.getLast?_append, List.getLast?_singleton, Option.some_or, Option.some.injEq] at hr'
    subst hr'
    cases hl : s.hist.getLast? with
    | none =>
      have hnil : s.hist = [] := by simpa using hl
      have h0 := hI.empty hnil
      have ht0 : t = 0 := by rw [← hI.count, hnil]; rfl
      subst ht0
      have hn : (start 0).length = c.n := by rw [hlen, wanted, if_neg (lt_irrefl _)]
      have hm : merge c s out = (out.map Out.θ, out.map Out.d, out.map Out.weight) := by rw [merge, if_pos (by rw [hol, hn])]
      obtain ⟨k1, k2, k3, k4⟩ := keep_particles eps out _ hm
      rw [hr] at k1 k2 k3 k4
      rw [hm] at heps
      have hacc : acceptance c s out = 1 := by rw [acceptance, if_pos (by rw [hol, hn])]
      refine ⟨[out], carried eps out, ?_, ?_, k2, k3, k4⟩
      · simp only [h0, hol, hn, if_true, List.nil_append]
        refine .first out eps _ (by rw [hol, hn]) hn ?_ heps ?_
        · intro i o w ho hw
          have := htask i o w ho hw
          rw [h0] at this
          exact hfirst hnil w o this
        · rw [← h0, hacc]; simp
      · simp only [h0, List.nil_append]
        exact .cons k1 .nil
    | some q =>
      obtain ⟨pops, kept, hH, hF, q1, q2, q3⟩ := hI.some q hl
      rw [hs] at hH
      have hcnt : pops.length = t := by rw [← hF.length_eq, hI.count]
      have ht0 : 0 < t := by
        rw [← hI.count]; exact List.length_pos_of_mem (List.mem_of_getLast? hl)
      have hseen : seen s = some (asPop kept) := by rw [seen, hl]; simp [asPop, q1, q3]
      have hn : (start t).length = ((c.n : ℤ) - pyRound (c.n * c.alpha)).toNat := by rw [hlen, wanted, if_pos ht0]
      have htask' : ∀ (i : Nat) (o : Out Θ) (w : W), out[i]? = some o → (start pops.length)[i]? = some w → Task env kept w o := by
        intro i o w ho hw
        rw [hcnt] at hw
        have := htask i o w ho hw
        rw [hseen] at this
        exact accept_task env fuel kept w o this
      by_cases hall : out.length = c.n
      · have hm : merge c s out = (out.map Out.θ, out.map Out.d, out.map Out.weight) := by rw [merge, if_pos hall]
        obtain ⟨k1, k2, k3, k4⟩ := keep_particles eps out _ hm
        rw [hr] at k1 k2 k3 k4
        rw [hm] at heps
        have hacc : acceptance c s out = 1 := by rw [acceptance, if_pos hall]
        refine ⟨pops ++ [out], carried eps out, ?_, ?_, k2, k3, k4⟩
        · simp only [hall, if_true, List.nil_append]
          refine .replace _ pops kept out eps _ hH (by rw [← hn, ← hol, hall]) hall (by rw [hcnt, ← hol, hall]) htask' heps ?_
          rw [hacc]; simp
        · exact List.rel_append hF (.cons k1 .nil)
      · have hm : merge c s out = ((kept ++ out).map Out.θ, (kept ++ out).map Out.d, (kept ++ out).map Out.weight) := by
          rw [merge, if_neg hall, hl]; simp [q1, q2, q3]
        obtain ⟨k1, k2, k3, k4⟩ := keep_particles eps (kept ++ out) _ hm
        rw [hr] at k1 k2 k3 k4
        rw [hm] at heps
        obtain ⟨es, e, he⟩ : ∃ es e, s.epsilons = es ++ [e] := by
          rcases s.epsilons.eq_nil_or_concat with h | ⟨l, b, h⟩
          · exact absurd h (history_eps env c first start _ _ _ _ hH)
          · exact ⟨l, b, by simpa using h⟩
        refine ⟨pops ++ [kept ++ out], carried eps (kept ++ out), ?_, ?_, k2, k3, k4⟩
        · simp only [hall, if_false, he]
          rw [he] at hH
          refine .step es e pops kept out eps _ hH (by rw [← hn, ← hol]; exact hall) (by rw [hol, hn]) (by rw [hcnt, hol]) htask' heps ?_
          have hacc : acceptance c s out = ((closer e out).length : ℝ) / out.length := by
            rw [acceptance, if_neg hall, he]
            simp only [List.getLast?_append, List.getLast?_singleton, Option.some_or]
            congr 2
            unfold closer
            rw [List.countP_map, List.countP_eq_length_filter]
            congr!
          rw [hacc]; simp
        · exact List.rel_append hF (.cons k1 .nil)
  · intro hf
    rw [hs']; simp only [hf, if_true, hI.full hf]
  · intro hf
    rw [hs']
    simp only [hf, Bool.false_eq_true, if_false, Nat.add_sub_cancel, hjl]
    by_cases hlast : t = c.steps - 1
    · rw [if_pos hlast, if_pos (by omega)]
    · rw [if_neg hlast, if_neg (by omega), hI.last hf, if_neg (by omega)]

theorem follows_loop (first : W → Out Θ → Prop) (fuel : Nat) (start : Nat → List W) :
    ∀ k t (s s' : State Θ), (t = 0 → ∀ w o, accept env fuel none w = some o → first w o) → Follows env c first start t s → t + k = c.steps → loop env c fuel start k t s = some s' →
      ∃ t', t ≤ t' ∧ t' ≤ c.steps ∧ Follows env c first start t' s' ∧ (t' < c.steps → s'.stopped = true) := by
  intro k
  induction k with
  | zero => intro t s s' hfirst hI ht hl; simp only [loop, Option.some.injEq] at hl; subst hl; exact ⟨t, le_rfl, by omega, hI, by omega⟩
  | succ k ih =>
    intro t s s' hfirst hI ht hl
    rw [loop] at hl
    by_cases hst : s.stopped = true
    · rw [if_pos hst, Option.some.injEq] at hl
      subst hl; exact ⟨t, le_rfl, by omega, hI, fun _ => hst⟩
    · rw [if_neg hst] at hl
      split at hl
      · cases hl
      · rename_i s1 h1
        obtain ⟨t', e1, e2, e3⟩ := ih (t + 1) s1 s' (fun h => by omega) (follows_step env c first fuel t start s s1 (fun hn => hfirst (by rw [← hI.count, hn]; rfl)) hI (by omega) (by simpa using hst) h1) (by omega) hl
        exact ⟨t', by omega, e2, e3⟩
theorem follows_end (first : W → Out Θ → Prop) (start : Nat → List W) (t' : Nat) (s : State Θ) (hs : 0 < c.steps) (ht' : t' ≤ c.steps) (hF : Follows env c first start t' s) (hst : t' < c.steps → s.stopped = true) :
    ∃ pops kept, HistoryFrom env c first start s.epsilons pops kept s.stopped ∧ List.Forall₂ Particles s.hist pops ∧ s.hist.length ≤ c.steps ∧ (s.hist.length < c.steps → s.stopped = true) ∧
      s.journal = if c.full then s.hist else if s.hist.length = c.steps then s.hist.drop (c.steps - 1) else [] := by
  cases hl : s.hist.getLast? with
  | none =>
    exfalso
    have hnil : s.hist = [] := by simpa using hl
    have h1 := hF.empty hnil
    have h2 := hst (by rw [← hF.count, hnil]; exact hs)
    rw [h1] at h2; cases h2
  | some r =>
    obtain ⟨pops, kept, hH, hP, -⟩ := hF.some r hl
    refine ⟨pops, kept, hH, hP, by rw [hF.count]; exact ht', by rw [hF.count]; exact hst, ?_⟩
    have hpos : 0 < t' := by rw [← hF.count]; exact List.length_pos_of_mem (List.mem_of_getLast? hl)
    by_cases hf : c.full = true
    · rw [if_pos hf, hF.full hf]
    · rw [if_neg hf, hF.last (by simpa using hf), hF.count]
      by_cases he : t' = c.steps
      · rw [if_pos ⟨he, hpos⟩, if_pos he, he]
      · rw [if_neg (fun h => he h.1), if_neg he]

/-- **C100.** Every run of `APMCABC` that carries out a step is a history of the specification; it ends after all steps or when the history says so; the journal has all populations, or the last one if all steps were
carried out. -/
theorem C100_run (fuel : Nat) (start : Nat → List W) (s : State Θ) (hs : 0 < c.steps) (h : run env c fuel start = some s) :
    ∃ pops kept, History env c start s.epsilons pops kept s.stopped ∧ List.Forall₂ Particles s.hist pops ∧ s.hist.length ≤ c.steps ∧ (s.hist.length < c.steps → s.stopped = true) ∧
      s.journal = if c.full then s.hist else if s.hist.length = c.steps then s.hist.drop (c.steps - 1) else [] := by
  unfold run at h
  have h0 : Follows env c (FirstTask env) start 0 (⟨[], [], [], false⟩ : State Θ) := ⟨rfl, fun _ => rfl, by simp, fun _ => rfl, by simp⟩
  obtain ⟨t', -, ht', hF, hst⟩ := follows_loop env c (FirstTask env) fuel start c.steps 0 _ s (fun _ => accept_first env fuel) h0 (by omega) h
  exact follows_end env c _ start t' s hs ht' hF hst

/-- The hypotheses are met, by a run that stops early and by one that carries out both of its steps. -/
example : (∃ s, run exEnv ⟨2, 3, 1 / 2, 1 / 10, false⟩ 1 twoStart = some s ∧ s.hist.length = 2) ∧ ∃ s, run exEnv ⟨3, 2, 1 / 2, 0, true⟩ 1 threeStart = some s ∧ s.journal.length = 2 := by
  obtain ⟨s, h, -, h2, -⟩ := C46_apmc_violated
  obtain ⟨-, -, s', h', h2', -⟩ := C49_size_violated
  exact ⟨⟨s, h, h2⟩, s', h', h2'⟩

/-! ### C101 -/

theorem history_pops (first : W → Out Θ → Prop) (start : Nat → List W) (es : List ℝ) (pops : List (List (Out Θ))) (kept : List (Out Θ)) (b : Bool) (h : HistoryFrom env c first start es pops kept b) : pops ≠ [] := by
  cases h <;> simp

/-- **C101 (partial).** In every history, the particles of the first population, which are drawn from the prior, all have the weight one; the new particles of a later population have weights such that weight times
density of the proposals is the prior density; and the weights of particles carried over are their former weights up to a common factor. Missing: that these groups are on the same scale. -/
theorem C101_partial (start : Nat → List W) (es : List ℝ) (pops : List (List (Out Θ))) (kept : List (Out Θ)) (b : Bool) (h : History env c start es pops kept b) :
    (∀ pop, pops[0]? = some pop → ∀ a ∈ pop, a.weight = 1) ∧
    (∀ pop, pops.getLast? = some pop → ∃ z e, kept = (closer e pop).map fun a => ⟨a.θ, a.d, a.weight / z⟩) ∧
    ∀ k old pop, pops[k]? = some old → pops[k + 1]? = some pop →
      ∃ z e kept new, kept = ((closer e old).map fun a => (⟨a.θ, a.d, a.weight / z⟩ : Out Θ)) ∧ (pop = kept ++ new ∨ pop = new) ∧
        ∀ a ∈ new, proposalDensity env kept a.θ ≠ 0 → a.weight * proposalDensity env kept a.θ = env.pdf a.θ := by
  have hnew : ∀ (kept new : List (Out Θ)) (n : Nat), new.length = (start n).length →
      (∀ (i : Nat) (o : Out Θ) (w : W), new[i]? = some o → (start n)[i]? = some w → Task env kept w o) →
      ∀ a ∈ new, proposalDensity env kept a.θ ≠ 0 → a.weight * proposalDensity env kept a.θ = env.pdf a.θ := by
    intro kept new n hl ht a ha hd
    obtain ⟨i, hi⟩ := List.mem_iff_getElem?.1 ha
    have hlt : i < (start n).length := by rw [← hl]; exact (List.getElem?_eq_some_iff.1 hi).1
    obtain ⟨-, -, -, -, -, -, -, hw⟩ := ht i a _ hi (List.getElem?_eq_getElem hlt)
    rw [hw, div_mul_cancel₀ _ hd]
  induction h with
  | first pop e stop h1 h2 h3 h4 h5 =>
    refine ⟨?_, ?_, ?_⟩
    · intro q hq a ha
      simp only [List.getElem?_cons_zero, Option.some.injEq] at hq
      subst hq
      obtain ⟨i, hi⟩ := List.mem_iff_getElem?.1 ha
      have hlt : i < (start 0).length := by rw [h2, ← h1]; exact (List.getElem?_eq_some_iff.1 hi).1
      obtain ⟨-, -, -, -, -, -, hw⟩ := h3 i a _ hi (List.getElem?_eq_getElem hlt)
      exact hw
    · intro q hq
      simp only [List.getLast?_singleton, Option.some.injEq] at hq
      subst hq
      exact ⟨_, e, rfl⟩
    · intro k old q _ h2
      simp at h2
  | replace es pops kept new e stop hH h1 h2 h3 h4 h5 h6 ih =>
    obtain ⟨i1, i2, i3⟩ := ih
    have hpn := history_pops env c _ start _ _ _ _ hH
    refine ⟨?_, ?_, ?_⟩
    · intro q hq
      rw [List.getElem?_append_left (List.length_pos_iff.2 hpn)] at hq
      exact i1 q hq
    · intro q hq
      simp only [List.getLast?_append, List.getLast?_singleton, Option.some_or, Option.some.injEq] at hq
      subst hq
      exact ⟨_, e, rfl⟩
    · intro k old q ho hq
      rcases Nat.lt_trichotomy (k + 1) pops.length with hlt | heq | hgt
      · rw [List.getElem?_append_left hlt] at hq
        rw [List.getElem?_append_left (by omega)] at ho
        exact i3 k old q ho hq
      · rw [heq, List.getElem?_concat_length, Option.some.injEq] at hq
        rw [List.getElem?_append_left (by omega)] at ho
        subst hq
        obtain ⟨z, e, hz⟩ := i2 old (by rw [List.getLast?_eq_getElem?, ← heq]; exact ho)
        exact ⟨z, e, kept, new, hz, .inr rfl, hnew kept new _ (by rw [h2, h3]) h4⟩
      · rw [List.getElem?_eq_none (by simp; omega)] at hq; cases hq
  | step es e pops kept new e' stop hH h1 h2 h3 h4 h5 h6 ih =>
    obtain ⟨i1, i2, i3⟩ := ih
    have hpn := history_pops env c _ start _ _ _ _ hH
    refine ⟨?_, ?_, ?_⟩
    · intro q hq
      rw [List.getElem?_append_left (List.length_pos_iff.2 hpn)] at hq
      exact i1 q hq
    · intro q hq
      simp only [List.getLast?_append, List.getLast?_singleton, Option.some_or, Option.some.injEq] at hq
      subst hq
      exact ⟨_, e', rfl⟩
    · intro k old q ho hq
      rcases Nat.lt_trichotomy (k + 1) pops.length with hlt | heq | hgt
      · rw [List.getElem?_append_left hlt] at hq
        rw [List.getElem?_append_left (by omega)] at ho
        exact i3 k old q ho hq
      · rw [heq, List.getElem?_concat_length, Option.some.injEq] at hq
        rw [List.getElem?_append_left (by omega)] at ho
        subst hq
        obtain ⟨z, e, hz⟩ := i2 old (by rw [List.getLast?_eq_getElem?, ← heq]; exact ho)
        exact ⟨z, e, kept, new, hz, .inl rfl, hnew kept new _ h3.symm h4⟩
      · rw [List.getElem?_eq_none (by simp; omega)] at hq; cases hq

theorem sum_const (l : List (Out Θ)) (f : Out Θ → ℝ) (z : ℝ) (h : ∀ a ∈ l, f a = z) : (l.map f).sum = l.length * z := by
  induction l with
  | nil => simp
  | cons a l ih =>
    simp only [List.map_cons, List.sum_cons, List.length_cons, ih fun b hb => h b (by simp [hb]), h a (by simp)]
    push_cast; ring

/-- C101 fails. If perturbed values are distributed like the prior, whatever the particle, all particles of all populations are drawn from the prior and should have equal weights. In the second population, of `k`
particles carried over and some new ones, those carried over have the weight `1 / k` and the new ones the weight one. -/
theorem C101_violated (hk : ∀ p a b, env.kernel p a b = env.pdf b) (start : Nat → List W) (es : List ℝ) (old pop : List (Out Θ)) (kept' : List (Out Θ)) (b : Bool)
    (h : History env c start es [old, pop] kept' b) (hr : pyRound (c.n * c.alpha) ≠ 0) (hr' : pyRound (c.n * c.alpha) ≤ c.n) :
    ∃ kept new, pop = kept ++ new ∧ (kept.length : ℤ) + (c.n - pyRound (c.n * c.alpha)) = pop.length ∧ (∀ a ∈ kept, a.weight = 1 / kept.length) ∧ (kept ≠ [] → ∀ a ∈ new, a.weight = 1) := by
  generalize hp : [old, pop] = pops at h
  cases h with
  | first => simp at hp
  | replace es pops kept new e stop hH h1 => omega
  | step es e pops kept new e' stop hH h1 h2 h3 h4 h5 h6 =>
    have hpp : pops = [old] ∧ pop = kept ++ new := by
      have := congrArg List.dropLast hp
      rw [List.dropLast_concat] at this
      have h' := congrArg List.getLast? hp
      simp at h'
      exact ⟨by rw [← this]; rfl, h'⟩
    obtain ⟨rfl, rfl⟩ := hpp
    refine ⟨kept, new, rfl, by rw [List.length_append, h2]; omega, ?_⟩
    generalize ho : [old] = o at hH
    have hkept : ∀ a ∈ kept, a.weight = 1 / kept.length := by
      generalize hes : es ++ [e] = es' at hH
      cases hH with
      | first pop e stop g1 g2 g3 g4 g5 =>
        have hone : ∀ a ∈ pop, a.weight = 1 := by
          intro a ha
          obtain ⟨i, hi⟩ := List.mem_iff_getElem?.1 ha
          have hlt : i < (start 0).length := by rw [g2, ← g1]; exact (List.getElem?_eq_some_iff.1 hi).1
          obtain ⟨-, -, -, -, -, -, hw⟩ := g3 i a _ hi (List.getElem?_eq_getElem hlt)
          exact hw
        have hc : ∀ a ∈ closer e pop, a.weight = 1 := fun a ha => hone a (List.mem_filter.1 ha).1
        intro a ha
        unfold carried at ha ⊢
        obtain ⟨x, hx, rfl⟩ := List.mem_map.1 ha
        simp only [List.length_map]
        rw [hc x hx, sum_const _ Out.weight 1 hc, mul_one]
      | replace es pops kept new e stop hH' =>
        have := history_pops env c _ start _ _ _ _ hH'
        cases pops with
        | nil => exact absurd rfl this
        | cons x l => simp at ho
      | step es e pops kept new e' stop hH' =>
        have := history_pops env c _ start _ _ _ _ hH'
        cases pops with
        | nil => exact absurd rfl this
        | cons x l => simp at ho
    refine ⟨hkept, fun hne a ha => ?_⟩
    obtain ⟨i, hi⟩ := List.mem_iff_getElem?.1 ha
    have hlt : i < (start [old].length).length := by rw [h3]; exact (List.getElem?_eq_some_iff.1 hi).1
    obtain ⟨-, w1, w2, y, hprop, -, -, hw⟩ := h4 i a _ hi (List.getElem?_eq_getElem hlt)
    have hpdf : env.pdf a.θ ≠ 0 := Verif.Smc.proposal_pdf _ _ _ _ _ hprop
    have hl : (kept.length : ℝ) ≠ 0 := by simpa using hne
    have : proposalDensity env kept a.θ = env.pdf a.θ := by
      unfold proposalDensity
      rw [sum_const kept _ (1 / kept.length * env.pdf a.θ) (fun x hx => by rw [hk, hkept x hx])]
      field_simp
    rw [hw, this, div_self hpdf]

/-- The hypotheses are met: four samples, `alpha` one half, two steps. Two particles are carried over; the weights of the second population are 1/2, 1/2, 1, 1. -/
noncomputable def fourStart (t : Nat) : List ℝ := if t = 0 then [0, 1, 2, 3] else [1, 1]

theorem percentile_four : percentile [0, 1, 2, 3] 50 = some (3 / 2) := by
  have h2 : ⌊(3 / 2 : ℝ)⌋₊ = 1 := (Nat.floor_eq_iff (by norm_num)).2 (by norm_num)
  norm_num [percentile, List.insertionSort, List.orderedInsert, h2]

theorem percentile_four' : percentile [0, 1, 1, 1] 50 = some 1 := by
  have h2 : ⌊(3 / 2 : ℝ)⌋₊ = 1 := (Nat.floor_eq_iff (by norm_num)).2 (by norm_num)
  norm_num [percentile, List.insertionSort, List.orderedInsert, h2]

theorem pyRound_four : pyRound ((4 : ℕ) * (1 / 2)) = 2 := by
  have h1 : ((4 : ℕ) * (1 / 2) : ℝ) = (2 : ℤ) := by norm_num
  rw [h1]
  unfold pyRound
  rw [Int.fract_intCast, Int.floor_intCast, if_pos (by norm_num)]

theorem C101_run_violated : (∀ p a b, exEnv.kernel p a b = exEnv.pdf b) ∧ ∃ s, run exEnv ⟨4, 2, 1 / 2, 0, true⟩ 1 fourStart = some s ∧
    (s.journal.map fun r => r.weights) = [[1, 1, 1, 1], [1 / 2, 1 / 2, 1, 1]] := by
  refine ⟨fun _ _ _ => rfl, ?_⟩
  have h1 : step exEnv ⟨4, 2, 1 / 2, 0, true⟩ 1 0 (fourStart 0) ⟨[], [], [], false⟩ =
      some ⟨[3 / 2], [⟨3 / 2, [0, 1, 2, 3], [0, 1, 2, 3], [1, 1, 1, 1], [0, 1], [0, 1], [1 / 2, 1 / 2]⟩],
        [⟨3 / 2, [0, 1, 2, 3], [0, 1, 2, 3], [1, 1, 1, 1], [0, 1], [0, 1], [1 / 2, 1 / 2]⟩], false⟩ := by
    have := percentile_four
    norm_num [step, fourStart, wanted, seen, accept, exEnv, collect, merge, acceptance, keep, select, normalise, this]
    simp
  have hw : wanted ⟨4, 2, 1 / 2, 0, true⟩ 1 = 2 := by simp only [wanted]; rw [pyRound_four]; rfl
  have h2 : ∃ s, step exEnv ⟨4, 2, 1 / 2, 0, true⟩ 1 1 (fourStart 1) ⟨[3 / 2], [⟨3 / 2, [0, 1, 2, 3], [0, 1, 2, 3], [1, 1, 1, 1], [0, 1], [0, 1], [1 / 2, 1 / 2]⟩],
        [⟨3 / 2, [0, 1, 2, 3], [0, 1, 2, 3], [1, 1, 1, 1], [0, 1], [0, 1], [1 / 2, 1 / 2]⟩], false⟩ = some s ∧
      (s.journal.map fun r => r.weights) = [[1, 1, 1, 1], [1 / 2, 1 / 2, 1, 1]] := by
    have := percentile_four'
    norm_num [step, fourStart, hw, seen, accept, propose, exEnv, collect, merge, acceptance, keep, select, normalise, mixture, this]
    exact ⟨_, ⟨List.cons_ne_nil _ _, rfl⟩, rfl⟩
  obtain ⟨s, h2, h3⟩ := h2
  refine ⟨s, ?_, h3⟩
  unfold run
  simp only
  rw [loop, h1]
  simp only [Bool.false_eq_true, if_false]
  rw [loop, h2]
  simp only [Bool.false_eq_true, if_false, loop]
  try simp

end Verif.Apmc
