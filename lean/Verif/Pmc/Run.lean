import Verif.Pmc.Spec
import Verif.Pmc.Props
/-
C110: runs of `PMCABC` are histories of the specification.
-/
namespace Verif.Pmc

open Verif.Smc.Spec (Proposal)
open Spec

variable {W Θ Y : Type} (env : Env W Θ Y)

theorem proposeLoop_proposal (p : Pop Θ) (i fuel : Nat) (w w' : W) (θ : Θ) (h : proposeLoop env p i fuel w = some (w', θ)) :
    Proposal env.pdf (env.perturb p i) w w' θ := by
  induction fuel generalizing w with
  | zero => simp [proposeLoop] at h
  | succ fuel ih =>
    unfold proposeLoop at h
    split at h
    · rename_i w1 h1
      exact .refused _ _ _ (by rw [h1]) (by rw [h1]; exact ih _ h)
    · rename_i w1 θ1 h1
      split at h
      · rename_i hp
        simp only [Option.some.injEq, Prod.mk.injEq] at h
        obtain ⟨rfl, rfl⟩ := h
        have := Proposal.take (pdf := env.pdf) (perturb := env.perturb p i) w θ1 (by rw [h1]) hp
        rw [h1] at this
        exact this
      · rename_i hp
        exact .impossible _ _ _ _ (by rw [h1]) (not_not.1 hp) (by rw [h1]; exact ih _ h)

/-- A loop that starts above the threshold makes attempts. -/
theorem resampleLoop_attempts (old : Option (Pop Θ)) (eps : ℝ) (fuel : Nat) (w : W) (θ : Θ) (d : Option ℝ) (c : Nat) (θ' : Θ) (d' : ℝ) (c' : Nat)
    (hd : above d eps = true) (h : resampleLoop env eps old fuel w θ d c = some (θ', some d', c')) :
    ∃ k, c' = c + k ∧ Attempts env old eps w θ' d' k := by
  induction fuel generalizing w θ d c with
  | zero => simp [resampleLoop] at h
  | succ fuel ih =>
    unfold resampleLoop at h
    rw [if_pos hd] at h
    have key : ∀ w1 θ1, Draw env old w w1 θ1 → resampleLoop env eps old fuel (env.sim θ1 w1).1 θ1 (some (env.dist (env.sim θ1 w1).2)) (c + 1) = some (θ', some d', c') →
        ∃ k, c' = c + k ∧ Attempts env old eps w θ' d' k := by
      intro w1 θ1 hdraw h
      by_cases hb : above (some (env.dist (env.sim θ1 w1).2)) eps = true
      · obtain ⟨k, rfl, hk⟩ := ih _ _ _ _ hb h
        exact ⟨k + 1, by omega, .miss _ _ _ _ _ _ _ _ hdraw rfl (by simpa [above] using hb) hk⟩
      · cases fuel with
        | zero => simp [resampleLoop] at h
        | succ fuel =>
          rw [resampleLoop.eq_def] at h
          simp only at h
          rw [if_neg hb] at h
          simp only [Option.some.injEq, Prod.mk.injEq] at h
          obtain ⟨rfl, rfl, rfl⟩ := h
          exact ⟨1, rfl, .hit _ _ _ _ _ hdraw rfl (by simpa [above] using hb)⟩
    cases old with
    | none => exact key _ _ rfl h
    | some p =>
      simp only at h
      split at h
      · cases h
      · rename_i w1 θ1 hp
        exact key w1 θ1 (proposeLoop_proposal env p _ _ _ _ _ hp) h

theorem resampleTask_task (old : Option (Pop Θ)) (eps : ℝ) (fuel : Nat) (w : W) (θ : Θ) (d : ℝ) (c : Nat) (h : resampleTask env eps old fuel w = some (θ, d, c)) :
    Task env old eps w θ d c := by
  unfold resampleTask at h
  split at h
  · rename_i θ1 d1 c1 hr
    simp only [Option.some.injEq, Prod.mk.injEq] at h
    obtain ⟨rfl, rfl, rfl⟩ := h
    by_cases hm : above env.distMax eps = true
    · right
      obtain ⟨k, hk, ha⟩ := resampleLoop_attempts env old eps fuel w _ _ 0 _ _ _ hm hr
      rw [Nat.zero_add] at hk
      subst hk
      refine ⟨fun m hm' => ?_, ha⟩
      rw [hm'] at hm
      simpa [above] using hm
    · left
      cases fuel with
      | zero => simp [resampleLoop] at hr
      | succ fuel =>
        rw [resampleLoop.eq_def] at hr
        simp only at hr
        rw [if_neg hm] at hr
        simp only [Option.some.injEq, Prod.mk.injEq] at hr
        obtain ⟨rfl, h2, rfl⟩ := hr
        refine ⟨d1, h2, ?_, rfl, rfl, rfl⟩
        rw [h2] at hm
        simpa [above] using hm
  · simp at h

theorem mixture_zip (p : Pop Θ) (θ : Θ) : mixture env p θ = ((p.weights.zip p.params).map fun a => a.1 * env.kernel p a.2 θ).sum := by
  rw [mixture, List.zip, List.map_zipWith]

/-- The weights of a population that the code calculates are those of the specification. -/
theorem weight_eq (n : Nat) (old : Option (Pop Θ)) (l : List Θ) (hn : n = l.length) (θ : Θ) (hθ : θ ∈ l) :
    rawWeight env n old θ / (l.map (rawWeight env n old)).sum = importance env old θ / (l.map (importance env old)).sum := by
  cases old with
  | none =>
    have hp : (n : ℝ) ≠ 0 := by
      rw [hn]; exact_mod_cast (List.length_pos_of_mem hθ).ne'
    have h1 : (l.map (rawWeight env n none)) = List.replicate n (1 / (n : ℝ)) := by
      rw [hn]; exact List.eq_replicate_iff.2 ⟨by simp, by simp [rawWeight]⟩
    have h2 : (l.map (importance env none)) = List.replicate n (1 : ℝ) := by
      rw [hn]; exact List.eq_replicate_iff.2 ⟨by simp, by simp [importance]⟩
    rw [h1, h2]
    simp only [rawWeight, importance, List.sum_replicate, nsmul_eq_mul]
    field_simp
  | some p =>
    have : rawWeight env n (some p) = importance env (some p) := by
      funext θ; simp only [rawWeight, importance, mixture_zip]
    rw [this]

/-- The population a step leaves, as particles. -/
noncomputable def particles (n : Nat) (old : Option (Pop Θ)) (res : List (Θ × ℝ × Nat)) : List (Particle Θ) :=
  res.map fun e => ⟨e.1, e.2.1, rawWeight env n old e.1 / ((res.map (·.1)).map (rawWeight env n old)).sum⟩

/-- One step makes one stage. -/
theorem pmcStep_stage (steps : Nat) (pct : ℝ) (fuel t : Nat) (start : List W) (s s' : State Θ) (h : pmcStep env steps pct fuel t start s = some s') :
    ∃ eps new tries r, s.epsArr[t]? = some (some eps) ∧ Stage env s.pop eps start new tries ∧ Holds r (eps, new) ∧ s'.hist = s.hist ++ [r] ∧ s'.pop = some (asPop new) ∧
      s'.counter = s.counter + tries.sum ∧ nextEps steps t pct (new.map Particle.d) s.epsArr = some s'.epsArr := by
  unfold pmcStep at h
  split at h
  · rename_i eps heps
    split at h
    · rename_i hall
      split at h
      · cases h
      · rename_i res hres
        simp only at h
        split at h
        · cases h
        · rename_i arr harr
          simp only [Option.some.injEq] at h
          subst h
          rw [collect_eq_some] at hres
          have hlen : res.length = start.length := by have := congrArg List.length hres; simpa using this.symm
          have hd : (particles env start.length s.pop res).map Particle.d = res.map (·.2.1) := by
            rw [particles, List.map_map]; rfl
          have hθ : (particles env start.length s.pop res).map Particle.θ = res.map (·.1) := by
            rw [particles, List.map_map]; rfl
          have hw : (particles env start.length s.pop res).map Particle.weight = normalise ((res.map (·.1)).map (rawWeight env start.length s.pop)) := by
            rw [particles, normalise, List.map_map, List.map_map, List.map_map]; rfl
          refine ⟨eps, particles env start.length s.pop res, res.map (·.2.2), ⟨eps, res.map (·.1), res.map (·.2.1), _⟩, heps, ?_, ⟨rfl, hθ.symm, hd.symm, hw.symm⟩, rfl, ?_, rfl, ?_⟩
          · refine ⟨by simp [particles, hlen], by simp [hlen], ?_, ?_, ?_⟩
            · intro p hp
              rw [hp] at hall
              simp only [Option.all_some, decide_eq_true_eq] at hall
              exact ⟨hall.2, hall.1⟩
            · intro i w a k hw ha hk
              simp only [particles, List.getElem?_map, Option.map_eq_some_iff] at ha hk
              obtain ⟨e, he, rfl⟩ := ha
              obtain ⟨e', he', rfl⟩ := hk
              rw [he] at he'
              simp only [Option.some.injEq] at he'
              subst he'
              have := congrArg (·[i]?) hres
              simp only [List.getElem?_map, hw, he, Option.map_some, Option.some.injEq] at this
              exact resampleTask_task env s.pop eps fuel w e.1 e.2.1 e.2.2 this
            · intro a ha
              obtain ⟨e, he, rfl⟩ := List.mem_map.1 ha
              have h1 := weight_eq env start.length s.pop (res.map (·.1)) (by simp [hlen]) e.1 (List.mem_map.2 ⟨e, he, rfl⟩)
              simp only
              rw [h1]
              congr 2
              rw [particles, List.map_map, List.map_map]; rfl
          · simp only [asPop, hθ, hw]
          · rw [hd]; exact harr
    · cases h
  · cases h

/-- What a run knows about its history. -/
structure Follows (steps : Nat) (pct : ℝ) (start : Nat → List W) (before : Option (Pop Θ)) (arr : List (Option ℝ)) (counter t : Nat) (s : State Θ) : Prop where
  later : ∀ j, t < j → s.epsArr[j]? = arr[j]?
  empty : t = 0 → s = ⟨arr, before, counter, []⟩
  some : 0 < t → ∃ h e last k, t = h.length + 1 ∧ History env pct (fun t => arr[t]?.join) start before (h ++ [(e, last)]) k ∧ List.Forall₂ Holds s.hist (h ++ [(e, last)]) ∧
    s.counter = counter + k ∧ s.pop = some (asPop last) ∧ (t < steps → ∃ eps, s.epsArr[t]? = some (some eps) ∧ Threshold pct arr[t]?.join last eps)

theorem nextEps_threshold (steps t : Nat) (pct : ℝ) (last : List (Particle Θ)) (arr arr' : List (Option ℝ)) (h : nextEps steps t pct (last.map Particle.d) arr = some arr')
    (ht : t + 1 < steps) : ∃ eps, arr'[t + 1]? = some (some eps) ∧ Threshold pct arr[t + 1]?.join last eps := by
  obtain ⟨q, e, h1, h2, h3⟩ := (nextEps_spec _ _ _ _ _ _ h).2 ht
  refine ⟨e, h3, q, h1, ?_⟩
  cases ha : arr[t + 1]? with
  | none => rw [ha] at h2; cases h2
  | some g => rw [ha] at h2; simpa [comb] using h2.symm

theorem follows_step (steps : Nat) (pct : ℝ) (fuel : Nat) (start : Nat → List W) (before : Option (Pop Θ)) (arr : List (Option ℝ)) (counter t : Nat) (s s' : State Θ)
    (hI : Follows env steps pct start before arr counter t s) (ht : t < steps) (h : pmcStep env steps pct fuel t (start t) s = some s') :
    Follows env steps pct start before arr counter (t + 1) s' := by
  obtain ⟨eps, new, tries, r, r1, r2, r3, r4, r5, r6, r7⟩ := pmcStep_stage env steps pct fuel t (start t) s s' h
  refine ⟨?_, by omega, fun _ => ?_⟩
  · intro j hj
    rw [(nextEps_spec _ _ _ _ _ _ r7).1 j hj, hI.later j (by omega)]
  · have hnext : t + 1 < steps → ∃ eps, s'.epsArr[t + 1]? = Option.some (Option.some eps) ∧ Threshold pct arr[t + 1]?.join new eps := by
      intro hlt
      have := nextEps_threshold steps t pct new _ _ r7 hlt
      rwa [hI.later (t + 1) (by omega)] at this
    rcases Nat.eq_zero_or_pos t with h0 | h0
    · subst h0
      have hs := hI.empty rfl
      subst hs
      refine ⟨[], eps, new, tries.sum, rfl, ?_, ?_, r6, r5, hnext⟩
      · exact .first eps new tries (by rw [r1]; rfl) r2
      · rw [r4]; exact .cons r3 .nil
    · obtain ⟨h, e, last, k, h1, h2, h3, h4, h5, h6⟩ := hI.some h0
      obtain ⟨eps', e1, e2⟩ := h6 ht
      rw [e1] at r1
      simp only [Option.some.injEq] at r1
      subst r1
      refine ⟨h ++ [(e, last)], eps', new, k + tries.sum, by simp [h1], ?_, ?_, by rw [r6, h4]; omega, r5, hnext⟩
      · refine .step h e last k eps' new tries h2 (by rw [← h1]; exact e2) ?_
        rw [← h1, ← h5]; exact r2
      · rw [r4]; exact List.rel_append h3 (.cons r3 .nil)

/-- Runs with thresholds `arr` to start with. -/
theorem loop_history (steps : Nat) (pct : ℝ) (fuel : Nat) (start : Nat → List W) (before : Option (Pop Θ)) (arr : List (Option ℝ)) (counter : Nat) (s : State Θ)
    (hs : 0 < steps) (h : pmcLoop env steps pct fuel start steps 0 ⟨arr, before, counter, []⟩ = some s) :
    ∃ h k, History env pct (fun t => arr[t]?.join) start before h k ∧ h.length = steps ∧ List.Forall₂ Holds s.hist h ∧ s.counter = counter + k ∧
      ∀ e last, h.getLast? = some (e, last) → s.pop = some (asPop last) := by
  have key : ∀ k t (s s' : State Θ), Follows env steps pct start before arr counter t s → t + k = steps → pmcLoop env steps pct fuel start k t s = some s' →
      Follows env steps pct start before arr counter steps s' := by
    intro k
    induction k with
    | zero =>
      intro t s s' hI ht hl
      simp only [pmcLoop, Option.some.injEq] at hl
      subst hl
      have : t = steps := by omega
      rwa [this] at hI
    | succ k ih =>
      intro t s s' hI ht hl
      rw [pmcLoop] at hl
      split at hl
      · cases hl
      · rename_i s1 h1
        exact ih (t + 1) s1 s' (follows_step env steps pct fuel start before arr counter t s s1 hI (by omega) h1) (by omega) hl
  obtain ⟨h, e, last, k, h1, h2, h3, h4, h5, -⟩ := (key steps 0 _ s ⟨fun _ _ => rfl, fun _ => rfl, by omega⟩ (by omega) h).some hs
  refine ⟨_, k, h2, by simp [h1], h3, h4, ?_⟩
  intro e' l' hl
  simp only [List.getLast?_append, List.getLast?_singleton, Option.some_or, Option.some.injEq, Prod.mk.injEq] at hl
  rw [h5, hl.2]

theorem initEps_asked (epsInit : List ℝ) (steps : Nat) (arr : List (Option ℝ)) (h : initEps epsInit steps = some arr) (hs : 0 < steps) :
    (fun t => arr[t]?.join) = asked epsInit steps ∧ (epsInit.length = steps ∨ epsInit.length = 1) := by
  unfold initEps at h
  split at h
  · rename_i hl
    simp only [Option.some.injEq] at h
    subst h
    refine ⟨?_, Or.inl hl⟩
    funext t
    rw [asked, if_pos (Or.inl hl), List.getElem?_map]
    cases epsInit[t]? <;> rfl
  · rename_i hl
    split at h
    · rename_i e n
      simp only [Option.some.injEq] at h
      subst h
      refine ⟨?_, Or.inr rfl⟩
      funext t
      rw [asked]
      cases t with
      | zero => simp
      | succ t =>
        rw [if_neg (by omega), List.getElem?_cons_succ, List.getElem?_replicate]
        split <;> rfl
    · cases h

/-- **C110.** Every run of `PMCABC` without a journal file, with one population for each step, is a history of the specification; the simulation counter grows by the number of simulations. `before` is
empty for a sampler that has not been used (see C77). -/
theorem C110_run (steps : Nat) (epsInit : List ℝ) (pct : ℝ) (fuel : Nat) (start : Nat → List W) (before : Option (Pop Θ)) (counter : Nat) (s : State Θ) (hs : 0 < steps)
    (h : pmcRun env steps epsInit pct fuel start before counter = some s) :
    ∃ h k, History env pct (asked epsInit steps) start before h k ∧ h.length = steps ∧ List.Forall₂ Holds s.hist h ∧ s.counter = counter + k := by
  unfold pmcRun at h
  split at h
  · cases h
  · rename_i arr harr
    obtain ⟨h, k, h1, h2, h3, h4, -⟩ := loop_history env steps pct fuel start before arr counter s hs h
    rw [(initEps_asked epsInit steps arr harr hs).1] at h1
    exact ⟨h, k, h1, h2, h3, h4⟩

/-- The run `easy_run` satisfies the hypotheses. -/
example : ∃ s, pmcRun easy 2 [1] 50 3 (fun _ => [(), ()]) none 0 = some s ∧ s.hist.length = 2 := by
  obtain ⟨s, h1, h2, -⟩ := easy_run
  exact ⟨s, h1, by rw [h2]; rfl⟩

end Verif.Pmc
