import Verif.Rejection.Model
import Verif.Rsmc.Model
import Mathlib.Order.WithBot
/-!
# C205: the first population of `PMCABC` and `RSMCABC` is a sample of `RejectionABC`

The same problem is given to `RejectionABC` (inferences.py 566-603, 667-707), to `PMCABC` (875-941) and to `RSMCABC` (2590-2719), and their workers start in the same states.
-/
namespace Verif.Rejection

variable {W Θ Y : Type}

/-- A distance that may be infinite. -/
def long : Option ℝ → WithTop ℝ
  | none => ⊤
  | some x => (x : WithTop ℝ)

/-- Draw parameters from the prior and simulate: a trial of `RejectionABC` with a simulator that never refuses. -/
def oneTrial (prior : W → W × Θ) (sim : Θ → W → W × Y) (w : W) : W × Θ × Option Y :=
  let q := prior w
  let r := sim q.2 q.1
  (r.1, q.2, some r.2)

/-- What a task of `RejectionABC` returns to the others: parameters, distance, number of simulations. -/
def outcome (a : Θ × WithTop ℝ × Nat × W) : Θ × WithTop ℝ × Nat := (a.1, a.2.1, a.2.2.1)

theorem above_long (d : Option ℝ) (eps : ℝ) : (long d > (eps : WithTop ℝ)) ↔ Pmc.above d eps = true := by
  cases d with
  | none => simp [long, Pmc.above]
  | some x => simp [long, Pmc.above]

/-! ### PMCABC -/

theorem pmc_loop (env : Pmc.Env W Θ Y) (eps : ℝ) (fuel : Nat) (w : W) (θ : Θ) (d : Option ℝ) (c : Nat) (D : WithTop ℝ) :
    ((rejectLoop (oneTrial env.prior env.sim) (fun y => (env.dist y : WithTop ℝ)) D eps fuel w (some θ) (long d) c).result).map outcome =
      (Pmc.resampleLoop env eps none fuel w θ d c).map fun r => (r.1, long r.2.1, r.2.2) := by
  induction fuel generalizing w θ d c with
  | zero => rfl
  | succ fuel ih =>
    unfold rejectLoop Pmc.resampleLoop
    by_cases h : Pmc.above d eps = true
    · rw [if_pos ((above_long d eps).2 h), if_pos h]
      exact ih _ _ (some _) _
    · rw [if_neg (fun h' => h ((above_long d eps).1 h')), if_neg h]
      rfl

theorem pmc_task (env : Pmc.Env W Θ Y) (eps : ℝ) (he : Pmc.above env.distMax eps = true) (fuel : Nat) (w : W) :
    ((rejectTask (oneTrial env.prior env.sim) (fun y => (env.dist y : WithTop ℝ)) (long env.distMax) eps fuel w).result).map outcome =
      (Pmc.resampleTask env eps none fuel w).map fun r => (r.1, (r.2.1 : WithTop ℝ), r.2.2) := by
  have h1 : (rejectTask (oneTrial env.prior env.sim) (fun y => (env.dist y : WithTop ℝ)) (long env.distMax) eps fuel w) =
      rejectLoop (oneTrial env.prior env.sim) (fun y => (env.dist y : WithTop ℝ)) (long env.distMax) eps fuel w (some (env.held w)) (long env.distMax) 0 := by
    unfold rejectTask
    cases fuel with
    | zero => rfl
    | succ fuel => rw [rejectLoop, rejectLoop, if_pos ((above_long _ _).2 he), if_pos ((above_long _ _).2 he)]
  rw [h1, pmc_loop]
  have h2 : ∀ fuel w θ d c r, Pmc.resampleLoop env eps none fuel w θ d c = some r → ∃ x, r.2.1 = some x := by
    intro fuel
    induction fuel with
    | zero => intro w θ d c r h; cases h
    | succ fuel ih =>
      intro w θ d c r h
      unfold Pmc.resampleLoop at h
      cases hd : Pmc.above d eps with
      | true => simp only [hd, if_true] at h; exact ih _ _ _ _ _ h
      | false =>
        simp only [hd, Bool.false_eq_true, if_false, Option.some.injEq] at h
        cases d with
        | none => cases hd
        | some x => exact ⟨x, by rw [← h]⟩
  unfold Pmc.resampleTask
  cases h : Pmc.resampleLoop env eps none fuel w (env.held w) env.distMax 0 with
  | none => rfl
  | some r =>
    obtain ⟨x, hx⟩ := h2 _ _ _ _ _ _ h
    obtain ⟨θ, d, c⟩ := r
    subst hx
    rfl

theorem collect_result {A B C : Type} (f : W → Option A) (g : W → Option B) (p : A → C) (q : B → C) (h : ∀ w, (f w).map p = (g w).map q) (l : List W) :
    (collect (l.map f)).map (fun r => r.map p) = (collect (l.map g)).map fun r => r.map q := by
  induction l with
  | nil => rfl
  | cons w l ih =>
    have hw := h w
    rw [List.map_cons, List.map_cons]
    cases hf : f w with
    | none =>
      cases hg : g w with
      | none => rfl
      | some b => rw [hf, hg] at hw; cases hw
    | some a =>
      cases hg : g w with
      | none => rw [hf, hg] at hw; cases hw
      | some b =>
        rw [hf, hg, Option.map_some, Option.map_some, Option.some.injEq] at hw
        simp only [collect]
        cases hcf : collect (l.map f) with
        | none =>
          cases hcg : collect (l.map g) with
          | none => rfl
          | some _ => rw [hcf, hcg] at ih; cases ih
        | some x =>
          cases hcg : collect (l.map g) with
          | none => rw [hcf, hcg] at ih; cases ih
          | some y =>
            rw [hcf, hcg, Option.map_some, Option.map_some, Option.some.injEq] at ih
            simp only [Option.map_some, List.map_cons, hw, ih]

/-- Specification: the journal entry `r` of `PMCABC` says the same as the sample `q` of `RejectionABC`: particles, distances, and equal weights that sum to one. -/
structure Same (n : Nat) (q : Round Θ (WithTop ℝ)) (params : List Θ) (distances : List ℝ) : Prop where
  params : params = q.params
  distances : distances.map (fun x : ℝ => (x : WithTop ℝ)) = q.distances
  length : q.params.length = n

theorem normalise_equal (n : Nat) (hn : 0 < n) (l : List Θ) (hl : l.length = n) : Pmc.normalise (l.map fun _ => (1 : ℝ) / n) = List.replicate n ((1 : ℝ) / n) := by
  have h1 : (l.map fun _ => (1 : ℝ) / n) = List.replicate n ((1 : ℝ) / n) := by rw [List.map_const', hl]
  have hn' : (n : ℝ) ≠ 0 := by exact_mod_cast hn.ne'
  rw [h1, Pmc.normalise, List.map_replicate, List.sum_replicate, nsmul_eq_mul]
  congr 1
  field_simp

/-- **C205, PMCABC.** A run of one step gives what `RejectionABC` gives for the same threshold: the same particles, distances and number of simulations; its weights are equal and sum to one. One of them
fails exactly if the other does. -/
theorem C205_pmcabc (env : Pmc.Env W Θ Y) (eps pct : ℝ) (he : Pmc.above env.distMax eps = true) (fuel counter : Nat) (start : Nat → List W)
    (hn : 1 < (start 0).length * (start 0).length ∧ (start 0).length * (start 0).length ≤ 2 ^ 31) :
    match rejectRound (oneTrial env.prior env.sim) (fun y => (env.dist y : WithTop ℝ)) (long env.distMax) eps fuel counter (start 0) with
    | none => Pmc.pmcRun env 1 [eps] pct fuel start none counter = none
    | some q => ∃ s r, Pmc.pmcRun env 1 [eps] pct fuel start none counter = some s ∧ s.hist = [r] ∧ r.eps = eps ∧ Same (start 0).length q r.params r.distances ∧
        r.weights = List.replicate (start 0).length (1 / ((start 0).length : ℝ)) ∧ s.counter = q.counter := by
  have hpos : 0 < (start 0).length := by
    rcases Nat.eq_zero_or_pos (start 0).length with h | h
    · rw [h] at hn; simp at hn
    · exact h
  have hc := collect_result _ _ outcome (fun r : Θ × ℝ × Nat => (r.1, (r.2.1 : WithTop ℝ), r.2.2)) (pmc_task env eps he fuel) (start 0)
  have hrun : Pmc.pmcRun env 1 [eps] pct fuel start none counter = Pmc.pmcStep env 1 pct fuel 0 (start 0) ⟨[some eps], none, counter, []⟩ := by
    show (match Pmc.pmcStep env 1 pct fuel 0 (start 0) ⟨[some eps], none, counter, []⟩ with
      | none => none
      | some s => some s) = _
    cases Pmc.pmcStep env 1 pct fuel 0 (start 0) ⟨[some eps], none, counter, []⟩ <;> rfl
  unfold rejectRound
  rw [if_pos hn, hrun]
  unfold Pmc.pmcStep
  simp only [List.getElem?_cons_zero, Option.all_none, if_true]
  cases hf : collect ((start 0).map fun w => (rejectTask (oneTrial env.prior env.sim) (fun y => (env.dist y : WithTop ℝ)) (long env.distMax) eps fuel w).result) with
  | none =>
    cases hg : collect ((start 0).map (Pmc.resampleTask env eps none fuel)) with
    | none => rfl
    | some _ => rw [hf, hg] at hc; cases hc
  | some l =>
    cases hg : collect ((start 0).map (Pmc.resampleTask env eps none fuel)) with
    | none => rw [hf, hg] at hc; cases hc
    | some res =>
      rw [hf, hg, Option.map_some, Option.map_some, Option.some.injEq] at hc
      have hlen : res.length = (start 0).length := by
        have := congrArg List.length ((collect_eq_some _ _).1 hg)
        simpa using this.symm
      have hnext : Pmc.nextEps 1 0 pct (res.map fun r => r.2.1) [some eps] = some [some eps] := by rw [Pmc.nextEps, if_neg (by omega)]
      have p1 : res.map (fun r => r.1) = l.map fun r => r.1 := by
        have := congrArg (List.map fun r => r.1) hc
        simpa [List.map_map, Function.comp_def, outcome] using this.symm
      have p2 : (res.map fun r => r.2.1).map (fun x : ℝ => (x : WithTop ℝ)) = l.map fun r => r.2.1 := by
        have := congrArg (List.map fun r => r.2.1) hc
        simpa [List.map_map, Function.comp_def, outcome] using this.symm
      have p3 : res.map (fun r => r.2.2) = l.map fun r => r.2.2.1 := by
        have := congrArg (List.map fun r => r.2.2) hc
        simpa [List.map_map, Function.comp_def, outcome] using this.symm
      simp only [hnext]
      refine ⟨_, _, rfl, rfl, rfl, ⟨p1, p2, ?_⟩, ?_, ?_⟩
      · rw [← p1, List.length_map, hlen]
      · exact normalise_equal _ hpos _ (by rw [List.length_map, hlen])
      · simp only [p3]

/-! ### RSMCABC -/

theorem rsmc_loop (env : Rsmc.Env W Θ Y) (eps : ℝ) (fuel : Nat) (w : W) (θ : Θ) (d : Option ℝ) (c : Nat) (D : WithTop ℝ) :
    ((rejectLoop (oneTrial env.prior env.sim) (fun y => (env.dist y : WithTop ℝ)) D eps fuel w (some θ) (long d) c).result).map outcome =
      (Rsmc.priorLoop env eps fuel w θ d c).map fun r => (r.1, long r.2.1, r.2.2) := by
  induction fuel generalizing w θ d c with
  | zero => rfl
  | succ fuel ih =>
    unfold rejectLoop Rsmc.priorLoop
    by_cases h : Pmc.above d eps = true
    · rw [if_pos ((above_long d eps).2 h), if_pos h]
      exact ih _ _ (some _) _
    · rw [if_neg (fun h' => h ((above_long d eps).1 h')), if_neg h]
      rfl

theorem rsmc_task (env : Rsmc.Env W Θ Y) (eps : ℝ) (he : Pmc.above env.distMax eps = true) (fuel r : Nat) (e : W × Θ) :
    ((rejectTask (oneTrial env.prior env.sim) (fun y => (env.dist y : WithTop ℝ)) (long env.distMax) eps fuel e.1).result).map outcome =
      (Rsmc.accept env fuel eps none r e.1 e.2).map fun o => (o.θ, long o.d, o.count) := by
  have h1 : (rejectTask (oneTrial env.prior env.sim) (fun y => (env.dist y : WithTop ℝ)) (long env.distMax) eps fuel e.1) =
      rejectLoop (oneTrial env.prior env.sim) (fun y => (env.dist y : WithTop ℝ)) (long env.distMax) eps fuel e.1 (some e.2) (long env.distMax) 0 := by
    unfold rejectTask
    cases fuel with
    | zero => rfl
    | succ fuel => rw [rejectLoop, rejectLoop, if_pos ((above_long _ _).2 he), if_pos ((above_long _ _).2 he)]
  rw [h1, rsmc_loop]
  unfold Rsmc.accept
  simp only [Option.map_map]
  rfl

theorem prior_finite (env : Rsmc.Env W Θ Y) (eps : ℝ) (fuel r : Nat) (w : W) (held : Θ) (o : Rsmc.Out Θ) (h : Rsmc.accept env fuel eps none r w held = some o) :
    (∃ x, o.d = some x) ∧ o.accepted = 1 := by
  have h2 : ∀ fuel w θ d c r, Rsmc.priorLoop env eps fuel w θ d c = some r → ∃ x, r.2.1 = some x := by
    intro fuel
    induction fuel with
    | zero => intro w θ d c r h; cases h
    | succ fuel ih =>
      intro w θ d c r h
      unfold Rsmc.priorLoop at h
      cases hd : Pmc.above d eps with
      | true => simp only [hd, if_true] at h; exact ih _ _ _ _ _ h
      | false =>
        simp only [hd, Bool.false_eq_true, if_false, Option.some.injEq] at h
        cases d with
        | none => cases hd
        | some x => exact ⟨x, by rw [← h]⟩
  unfold Rsmc.accept at h
  simp only [Option.map_eq_some_iff] at h
  obtain ⟨e, he, rfl⟩ := h
  exact ⟨h2 _ _ _ _ _ _ he, rfl⟩

/-- **C205, RSMCABC.** The first population of a run is what `RejectionABC` gives for the first threshold: the same particles, distances and number of simulations. The step fails exactly if
`RejectionABC` does. -/
theorem C205_rsmcabc (env : Rsmc.Env W Θ Y) (c : Rsmc.Config) (he : Pmc.above env.distMax c.epsInit = true) (hf : c.epsFinal ≤ c.epsInit) (fuel : Nat) (start : List (W × Θ)) (hlen : start.length = c.n)
    (hn : 1 < start.length * start.length ∧ start.length * start.length ≤ 2 ^ 31) :
    match rejectRound (oneTrial env.prior env.sim) (fun y => (env.dist y : WithTop ℝ)) (long env.distMax) (c.epsInit : WithTop ℝ) fuel 0 (start.map Prod.fst) with
    | none => ∃ f, Rsmc.step env c fuel 0 start ⟨[], none, 1, [], [], 0⟩ = .error f
    | some q => ∃ s r, Rsmc.step env c fuel 0 start ⟨[], none, 1, [], [], 0⟩ = .ok s ∧ s.hist = [r] ∧ r.eps = c.epsInit ∧ Same start.length q r.params r.distances ∧ s.counter = q.counter := by
  have hpos : 0 < start.length := by
    rcases Nat.eq_zero_or_pos start.length with h | h
    · rw [h] at hn; simp at hn
    · exact h
  have hne : start ≠ [] := List.ne_nil_of_length_pos hpos
  have hc := collect_result (fun e : W × Θ => (rejectTask (oneTrial env.prior env.sim) (fun y => (env.dist y : WithTop ℝ)) (long env.distMax) (c.epsInit : WithTop ℝ) fuel e.1).result)
    (fun e => Rsmc.accept env fuel c.epsInit none 1 e.1 e.2) outcome (fun o => (o.θ, long o.d, o.count)) (rsmc_task env c.epsInit he fuel 1) start
  unfold rejectRound
  rw [List.length_map, if_pos hn, List.map_map]
  have hstep : Rsmc.step env c fuel 0 start ⟨[], none, 1, [], [], 0⟩ =
      (match collect (start.map fun e => Rsmc.accept env fuel c.epsInit none 1 e.1 e.2) with
      | none => .error .other
      | some out => match collect (out.map Rsmc.Out.d) with
        | none => .error .other
        | some ds => match Rsmc.nextMoves c 1 start.length (out.map Rsmc.Out.accepted).sum with
          | none => .error .other
          | some moves =>
            let r : Rsmc.Rec Θ := ⟨c.epsInit, 1, (Rsmc.base c ⟨[], none, 1, [], [], 0⟩ out.length).1 ++ out.map Rsmc.Out.θ, (Rsmc.base c (⟨[], none, 1, [], [], 0⟩ : Rsmc.State Θ) out.length).2 ++ ds⟩
            .ok ⟨[] ++ [c.epsInit], some (Rsmc.trim c r.params r.distances), moves, [] ++ [r],
              if c.full then [] ++ [r] else if 0 = c.steps - 1 then [r] else [], 0 + (out.map Rsmc.Out.count).sum⟩) := by
    unfold Rsmc.step
    have hw : ¬ (start.length ≠ Rsmc.wanted c (⟨[], none, 1, [], [], 0⟩ : Rsmc.State Θ) ∨ start = []) := by simp [Rsmc.wanted, hlen, hne]
    simp only [Rsmc.threshold]
    rw [if_neg (not_lt.2 hf), if_neg hw]
    rfl
  rw [hstep]
  have hb : ∀ k, Rsmc.base c (⟨[], none, 1, [], [], 0⟩ : Rsmc.State Θ) k = ([], []) := fun k => by unfold Rsmc.base; split <;> rfl
  simp only [hb, List.nil_append, Nat.zero_add]
  have hcomp : ((fun w => (rejectTask (oneTrial env.prior env.sim) (fun y => (env.dist y : WithTop ℝ)) (long env.distMax) (c.epsInit : WithTop ℝ) fuel w).result) ∘ Prod.fst) =
      fun e : W × Θ => (rejectTask (oneTrial env.prior env.sim) (fun y => (env.dist y : WithTop ℝ)) (long env.distMax) (c.epsInit : WithTop ℝ) fuel e.1).result := rfl
  rw [hcomp]
  cases hf' : collect (start.map fun e : W × Θ => (rejectTask (oneTrial env.prior env.sim) (fun y => (env.dist y : WithTop ℝ)) (long env.distMax) (c.epsInit : WithTop ℝ) fuel e.1).result) with
  | none =>
    cases hg : collect (start.map fun e => Rsmc.accept env fuel c.epsInit none 1 e.1 e.2) with
    | none => exact ⟨_, rfl⟩
    | some _ => rw [hf', hg] at hc; cases hc
  | some l =>
    cases hg : collect (start.map fun e => Rsmc.accept env fuel c.epsInit none 1 e.1 e.2) with
    | none => rw [hf', hg] at hc; cases hc
    | some out =>
      rw [hf', hg, Option.map_some, Option.map_some, Option.some.injEq] at hc
      have hall := (collect_eq_some _ _).1 hg
      have hlen2 : out.length = start.length := by
        have := congrArg List.length hall
        simpa using this.symm
      have hfin : ∀ o ∈ out, (∃ x, o.d = some x) ∧ o.accepted = 1 := by
        intro o ho
        have : some o ∈ start.map fun e => Rsmc.accept env fuel c.epsInit none 1 e.1 e.2 := by
          rw [hall]
          exact List.mem_map_of_mem ho
        obtain ⟨e, -, h⟩ := List.mem_map.1 this
        exact prior_finite env c.epsInit fuel 1 e.1 e.2 o h
      obtain ⟨ds, hds, -⟩ := collect_isSome (out.map Rsmc.Out.d) (by
        intro x hx
        obtain ⟨o, ho, rfl⟩ := List.mem_map.1 hx
        obtain ⟨⟨x, hx⟩, -⟩ := hfin o ho
        rw [hx]
        exact Option.some_ne_none x)
      have hacc : (out.map Rsmc.Out.accepted).sum = start.length := by
        rw [List.map_congr_left (g := fun _ => 1) fun o ho => (hfin o ho).2, List.map_const', List.sum_replicate, hlen2]
        simp
      have hmoves : Rsmc.nextMoves c 1 start.length start.length = some 1 := by
        have h0 : (start.length : ℤ) ≠ 0 := by exact_mod_cast hpos.ne'
        have h0' : (start.length : ℝ) ≠ 0 := by exact_mod_cast hpos.ne'
        unfold Rsmc.nextMoves
        simp [h0']
        omega
      have hds' := (collect_eq_some _ _).1 hds
      have p1 : out.map Rsmc.Out.θ = l.map fun r => r.1 := by
        have := congrArg (List.map fun r => r.1) hc
        simpa [List.map_map, Function.comp_def, outcome] using this.symm
      have p2 : ds.map (fun x : ℝ => (x : WithTop ℝ)) = l.map fun r => r.2.1 := by
        have h := congrArg (List.map fun r => r.2.1) hc
        rw [List.map_map, List.map_map] at h
        have h' : out.map (fun o => long o.d) = (out.map Rsmc.Out.d).map long := by rw [List.map_map]; rfl
        have h'' : ds.map (fun x : ℝ => (x : WithTop ℝ)) = (ds.map some).map long := by rw [List.map_map]; rfl
        rw [h'', ← hds', ← h']
        exact h.symm
      have p3 : out.map Rsmc.Out.count = l.map fun r => r.2.2.1 := by
        have := congrArg (List.map fun r => r.2.2) hc
        simpa [List.map_map, Function.comp_def, outcome] using this.symm
      simp only [hds, hacc, hmoves]
      refine ⟨_, _, rfl, rfl, rfl, ⟨p1, p2, ?_⟩, ?_⟩
      · rw [← p1, List.length_map, hlen2]
      · simp only [p3]

/-- The hypotheses of C205 are met, by two workers whose second data set is accepted. -/
example : ∃ (env : Pmc.Env Nat Nat Nat) (q : Round Nat (WithTop ℝ)), Pmc.above env.distMax 1 = true ∧
    rejectRound (oneTrial env.prior env.sim) (fun y => (env.dist y : WithTop ℝ)) (long env.distMax) (1 : ℝ) 3 0 [0, 0] = some q ∧ q.params = [1, 1] ∧ q.counter = 4 := by
  refine ⟨⟨none, fun y => if y = 0 then 2 else 0, fun _ => 1, fun _ _ _ => 1, fun w => w, fun w => (w + 1, w), fun _ w => (w, 0), fun _ _ w => (w, none), fun θ w => (w, θ)⟩, ⟨[1, 1], [0, 0], [1, 1], 4⟩,
    rfl, ?_, rfl, rfl⟩
  have h2 : ¬ (1 : WithTop ℝ) < 0 := by exact_mod_cast not_lt.2 (zero_le_one (α := ℝ))
  simp [rejectRound, rejectTask, rejectLoop, oneTrial, long, Task.result, collect, h2]

end Verif.Rejection
