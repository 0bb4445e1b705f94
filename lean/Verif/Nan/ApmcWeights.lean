import Verif.Nan.Weights
import Verif.Nan.Apmc
/-
`APMCABC` whose importance weights are computed with numpy's division: C227. As for `PMCABC` (C208), a mixture of kernel densities that is computed as zero makes a weight infinite. Distances, thresholds and densities are real
numbers; definitions are those of `Verif.Apmc`.
-/
namespace Verif.Nan.ApmcWeights

open Verif.Pmc (Pop normalise)
open Verif.Smc (propose)
open Verif.Apmc (Env Config mixture select wanted)
open Verif.Nan.PmcLik (NPop reals)
open Verif.Nan.Weights (normaliseN normalise_inf normalise_num reals_nan sum_pos_of)

variable {W Θ Y : Type}

/-! ### Model -/

/-- What a worker returns. -/
structure Out (Θ : Type) where
  θ : Θ
  d : ℝ
  weight : Num

/-- `_accept_parameter`, lines 3095-3149, as `Apmc.accept`. `rng.choice` (3127) raises if a weight is NaN. Weights that are infinite do not occur there: they have been divided by their sum. The division of line 3147 is that of numpy. -/
noncomputable def accept (env : Env W Θ Y) (fuel : Nat) (pop : Option (NPop Θ)) (w : W) : Option (Out Θ) :=
  match pop with
  | none =>
    let a := env.prior w
    some ⟨a.2, env.dist (env.sim a.2 a.1).2, .num 1⟩
  | some p => match reals p.weights with
    | none => none
    | some ws =>
      let i := env.choose ws w
      (p.params[i.2]?).bind fun _ => (propose env.pdf (env.perturb ⟨p.params, ws⟩ i.2) fuel i.1).map fun a =>
        ⟨a.2, env.dist (env.sim a.2 a.1).2, (Num.num (1 * env.pdf a.2)).divReal (mixture env ⟨p.params, ws⟩ a.2)⟩

/-- The population of a step with its threshold, and the particles that are carried over. -/
structure Rec (Θ : Type) where
  eps : ℝ
  params : List Θ
  distances : List ℝ
  weights : List Num
  keptParams : List Θ
  keptDistances : List ℝ
  keptWeights : List Num

structure State (Θ : Type) where
  epsilons : List ℝ
  hist : List (Rec Θ)
  journal : List (Rec Θ)
  stopped : Bool

/-- The particles that the workers see, line 3003. -/
def seen (s : State Θ) : Option (NPop Θ) := s.hist.getLast?.map fun r => ⟨r.keptParams, r.keptWeights⟩

/-- Lines 3022-3033: the population, from that carried over and the new one. -/
def merge (c : Config) (s : State Θ) (out : List (Out Θ)) : List Θ × List ℝ × List Num :=
  if out.length = c.n then (out.map Out.θ, out.map Out.d, out.map Out.weight)
  else match s.hist.getLast? with
    | none => (out.map Out.θ, out.map Out.d, out.map Out.weight)
    | some r => (r.keptParams ++ out.map Out.θ, r.keptDistances ++ out.map Out.d, r.keptWeights ++ out.map Out.weight)

/-- Lines 3027 and 3035. -/
noncomputable def acceptance (c : Config) (s : State Θ) (out : List (Out Θ)) : ℝ :=
  if out.length = c.n then 1
  else match s.epsilons.getLast? with
    | none => 1
    | some e => ((out.map Out.d).countP fun d => d < e) / (out.length : ℝ)

/-- Lines 3040-3043, with numpy's division. -/
noncomputable def keep (eps : ℝ) (p : List Θ × List ℝ × List Num) : Rec Θ :=
  let m := p.2.1.map fun d => decide (d < eps)
  ⟨eps, p.1, p.2.1, p.2.2, select m p.1, select m p.2.1, normaliseN (select m p.2.2)⟩

/-- Iteration `t`, lines 2992-3083, as `Apmc.step`. Covariance matrices of particles with NaN weights (3058) are NaN, and so is the effective sample size of a population with infinite weights (3068); computing them does not raise. -/
noncomputable def step (env : Env W Θ Y) (c : Config) (fuel t : Nat) (start : List W) (s : State Θ) : Option (State Θ) :=
  if start.length ≠ wanted c t ∨ start = [] then none
  else
    match collect (start.map fun w => accept env fuel (seen s) w) with
    | none => none
    | some out => match Verif.Pmc.percentile (merge c s out).2.1 (c.alpha * 100) with
      | none => none
      | some eps =>
        let r := keep eps (merge c s out)
        some ⟨(if out.length = c.n then [] else s.epsilons) ++ [eps], s.hist ++ [r],
          if c.full then s.journal ++ [r] else if t = c.steps - 1 then [r] else s.journal, acceptance c s out < c.cutoff⟩

noncomputable def loop (env : Env W Θ Y) (c : Config) (fuel : Nat) (start : Nat → List W) : Nat → Nat → State Θ → Option (State Θ)
  | 0, _, s => some s
  | k + 1, t, s => if s.stopped then some s else match step env c fuel t (start t) s with
    | none => none
    | some s => loop env c fuel start k (t + 1) s

/-- `APMCABC.sample` without a journal file, on a sampler that has not been used before. -/
noncomputable def run (env : Env W Θ Y) (c : Config) (fuel : Nat) (start : Nat → List W) : Option (State Θ) :=
  loop env c fuel start c.steps 0 ⟨[], [], [], false⟩

/-! ### Runs whose mixtures are positive -/

def Out.of (o : Verif.Apmc.Out Θ) : Out Θ := ⟨o.θ, o.d, .num o.weight⟩

def Rec.of (r : Verif.Apmc.Rec Θ) : Rec Θ := ⟨r.eps, r.params, r.distances, r.weights.map .num, r.keptParams, r.keptDistances, r.keptWeights.map .num⟩

def State.of (s : Verif.Apmc.State Θ) : State Θ := ⟨s.epsilons, s.hist.map Rec.of, s.journal.map Rec.of, s.stopped⟩

/-- The particles carried over have positive weights. -/
def Fine (s : Verif.Apmc.State Θ) : Prop := ∀ r, s.hist.getLast? = some r → r.keptWeights.length = r.keptParams.length ∧ r.keptDistances.length = r.keptParams.length ∧ ∀ w ∈ r.keptWeights, 0 < w

/-- All weights in the journal are positive. -/
def Positive (s : Verif.Apmc.State Θ) : Prop := ∀ r ∈ s.journal, ∀ w ∈ r.weights, 0 < w

theorem zip_pos (k : Θ → ℝ) (hk : ∀ a, 0 < k a) (ws : List ℝ) (as : List Θ) (hp : ∀ w ∈ ws, 0 < w) :
    0 ≤ (List.zipWith (fun w a => w * k a) ws as).sum ∧ (ws ≠ [] → as ≠ [] → 0 < (List.zipWith (fun w a => w * k a) ws as).sum) := by
  induction ws generalizing as with
  | nil => simp
  | cons w ws ih =>
    cases as with
    | nil => simp
    | cons a as =>
      rw [List.zipWith_cons_cons, List.sum_cons]
      have h1 := mul_pos (hp w (by simp)) (hk a)
      have h2 := (ih as fun w hw => hp w (by simp [hw])).1
      exact ⟨by linarith, fun _ _ => by linarith⟩

theorem accept_of (env : Env W Θ Y) (hpdf : ∀ θ, 0 ≤ env.pdf θ) (hker : ∀ p x y, 0 < env.kernel p x y) (fuel : Nat) (pop : Option (Pop Θ)) (hp : ∀ p, pop = some p → p.weights.length = p.params.length ∧ ∀ w ∈ p.weights, 0 < w)
    (w : W) :
    accept env fuel (pop.map fun p => ⟨p.params, p.weights.map .num⟩) w = (Verif.Apmc.accept env fuel pop w).map Out.of ∧ ∀ o, Verif.Apmc.accept env fuel pop w = some o → 0 < o.weight := by
  cases pop with
  | none =>
    refine ⟨rfl, ?_⟩
    rintro o ⟨⟩
    exact one_pos
  | some p =>
    obtain ⟨hl, hw⟩ := hp p rfl
    simp only [Option.map_some, accept, Verif.Apmc.accept, PmcLik.reals_map]
    cases hi : p.params[(env.choose p.weights w).2]? with
    | none => exact ⟨rfl, by simp⟩
    | some x =>
      simp only [Option.bind_some]
      have hne : p.params ≠ [] := by rintro h; rw [h] at hi; simp at hi
      have hnw : p.weights ≠ [] := by rintro h; rw [h] at hl; exact hne (List.length_eq_zero_iff.1 hl.symm)
      have hm : ∀ θ, 0 < mixture env p θ := fun θ => (zip_pos (fun a => env.kernel p a θ) (fun a => hker p a θ) p.weights p.params hw).2 hnw hne
      cases hpr : propose env.pdf (env.perturb p (env.choose p.weights w).2) fuel (env.choose p.weights w).1 with
      | none => exact ⟨rfl, by simp⟩
      | some a =>
        refine ⟨?_, ?_⟩
        · simp only [Option.map_some, Out.of, Num.divReal, (hm a.2).ne', if_false]
        · rintro o ⟨⟩
          have h0 : env.pdf a.2 ≠ 0 := Verif.Smc.propose_pdf _ _ _ _ a.1 a.2 hpr
          have : 0 < env.pdf a.2 := lt_of_le_of_ne (hpdf _) h0.symm
          simp only [one_mul]
          exact div_pos this (hm _)

theorem select_mem {α : Type} (m : List Bool) (l : List α) : ∀ x ∈ select m l, x ∈ l := by
  induction m generalizing l with
  | nil => intro x hx; cases l <;> simp [select] at hx
  | cons b m ih =>
    intro x hx
    cases l with
    | nil => cases b <;> simp [select] at hx
    | cons y l =>
      cases b
      · exact List.mem_cons_of_mem _ (ih l x hx)
      · rcases List.mem_cons.1 hx with rfl | hx
        · simp
        · exact List.mem_cons_of_mem _ (ih l x hx)

theorem select_length {α β : Type} (m : List Bool) (l : List α) (l' : List β) (h : l.length = l'.length) : (select m l).length = (select m l').length := by
  induction m generalizing l l' with
  | nil => cases l <;> cases l' <;> rfl
  | cons b m ih =>
    cases l with
    | nil =>
      cases l' with
      | nil => cases b <;> rfl
      | cons _ _ => simp at h
    | cons y l =>
      cases l' with
      | nil => simp at h
      | cons y' l' =>
        have := ih l l' (by simpa using h)
        cases b <;> simp [select, this]

theorem normalise_pos {l : List ℝ} (h : ∀ x ∈ l, 0 < x) : normaliseN (l.map .num) = (normalise l).map .num ∧ ∀ x ∈ normalise l, 0 < x := by
  by_cases hl : l = []
  · subst hl; exact ⟨rfl, by simp [normalise]⟩
  · have hs := sum_pos_of hl h
    refine ⟨normalise_num l hs.ne', fun x hx => ?_⟩
    obtain ⟨y, hy, rfl⟩ := List.mem_map.1 hx
    exact div_pos (h y hy) hs

theorem step_of (env : Env W Θ Y) (hpdf : ∀ θ, 0 ≤ env.pdf θ) (hker : ∀ p x y, 0 < env.kernel p x y) (c : Config) (fuel t : Nat) (start : List W) (s : Verif.Apmc.State Θ) (hs : Fine s) :
    step env c fuel t start (State.of s) = (Verif.Apmc.step env c fuel t start s).map State.of ∧ ∀ s', Verif.Apmc.step env c fuel t start s = some s' → Fine s' ∧ (Positive s → Positive s') := by
  unfold step Verif.Apmc.step
  by_cases h : start.length ≠ wanted c t ∨ start = []
  · rw [if_pos h, if_pos h]; exact ⟨rfl, by simp⟩
  · rw [if_neg h, if_neg h]
    have hseen : seen (State.of s) = (Verif.Apmc.seen s).map fun p => ⟨p.params, p.weights.map .num⟩ := by
      unfold seen Verif.Apmc.seen State.of
      simp only [List.getLast?_map, Option.map_map]
      rfl
    have hp : ∀ p, Verif.Apmc.seen s = some p → p.weights.length = p.params.length ∧ ∀ w ∈ p.weights, 0 < w := by
      intro p hp
      obtain ⟨r, hr, rfl⟩ := Option.map_eq_some_iff.1 hp
      exact ⟨(hs r hr).1, (hs r hr).2.2⟩
    have hc : collect (start.map fun w => accept env fuel (seen (State.of s)) w) = (collect (start.map fun w => Verif.Apmc.accept env fuel (Verif.Apmc.seen s) w)).map (List.map Out.of) := by
      rw [← Apmc.collect_map, List.map_map, hseen]
      congr 2
      funext w
      exact (accept_of env hpdf hker fuel _ hp w).1
    rw [hc]
    cases hcol : collect (start.map fun w => Verif.Apmc.accept env fuel (Verif.Apmc.seen s) w) with
    | none => exact ⟨rfl, by simp⟩
    | some out =>
      have hout : ∀ o ∈ out, 0 < o.weight := by
        intro o ho
        have := collect_eq_some _ _ |>.1 hcol
        have ho' : some o ∈ start.map fun w => Verif.Apmc.accept env fuel (Verif.Apmc.seen s) w := by rw [this]; exact List.mem_map_of_mem ho
        obtain ⟨w, -, hw⟩ := List.mem_map.1 ho'
        exact (accept_of env hpdf hker fuel _ hp w).2 o hw
      have hmerge : merge c (State.of s) (out.map Out.of) = ((Verif.Apmc.merge c s out).1, (Verif.Apmc.merge c s out).2.1, (Verif.Apmc.merge c s out).2.2.map .num) ∧
          (∀ w ∈ (Verif.Apmc.merge c s out).2.2, 0 < w) ∧ (Verif.Apmc.merge c s out).2.2.length = (Verif.Apmc.merge c s out).1.length ∧
          (Verif.Apmc.merge c s out).2.1.length = (Verif.Apmc.merge c s out).1.length := by
        have hnew : ∀ w ∈ out.map Verif.Apmc.Out.weight, 0 < w := by
          intro w hw
          obtain ⟨o, ho, rfl⟩ := List.mem_map.1 hw
          exact hout o ho
        unfold merge Verif.Apmc.merge
        rw [List.length_map]
        by_cases hn : out.length = c.n
        · rw [if_pos hn, if_pos hn]
          exact ⟨by simp [Out.of, Function.comp_def], hnew, by simp, by simp⟩
        · rw [if_neg hn, if_neg hn]
          simp only [State.of, List.getLast?_map]
          cases hg : s.hist.getLast? with
          | none => exact ⟨by simp [Out.of, Function.comp_def], hnew, by simp, by simp⟩
          | some r =>
            obtain ⟨h1, h2, h3⟩ := hs r hg
            refine ⟨by simp [Out.of, Rec.of, Function.comp_def], ?_, by simp [h1], by simp [h2]⟩
            intro w hw
            rcases List.mem_append.1 hw with hw | hw
            · exact h3 w hw
            · exact hnew w hw
      obtain ⟨hm, hpos, hl1, hl2⟩ := hmerge
      simp only [Option.map_some, hm]
      cases Verif.Pmc.percentile (Verif.Apmc.merge c s out).2.1 (c.alpha * 100) with
      | none => exact ⟨rfl, by simp⟩
      | some eps =>
        have hsel : ∀ m, ∀ w ∈ select m (Verif.Apmc.merge c s out).2.2, 0 < w := fun m w hw => hpos w (select_mem m _ w hw)
        have hkeep : keep eps ((Verif.Apmc.merge c s out).1, (Verif.Apmc.merge c s out).2.1, (Verif.Apmc.merge c s out).2.2.map .num) = Rec.of (Verif.Apmc.keep eps (Verif.Apmc.merge c s out)) := by
          unfold keep Verif.Apmc.keep Rec.of
          simp only [Apmc.select_map, (normalise_pos (hsel _)).1]
        have hacc : acceptance c (State.of s) (out.map Out.of) = Verif.Apmc.acceptance c s out := by
          unfold acceptance Verif.Apmc.acceptance
          rw [List.length_map, List.map_map]
          rfl
        refine ⟨?_, ?_⟩
        · simp only [Option.map_some, hkeep, hacc, List.length_map]
          congr 1
          unfold State.of
          simp only [List.map_append, List.map_cons, List.map_nil]
          congr 1
          split
          · simp
          · split <;> simp
        · intro s' h'
          simp only [Option.some.injEq] at h'
          subst h'
          refine ⟨?_, ?_⟩
          swap
          · intro hj r hr
            have hmem : ∀ r ∈ [Verif.Apmc.keep eps (Verif.Apmc.merge c s out)], ∀ w ∈ r.weights, 0 < w := by
              intro r hr
              rw [List.mem_singleton.1 hr]
              exact hpos
            simp only at hr
            split at hr
            · rcases List.mem_append.1 hr with hr | hr
              · exact hj r hr
              · exact hmem r hr
            · split at hr
              · exact hmem r hr
              · exact hj r hr
          intro r hr
          simp only [List.getLast?_append, List.getLast?_singleton, Option.some_or, Option.some.injEq] at hr
          subst hr
          unfold Verif.Apmc.keep
          simp only
          refine ⟨?_, select_length _ _ _ hl2, (normalise_pos (hsel _)).2⟩
          rw [normalise, List.length_map]
          exact select_length _ _ _ hl1

/-- **C227 (partial).** If the kernel density is computed as a positive number everywhere, the run is that of the model over the reals, and all weights in the journal are positive numbers. -/
theorem C227_partial (env : Env W Θ Y) (hpdf : ∀ θ, 0 ≤ env.pdf θ) (hker : ∀ p x y, 0 < env.kernel p x y) (c : Config) (fuel : Nat) (start : Nat → List W) :
    run env c fuel start = (Verif.Apmc.run env c fuel start).map State.of ∧ ∀ s, run env c fuel start = some s → ∀ r ∈ s.journal, ∀ x ∈ r.weights, ∃ y, x = .num y ∧ 0 < y := by
  have key : ∀ (k t : Nat) (s : Verif.Apmc.State Θ), Fine s → loop env c fuel start k t (State.of s) = (Verif.Apmc.loop env c fuel start k t s).map State.of ∧
      ∀ s', Verif.Apmc.loop env c fuel start k t s = some s' → Positive s → Positive s' := by
    intro k
    induction k with
    | zero => intro t s _; exact ⟨rfl, by rintro s' ⟨⟩; exact id⟩
    | succ k ih =>
      intro t s hs
      rw [loop, Verif.Apmc.loop, show (State.of s).stopped = s.stopped from rfl]
      by_cases h : s.stopped = true
      · rw [if_pos h, if_pos h]; exact ⟨rfl, by rintro s' ⟨⟩; exact id⟩
      · rw [if_neg h, if_neg h]
        obtain ⟨h1, h2⟩ := step_of env hpdf hker c fuel t (start t) s hs
        rw [h1]
        cases hst : Verif.Apmc.step env c fuel t (start t) s with
        | none => exact ⟨rfl, by simp⟩
        | some s1 =>
          obtain ⟨h3, h4⟩ := ih (t + 1) s1 (h2 s1 hst).1
          exact ⟨h3, fun s' hs' hp => h4 s' hs' ((h2 s1 hst).2 hp)⟩
  obtain ⟨h1, h2⟩ := key c.steps 0 ⟨[], [], [], false⟩ (by intro r hr; simp at hr)
  refine ⟨h1, fun s hs r hr x hx => ?_⟩
  have hs' : (Verif.Apmc.loop env c fuel start c.steps 0 ⟨[], [], [], false⟩).map State.of = some s := h1.symm.trans hs
  obtain ⟨s', e, rfl⟩ := Option.map_eq_some_iff.1 hs'
  obtain ⟨r', hr', rfl⟩ := List.mem_map.1 hr
  obtain ⟨y, hy, rfl⟩ := List.mem_map.1 hx
  exact ⟨y, rfl, h2 s' e (by intro r hr; simp at hr) r' hr' y hy⟩

/-- The hypotheses hold for the run of `Apmc.C49_size_violated`. -/
example : ∃ s, run Verif.Apmc.exEnv ⟨3, 2, 1 / 2, 0, true⟩ 1 Verif.Apmc.threeStart = some s ∧ s.journal.length = 2 ∧ ∀ r ∈ s.journal, ∀ x ∈ r.weights, ∃ y, x = .num y ∧ 0 < y := by
  obtain ⟨hk, hp, s, h, hl, -⟩ := Verif.Apmc.C49_size_violated
  obtain ⟨h1, h2⟩ := C227_partial Verif.Apmc.exEnv hp hk ⟨3, 2, 1 / 2, 0, true⟩ 1 Verif.Apmc.threeStart
  rw [h] at h1
  exact ⟨_, h1, by simp [State.of, hl], h2 _ h1⟩

/-! ### Runs in which a mixture is zero -/

theorem step_eq (env : Env W Θ Y) (c : Config) (fuel t : Nat) (start : List W) (s s' : State Θ) (h : step env c fuel t start s = some s') :
    ∃ out eps, collect (start.map fun w => accept env fuel (seen s) w) = some out ∧ Verif.Pmc.percentile (merge c s out).2.1 (c.alpha * 100) = some eps ∧ s'.hist = s.hist ++ [keep eps (merge c s out)] ∧
      s'.journal = if c.full then s.journal ++ [keep eps (merge c s out)] else if t = c.steps - 1 then [keep eps (merge c s out)] else s.journal := by
  unfold step at h
  split at h
  · cases h
  · split at h
    · cases h
    · rename_i out ho
      split at h
      · cases h
      · rename_i eps he
        cases h
        exact ⟨out, eps, ho, he, rfl, rfl⟩

/-- A step on particles of which one has a NaN weight raises. -/
theorem step_nan (env : Env W Θ Y) (c : Config) (fuel t : Nat) (start : List W) (s : State Θ) (r : Rec Θ) (hr : s.hist.getLast? = some r) (hn : .nan ∈ r.keptWeights) : step env c fuel t start s = none := by
  unfold step
  split
  · rfl
  · rename_i h
    push Not at h
    obtain ⟨w, l, rfl⟩ := List.exists_cons_of_ne_nil h.2
    have : accept env fuel (seen s) w = none := by
      simp only [seen, hr, Option.map_some, accept, reals_nan _ hn]
    simp [this, collect]

/-- What a worker returns has a positive number or infinity as weight: infinity if the mixture is zero. -/
theorem accept_cases (env : Env W Θ Y) (hpdf : ∀ θ, 0 ≤ env.pdf θ) (fuel : Nat) (pop : Option (NPop Θ)) (w : W) (o : Out Θ) (h : accept env fuel pop w = some o) :
    (o.weight = .inf ∨ ∃ y, o.weight = .num y) ∧ ∀ p ws, pop = some p → reals p.weights = some ws → (o.weight = .inf ↔ mixture env ⟨p.params, ws⟩ o.θ = 0) := by
  unfold accept at h
  split at h
  · cases h
    exact ⟨.inr ⟨1, rfl⟩, by simp⟩
  · split at h
    · cases h
    · rename_i p _ ws hws
      obtain ⟨x, -, h⟩ := Option.bind_eq_some_iff.1 h
      obtain ⟨a, ha, rfl⟩ := Option.map_eq_some_iff.1 h
      have h0 : 0 < 1 * env.pdf a.2 := by
        rw [one_mul]
        exact lt_of_le_of_ne (hpdf _) (Verif.Smc.propose_pdf _ _ _ _ a.1 a.2 ha).symm
      obtain ⟨d1, d2⟩ := Weights.div_cases (1 * env.pdf a.2) (mixture env ⟨p.params, ws⟩ a.2) h0
      refine ⟨?_, ?_⟩
      · by_cases hm : mixture env ⟨p.params, ws⟩ a.2 = 0
        · exact .inl (d1 hm)
        · exact .inr ⟨_, d2 hm⟩
      · intro p' ws' hp hws'
        simp only [Option.some.injEq] at hp
        subst hp
        rw [hws] at hws'
        cases hws'
        refine ⟨fun h => ?_, d1⟩
        by_contra hm
        simp only [d2 hm] at h
        cases h

theorem reals_mem {l : List Num} {ws : List ℝ} (h : reals l = some ws) : ∀ x ∈ l, ∃ y, x = .num y := by
  intro x hx
  have := (collect_eq_some _ _).1 h
  have hm := List.mem_map_of_mem (f := fun x : Num => match x with | .num x => some x | _ => none) hx
  obtain ⟨y, -, hy⟩ := List.mem_map.1 ((congrArg (_ ∈ ·) this).mp hm)
  cases x with
  | num x => exact ⟨x, rfl⟩
  | inf => cases hy
  | negInf => cases hy
  | nan => cases hy

/-- **C227 fails for the weights.** In a step that returns, the weights of the new population are numbers or infinite, and infinite for each new particle whose mixture density is computed as zero. If such a particle is carried
over: of the particles carried over those with infinite weights have the weight NaN, all others have the weight zero, and every further step raises. If none of them is, the weights of those carried over are numbers. -/
theorem C227_step_violated (env : Env W Θ Y) (hpdf : ∀ θ, 0 ≤ env.pdf θ) (c : Config) (fuel t : Nat) (start : List W) (s s' : State Θ) (h : step env c fuel t start s = some s') :
    ∃ r, s'.hist = s.hist ++ [r] ∧ (c.full → s'.journal = s.journal ++ [r]) ∧ (∀ x ∈ r.weights, x = .inf ∨ ∃ y, x = .num y) ∧
      (∀ p ws w o, seen s = some p → reals p.weights = some ws → w ∈ start → accept env fuel (seen s) w = some o → mixture env ⟨p.params, ws⟩ o.θ = 0 → .inf ∈ r.weights) ∧
      (.inf ∈ select (r.distances.map fun d => decide (d < r.eps)) r.weights →
        List.Forall₂ (fun x y => (x = .inf → y = .nan) ∧ ((∃ r, x = .num r) → y = .num 0)) (select (r.distances.map fun d => decide (d < r.eps)) r.weights) r.keptWeights ∧
        ∀ t' start', step env c fuel t' start' s' = none) ∧
      (.inf ∉ select (r.distances.map fun d => decide (d < r.eps)) r.weights → (∀ x ∈ r.weights, ∀ y, x = .num y → 0 < y) → ∀ x ∈ r.keptWeights, ∃ y, x = .num y ∧ 0 < y) := by
  obtain ⟨out, eps, h1, h2, h3, h4⟩ := step_eq env c fuel t start s s' h
  have hne : start ≠ [] := by
    rintro rfl
    simp [step] at h
  have hout : ∀ o ∈ out, ∃ w ∈ start, accept env fuel (seen s) w = some o := by
    intro o ho
    have := (collect_eq_some _ _).1 h1
    have ho' : some o ∈ start.map fun w => accept env fuel (seen s) w := by rw [this]; exact List.mem_map_of_mem ho
    obtain ⟨w, hw, hw'⟩ := List.mem_map.1 ho'
    exact ⟨w, hw, hw'⟩
  have hin : ∀ w ∈ start, ∀ o, accept env fuel (seen s) w = some o → o ∈ out := by
    intro w hw o ho
    have := (collect_eq_some _ _).1 h1
    have ho' : some o ∈ out.map some := by
      rw [← this, ← ho]
      exact List.mem_map_of_mem (f := fun w => accept env fuel (seen s) w) hw
    simpa using ho'
  have hkept : ∀ r, s.hist.getLast? = some r → ∀ x ∈ r.keptWeights, ∃ y, x = .num y := by
    intro r hr
    obtain ⟨w, l, rfl⟩ := List.exists_cons_of_ne_nil hne
    cases hrl : reals r.keptWeights with
    | some ws => exact reals_mem hrl
    | none =>
      have : accept env fuel (seen s) w = none := by simp only [seen, hr, Option.map_some, accept, hrl]
      simp [this, collect] at h1
  have hnum : ∀ x ∈ (merge c s out).2.2, x = .inf ∨ ∃ y, x = .num y := by
    have hnew : ∀ x ∈ out.map Out.weight, x = .inf ∨ ∃ y, x = .num y := by
      intro x hx
      obtain ⟨o, ho, rfl⟩ := List.mem_map.1 hx
      obtain ⟨w, -, hw⟩ := hout o ho
      exact (accept_cases env hpdf fuel _ w o hw).1
    unfold merge
    split
    · exact hnew
    · split
      · exact hnew
      · rename_i r hr
        intro x hx
        rcases List.mem_append.1 hx with hx | hx
        · exact .inr (hkept r hr x hx)
        · exact hnew x hx
  refine ⟨keep eps (merge c s out), h3, fun hf => by rw [h4, if_pos hf], hnum, ?_, fun hi => ?_, fun hi hpos => ?_⟩
  · intro p ws w o hp hws hw ho hm
    have hx := ((accept_cases env hpdf fuel _ w o ho).2 p ws hp hws).2 hm
    have hmem : Num.inf ∈ out.map Out.weight := by rw [← hx]; exact List.mem_map_of_mem (hin w hw o ho)
    show Num.inf ∈ (merge c s out).2.2
    unfold merge
    split
    · exact hmem
    · split
      · exact hmem
      · exact List.mem_append_right _ hmem
  · have key : List.Forall₂ (fun x y => (x = .inf → y = .nan) ∧ ((∃ r, x = .num r) → y = .num 0)) (select ((keep eps (merge c s out)).distances.map fun d => decide (d < (keep eps (merge c s out)).eps)) (keep eps (merge c s out)).weights)
        (keep eps (merge c s out)).keptWeights := normalise_inf _ hi fun x hx => hnum x (select_mem _ _ x hx)
    refine ⟨key, fun t' start' => ?_⟩
    refine step_nan env c fuel t' start' s' (keep eps (merge c s out)) (by rw [h3]; simp) ?_
    obtain ⟨i, hi1, hi2⟩ := List.getElem_of_mem hi
    have hl := key.length_eq
    have := (List.forall₂_iff_get.1 key).2 i hi1 (by rw [← hl]; exact hi1)
    have h4 := this.1 (by simpa using hi2)
    rw [← h4]
    exact List.get_mem _ _
  · have : ∃ l : List ℝ, select ((keep eps (merge c s out)).distances.map fun d => decide (d < (keep eps (merge c s out)).eps)) (keep eps (merge c s out)).weights = l.map .num ∧ ∀ y ∈ l, 0 < y := by
      have hall : ∀ x ∈ select ((keep eps (merge c s out)).distances.map fun d => decide (d < (keep eps (merge c s out)).eps)) (keep eps (merge c s out)).weights, ∃ y : ℝ, x = .num y ∧ 0 < y := by
        intro x hx
        have hx' := select_mem _ _ x hx
        rcases hnum x hx' with rfl | ⟨y, rfl⟩
        · exact absurd hx hi
        · exact ⟨y, rfl, hpos _ hx' y rfl⟩
      generalize select ((keep eps (merge c s out)).distances.map fun d => decide (d < (keep eps (merge c s out)).eps)) (keep eps (merge c s out)).weights = l at hall
      induction l with
      | nil => exact ⟨[], rfl, by simp⟩
      | cons x l ih =>
        obtain ⟨y, rfl, hy⟩ := hall x (by simp)
        obtain ⟨l', rfl, hl'⟩ := ih fun x hx => hall x (by simp [hx])
        exact ⟨y :: l', rfl, by simpa using ⟨hy, hl'⟩⟩
    obtain ⟨l, hl, hl'⟩ := this
    intro x hx
    have e : (keep eps (merge c s out)).keptWeights = normaliseN (l.map .num) := congrArg normaliseN hl
    rw [e, (normalise_pos hl').1] at hx
    obtain ⟨y, hy, rfl⟩ := List.mem_map.1 hx
    exact ⟨y, rfl, (normalise_pos hl').2 y hy⟩

/-! ### Concrete runs -/

/-- Particles `1` and `2`; proposals are `7`, where the kernel density of all particles is computed as zero, at distance `d`. -/
noncomputable def gone (d : ℝ) : Env ℝ ℝ ℝ where
  dist y := if y = 7 then d else y
  pdf _ := 1
  kernel _ _ y := if y = 7 then 0 else 1
  prior w := (w, w)
  choose _ w := (w, 0)
  perturb _ _ w := (w, some 7)
  sim θ w := (w, θ)

theorem percentile_pair (x y : ℝ) : Verif.Pmc.percentile [x, y] 50 = some ((x + y) / 2) := by
  have h2 : ⌊(1 / 2 : ℝ)⌋₊ = 0 := Nat.floor_eq_zero.2 (by norm_num)
  rcases le_total x y with h | h
  · have hs : [x, y].insertionSort (· ≤ ·) = [x, y] := by simp [List.insertionSort, List.orderedInsert, h]
    unfold Verif.Pmc.percentile
    rw [if_neg (by norm_num), hs]
    norm_num [h2]
    ring
  · have hs : [x, y].insertionSort (· ≤ ·) = [y, x] := by
      rcases h.eq_or_lt with h | h
      · subst h; simp [List.insertionSort, List.orderedInsert]
      · simp [List.insertionSort, List.orderedInsert, h.not_ge]
    unfold Verif.Pmc.percentile
    rw [if_neg (by norm_num), hs]
    norm_num [h2]
    ring

theorem gone_first (d : ℝ) (k : Nat) : step (gone d) ⟨2, k, 1 / 2, 0, true⟩ 1 0 [1, 2] ⟨[], [], [], false⟩ =
    some ⟨[3 / 2], [⟨3 / 2, [1, 2], [1, 2], [.num 1, .num 1], [1], [1], [.num 1]⟩], [⟨3 / 2, [1, 2], [1, 2], [.num 1, .num 1], [1], [1], [.num 1]⟩], false⟩ := by
  have hp := percentile_pair 1 2
  norm_num [step, wanted, seen, accept, gone, collect, merge, acceptance, keep, select, normaliseN, PmcLik.total, PmcLik.div, Num.divReal, Num.add, hp]
  simp

theorem acceptance_nonneg (c : Config) (s : State Θ) (out : List (Out Θ)) : 0 ≤ acceptance c s out := by
  unfold acceptance
  split
  · exact zero_le_one
  · split
    · exact zero_le_one
    · positivity

theorem gone_next (d : ℝ) (k t : Nat) (ht : 0 < t) (eps : List ℝ) (hist journal : List (Rec ℝ)) (r : Rec ℝ) (h1 : r.keptParams = [1]) (h2 : r.keptDistances = [1]) (h3 : r.keptWeights = [.num 1]) :
    step (gone d) ⟨2, k, 1 / 2, 0, true⟩ 1 t [1] ⟨eps, hist ++ [r], journal, false⟩ =
      some ⟨eps ++ [(1 + d) / 2], hist ++ [r] ++ [keep ((1 + d) / 2) ([1, 7], [1, d], [.num 1, .inf])], journal ++ [keep ((1 + d) / 2) ([1, 7], [1, d], [.num 1, .inf])], false⟩ := by
  have hw : wanted ⟨2, k, 1 / 2, 0, true⟩ t = 1 := by simp only [wanted, ht, if_true]; rw [Verif.Apmc.pyRound_two]; rfl
  have hp := percentile_pair 1 d
  have ha : accept (gone d) 1 (some ⟨[1], [.num 1]⟩) 1 = some ⟨7, d, .inf⟩ := by
    have := PmcLik.reals_map [1]
    simp only [List.map_cons, List.map_nil] at this
    norm_num [accept, this, propose, gone, mixture, Num.divReal, signedInf]
  have hs : seen ⟨eps, hist ++ [r], journal, false⟩ = some ⟨[1], [.num 1]⟩ := by simp [seen, h1, h3]
  have hm : merge ⟨2, k, 1 / 2, 0, true⟩ ⟨eps, hist ++ [r], journal, false⟩ [⟨7, d, .inf⟩] = ([1, 7], [1, d], [.num 1, .inf]) := by simp [merge, h1, h2, h3]
  unfold step
  rw [if_neg (by rw [hw]; simp), hs]
  simp only [List.map_cons, List.map_nil, ha, collect, hm]
  rw [show ((1 : ℝ) / 2 * 100) = 50 by norm_num, hp]
  have := acceptance_nonneg ⟨2, k, 1 / 2, 0, true⟩ ⟨eps, hist ++ [r], journal, false⟩ [⟨7, d, Num.inf⟩]
  simp only [if_true, decide_eq_false (not_lt.2 this)]
  rfl

/-- **C227 is violated**, in two ways. The proposal is near: it is carried over, its weight becomes NaN, and a run of three steps raises (while one of two steps returns such weights). It is far: the run returns, with an infinite weight in
its journal. -/
theorem C227_run_violated : (∃ s, run (gone 0) ⟨2, 2, 1 / 2, 0, true⟩ 1 (fun t => if t = 0 then [1, 2] else [1]) = some s ∧ (s.hist.map Rec.keptWeights) = [[.num 1], [.nan]]) ∧
    run (gone 0) ⟨2, 3, 1 / 2, 0, true⟩ 1 (fun t => if t = 0 then [1, 2] else [1]) = none ∧
    ∃ s, run (gone 5) ⟨2, 3, 1 / 2, 0, true⟩ 1 (fun t => if t = 0 then [1, 2] else [1]) = some s ∧ s.journal.map Rec.weights = [[.num 1, .num 1], [.num 1, .inf], [.num 1, .inf]] ∧
      s.hist.map Rec.keptWeights = [[.num 1], [.num 1], [.num 1]] := by
  have k0 : keep ((1 + 0) / 2) ([1, 7], [1, 0], [.num 1, .inf]) = (⟨1 / 2, [1, 7], [1, 0], [.num 1, .inf], [7], [0], [.nan]⟩ : Rec ℝ) := by
    norm_num [keep, select, normaliseN, PmcLik.total, PmcLik.div, Num.add]
  have k5 : keep ((1 + 5) / 2) ([1, 7], [1, 5], [.num 1, .inf]) = (⟨3, [1, 7], [1, 5], [.num 1, .inf], [1], [1], [.num 1]⟩ : Rec ℝ) := by
    norm_num [keep, select, normaliseN, PmcLik.total, PmcLik.div, Num.add, Num.divReal]
  have n := fun d k t ht eps hist journal r h1 h2 h3 => gone_next d k t ht eps hist journal r h1 h2 h3
  have n0 := fun k => n 0 k 1 one_pos [3 / 2] [] [⟨3 / 2, [1, 2], [1, 2], [.num 1, .num 1], [1], [1], [.num 1]⟩] ⟨3 / 2, [1, 2], [1, 2], [.num 1, .num 1], [1], [1], [.num 1]⟩ rfl rfl rfl
  have n5 := n 5 3 1 one_pos [3 / 2] [] [⟨3 / 2, [1, 2], [1, 2], [.num 1, .num 1], [1], [1], [.num 1]⟩] ⟨3 / 2, [1, 2], [1, 2], [.num 1, .num 1], [1], [1], [.num 1]⟩ rfl rfl rfl
  rw [k5] at n5
  simp only [k0] at n0
  have n6 := n 5 3 2 two_pos ([3 / 2] ++ [(1 + 5) / 2]) [⟨3 / 2, [1, 2], [1, 2], [.num 1, .num 1], [1], [1], [.num 1]⟩] ([⟨3 / 2, [1, 2], [1, 2], [.num 1, .num 1], [1], [1], [.num 1]⟩] ++ [⟨3, [1, 7], [1, 5], [.num 1, .inf], [1], [1], [.num 1]⟩])
    ⟨3, [1, 7], [1, 5], [.num 1, .inf], [1], [1], [.num 1]⟩ rfl rfl rfl
  rw [k5] at n6
  simp only [List.nil_append] at n0 n5
  have first : ∀ d k, run (gone d) ⟨2, k + 1, 1 / 2, 0, true⟩ 1 (fun t => if t = 0 then [1, 2] else [1]) = loop (gone d) ⟨2, k + 1, 1 / 2, 0, true⟩ 1 (fun t => if t = 0 then [1, 2] else [1]) k 1
      ⟨[3 / 2], [⟨3 / 2, [1, 2], [1, 2], [.num 1, .num 1], [1], [1], [.num 1]⟩], [⟨3 / 2, [1, 2], [1, 2], [.num 1, .num 1], [1], [1], [.num 1]⟩], false⟩ := by
    intro d k
    unfold run
    simp only
    rw [loop, if_neg (by simp), if_pos rfl, gone_first]
  have next : ∀ (d : ℝ) (c : Config) (k t : Nat) (ht : t ≠ 0) (s s' : State ℝ), s.stopped = false → step (gone d) c 1 t [1] s = some s' →
      loop (gone d) c 1 (fun t => if t = 0 then [1, 2] else [1]) (k + 1) t s = loop (gone d) c 1 (fun t => if t = 0 then [1, 2] else [1]) k (t + 1) s' := by
    intro d c k t ht s s' hs h
    rw [loop, if_neg (by simp [hs]), if_neg ht, h]
  refine ⟨?_, ?_, ?_⟩
  · rw [first 0 1, next 0 _ 0 1 one_ne_zero _ _ rfl (n0 2)]
    exact ⟨_, rfl, rfl⟩
  · rw [first 0 2, next 0 _ 1 1 one_ne_zero _ _ rfl (n0 3), loop, if_neg (by simp), if_neg (by simp)]
    rw [step_nan (gone 0) _ 1 _ [1] _ ⟨1 / 2, [1, 7], [1, 0], [.num 1, .inf], [7], [0], [.nan]⟩ (by simp) (by simp)]
  · rw [first 5 2, next 5 _ 1 1 one_ne_zero _ _ rfl n5, next 5 _ 0 2 two_ne_zero _ _ rfl n6]
    exact ⟨_, rfl, rfl, rfl⟩

end Verif.Nan.ApmcWeights
