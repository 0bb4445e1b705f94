import Verif.Smc.Props
import Verif.Rsmc.Props
import Verif.Apmc.Props
import Verif.Sabc.Props
import Verif.Subsim.Props
import Verif.Pmc.Props
import Verif.PmcLik.Run
/-
C235: every particle in a journal has a prior density that is not zero.
-/
namespace Verif.Support

variable {W Θ Y M : Type}

/-- Specification: all parameters of the list have a prior density that is not zero. -/
def Inside (pdf : Θ → ℝ) (l : List Θ) : Prop := ∀ θ ∈ l, pdf θ ≠ 0

theorem inside_append (pdf : Θ → ℝ) (a b : List Θ) (h : Inside pdf a) (h' : Inside pdf b) : Inside pdf (a ++ b) := fun θ hθ =>
  (List.mem_append.1 hθ).elim (h θ) (h' θ)

theorem inside_collect (pdf : Θ → ℝ) (l : List Nat) (ps qs : List Θ) (h : collect (l.map fun i => ps[i]?) = some qs) (hp : Inside pdf ps) : Inside pdf qs := by
  rw [collect_eq_some] at h
  intro θ hθ
  have : some θ ∈ qs.map some := List.mem_map_of_mem hθ
  rw [← h, List.mem_map] at this
  obtain ⟨i, -, hi⟩ := this
  exact hp θ (List.mem_of_getElem? hi)

section Smc
open Verif.Smc

/-- C235 for `SMCABC`. -/
theorem C235_smcabc (env : Env W Θ Y) (hprior : ∀ w, env.pdf (env.prior w).2 ≠ 0) (c : Config) (dr : Draws) (distMax : Option ℝ) (fuel : Nat) (start : Nat → List W) (s : State Θ Y)
    (h : smcRun env c dr distMax fuel start = some s) : ∀ r ∈ s.journal, Inside env.pdf r.params := by
  unfold smcRun at h
  split at h
  swap
  · cases h
  have hsave : ∀ (t : Nat) (s : State Θ Y) (past : List ℝ) (cur : ℝ) (wts : List ℝ) (l : List (Out Θ Y)), (∀ o ∈ l, env.pdf o.θ ≠ 0) → (∀ r ∈ s.journal, Inside env.pdf r.params) →
      (∀ r, (save c t s past cur wts l).last = some r → Inside env.pdf r.params) ∧ ∀ r ∈ (save c t s past cur wts l).journal, Inside env.pdf r.params := by
    intro t s past cur wts l hl hj
    have ho : Inside env.pdf (outRec wts l).params := by
      intro θ hθ
      obtain ⟨o, ho, rfl⟩ := List.mem_map.1 hθ
      exact hl o ho
    refine ⟨fun r hr => by cases hr; exact ho, fun r hr => ?_⟩
    simp only [save] at hr
    split at hr
    · split at hr
      · rcases List.mem_append.1 hr with hr | hr
        · exact hj r hr
        · rw [List.mem_singleton.1 hr]; exact ho
      · rw [List.mem_singleton.1 hr]; exact ho
    · exact hj r hr
  obtain ⟨_, _, hI, _⟩ := smcLoop_inv env c dr fuel start (fun _ s => (∀ r, s.last = some r → Inside env.pdf r.params) ∧ ∀ r ∈ s.journal, Inside env.pdf r.params)
    (fun t s s' hI _ hs => by
      rcases smcStep_spec env c dr fuel t (start t) s s' hs with ⟨-, rfl⟩ | ⟨p, eps, wts, q, l, hp, -, -, hq, hm, rfl⟩
      · refine hsave _ _ _ _ _ _ (fun o ho => ?_) hI.2
        obtain ⟨w, -, rfl⟩ := List.mem_map.1 ho
        exact hprior w
      · refine hsave _ _ _ _ _ _ (fun o ho => ?_) hI.2
        have hqp : Inside env.pdf q.params := by
          unfold resampled at hq
          split at hq
          · obtain ⟨l, hl, rfl⟩ := Option.map_eq_some_iff.1 hq
            exact inside_collect _ _ _ _ hl (hI.1 p hp)
          · cases hq; exact hI.1 p hp
        obtain ⟨i, hi⟩ := List.mem_iff_getElem?.1 ho
        obtain ⟨θ, wt, y, h1, -, -, -, -, h2⟩ := (moved_spec env c fuel eps q p.sims (start t) l hm).2 i o hi
        rcases h2 with ⟨h2, -⟩ | ⟨θ', w, h2, -, h3⟩
        · rw [h2]; exact hqp _ (List.mem_of_getElem? h1)
        · rw [h2]; exact h3)
    c.steps 0 _ s ⟨fun r hr => (by cases hr), fun r hr => by cases hr⟩ h
  exact hI.2

/-- The hypothesis holds in a run of two steps. -/
example : (∀ w, exEnv.pdf (exEnv.prior w).2 ≠ 0) ∧ ∃ s, smcRun exEnv (exConfig 2) ⟨fun _ _ => [0, 0], fun _ => 1⟩ (some 1) 1 (fun _ => [0, 1]) = some s ∧ s.journal.getLast? = s.last := by
  obtain ⟨s, h1, -, -, -, h4⟩ := exRun 2 ⟨[0, 0], [1 / 2, 1 / 2]⟩ (by norm_num [resampled, exConfig, ess, collect, equalWeights, List.replicate]) _ _ _ _ rfl
  exact ⟨fun w => by simp [exEnv], s, h1, h4⟩

end Smc

section Rsmc
open Verif.Rsmc

theorem priorLoop_inside (env : Env W Θ Y) (hprior : ∀ w, env.pdf (env.prior w).2 ≠ 0) (eps : ℝ) (fuel : Nat) (w : W) (held : Θ) (d : Option ℝ) (n : Nat) (e : Θ × Option ℝ × Nat)
    (h : priorLoop env eps fuel w held d n = some e) (hh : Pmc.above d eps = true ∨ env.pdf held ≠ 0) : env.pdf e.1 ≠ 0 := by
  induction fuel generalizing w held d n with
  | zero => cases h
  | succ fuel ih =>
    rw [priorLoop] at h
    split at h
    · exact ih _ _ _ _ h (.inr (hprior w))
    · rename_i ha
      cases h
      rcases hh with hh | hh
      · exact absurd hh ha
      · exact hh

/-- C235 for `RSMCABC`, if the first threshold is below the declared maximum of the distance, which may be infinite. -/
theorem C235_rsmcabc (env : Env W Θ Y) (hprior : ∀ w, env.pdf (env.prior w).2 ≠ 0) (c : Config) (hc0 : 0 < c.const) (hc1 : c.const ≤ 1) (hmax : Pmc.above env.distMax c.epsInit = true) (fuel : Nat) (start : Nat → List (W × Θ)) (s : State Θ)
    (h : run env c fuel start = .ok s) : ∀ r ∈ s.hist, Inside env.pdf r.params :=
  (loop_inv env c fuel start (fun _ s => Inv c s ∧ (∀ r ∈ s.hist, Inside env.pdf r.params) ∧ ∀ k, s.kept = some k → Inside env.pdf k.1)
    (fun t s s' hI hs => by
      have hInv := inv_step env c hc0 hc1 fuel t (start t) s s' hI.1 hs
      replace hI := hI.2
      obtain ⟨eps, out, ds, r, m, h1, -, h3, h4, h5, h6, -, hr, rfl⟩ := step_spec env c fuel t (start t) s s' hs
      have hout : Inside env.pdf (out.map Out.θ) := by
        intro θ hθ
        obtain ⟨o, ho, rfl⟩ := List.mem_map.1 hθ
        have : some o ∈ out.map some := List.mem_map_of_mem ho
        rw [← h5, List.mem_map] at this
        obtain ⟨e, -, he⟩ := this
        have hmoves : 1 ≤ s.moves := by
          have := (hInv.hist r (List.mem_append_right _ (List.mem_singleton.2 rfl))).2.2.1
          rwa [hr] at this
        cases hk : s.kept with
        | none =>
          simp only [seen, hk, Option.map_none, accept, Option.map_eq_some_iff] at he
          obtain ⟨x, hx, rfl⟩ := he
          exact priorLoop_inside env hprior eps fuel _ _ _ _ x hx (.inl (by
            rw [threshold, hk, Option.some.injEq] at h1
            rw [← h1]; exact hmax))
        | some k =>
          simp only [seen, hk, Option.map_some, accept, Option.bind_eq_some_iff] at he
          obtain ⟨θ, hθ, dθ, -, hm⟩ := he
          obtain ⟨-, -, -, m2⟩ := moveLoop_spec env fuel eps _ _ θ dθ _ _ _ _ 0 0 o hm
          rw [(m2 (by omega)).1]
          exact hI.2 k hk θ (List.mem_of_getElem? hθ)
      have hbase : Inside env.pdf (base c s out.length).1 := by
        unfold base
        split
        · intro θ hθ; cases hθ
        · cases hk : s.kept with
          | none => intro θ hθ; cases hθ
          | some k => exact hI.2 k hk
      have hrp : Inside env.pdf r.params := by rw [hr]; exact inside_append _ _ _ hbase hout
      refine ⟨hInv, fun r' hr' => ?_, fun k hk => ?_⟩
      · rcases List.mem_append.1 hr' with hr' | hr'
        · exact hI.1 r' hr'
        · rw [List.mem_singleton.1 hr']; exact hrp
      · cases hk
        intro θ hθ
        simp only [trim] at hθ
        obtain ⟨x, hx, rfl⟩ := List.mem_map.1 (List.mem_of_mem_take hθ)
        rw [(List.perm_insertionSort _ _).mem_iff] at hx
        exact hrp _ (List.of_mem_zip hx).2)
    c.steps 0 _ s ⟨⟨fun _ => ⟨rfl, rfl, rfl⟩, fun k hk => (by cases hk), zero_le_one, rfl, List.Pairwise.nil, fun e he => (by cases he), fun r hr => by cases hr⟩,
      fun r hr => (by cases hr), fun k hk => by cases hk⟩ h).2.1

/-- The hypotheses hold in a run of two steps. -/
example : (∀ w, exEnv.pdf (exEnv.prior w).2 ≠ 0) ∧ (0 < (exConfig 0).const ∧ (exConfig 0).const ≤ 1) ∧ Pmc.above exEnv.distMax (exConfig 0).epsInit = true ∧
    ∃ s, run exEnv (exConfig 0) 2 exStart = .ok s := ⟨fun w => by simp [exEnv], by norm_num [exConfig], rfl, _, exRun⟩

end Rsmc

section Apmc
open Verif.Apmc

/-- C235 for `APMCABC`. -/
theorem C235_apmcabc (env : Env W Θ Y) (hprior : ∀ w, env.pdf (env.prior w).2 ≠ 0) (c : Config) (fuel : Nat) (start : Nat → List W) (s : State Θ)
    (h : run env c fuel start = some s) : ∀ r ∈ s.hist, Inside env.pdf r.params := by
  obtain ⟨_, _, _, hI, _⟩ := loop_inv env c fuel start (fun _ s => ∀ r ∈ s.hist, Inside env.pdf r.params ∧ Inside env.pdf r.keptParams)
    (fun t s s' hI _ hs => by
      obtain ⟨out, eps, h1, h2, h3, h4, rfl⟩ := step_spec env c fuel t (start t) s s' hs
      have hout : Inside env.pdf (out.map Out.θ) := by
        intro θ hθ
        obtain ⟨o, ho, rfl⟩ := List.mem_map.1 hθ
        have : some o ∈ out.map some := List.mem_map_of_mem ho
        rw [← h3, List.mem_map] at this
        obtain ⟨w, -, he⟩ := this
        unfold accept at he
        split at he
        · cases he; exact hprior w
        · simp only [Option.bind_eq_some_iff, Option.map_eq_some_iff] at he
          obtain ⟨_, -, a, ha, rfl⟩ := he
          exact Smc.propose_pdf _ _ _ _ a.1 a.2 ha
      have hm : Inside env.pdf (merge c s out).1 := by
        unfold merge
        split
        · exact hout
        · split
          · exact hout
          · rename_i r hr
            exact inside_append _ _ _ (hI r (List.mem_of_getLast? hr)).2 hout
      intro r hr
      rcases List.mem_append.1 hr with hr | hr
      · exact hI r hr
      · rw [List.mem_singleton.1 hr]
        exact ⟨hm, fun θ hθ => hm θ (select_mem _ _ _ hθ)⟩)
    c.steps 0 _ s (fun r hr => by cases hr) h
  exact fun r hr => (hI r hr).1

/-- Only values up to 1 have a positive density, and the first proposal of a worker with state 2 is 2. -/
noncomputable def boundedEnv : Env ℝ ℝ ℝ := { exEnv with pdf := fun θ => if θ ≤ 1 then 1 else 0, prior := fun w => (w, min w 1), perturb := fun _ _ w => (w / 2, some w) }

noncomputable def boundedStart (t : Nat) : List ℝ := if t = 0 then [0, 1] else [2]

/-- The hypotheses hold in a run in which a proposal outside of the support is drawn again. -/
example : (∀ w, boundedEnv.pdf (boundedEnv.prior w).2 ≠ 0) ∧ boundedEnv.pdf 2 = 0 ∧ (boundedEnv.perturb ⟨[0], [1]⟩ 0 2).2 = some 2 ∧
    ∃ s, run boundedEnv ⟨2, 2, 1 / 2, 0, true⟩ 2 boundedStart = some s ∧ s.hist.map Rec.params = [[0, 1], [0, 1]] := by
  refine ⟨fun w => by simp [boundedEnv], by norm_num [boundedEnv], rfl, ?_⟩
  have hw : wanted ⟨2, 2, 1 / 2, 0, true⟩ 1 = 1 := by simp only [wanted]; rw [pyRound_two]; rfl
  have hp := percentile_two 1 zero_le_one
  have h1 : step boundedEnv ⟨2, 2, 1 / 2, 0, true⟩ 2 0 (boundedStart 0) ⟨[], [], [], false⟩ =
      some ⟨[1 / 2], [⟨1 / 2, [0, 1], [0, 1], [1, 1], [0], [0], [1]⟩], [⟨1 / 2, [0, 1], [0, 1], [1, 1], [0], [0], [1]⟩], false⟩ := by
    norm_num [step, boundedStart, wanted, seen, accept, boundedEnv, exEnv, collect, merge, acceptance, keep, select, Pmc.normalise, hp]
    simp
  have h2 : ∃ s, step boundedEnv ⟨2, 2, 1 / 2, 0, true⟩ 2 1 (boundedStart 1) ⟨[1 / 2], [⟨1 / 2, [0, 1], [0, 1], [1, 1], [0], [0], [1]⟩], [⟨1 / 2, [0, 1], [0, 1], [1, 1], [0], [0], [1]⟩], false⟩ = some s ∧
      s.hist.map Rec.params = [[0, 1], [0, 1]] := by
    norm_num [step, boundedStart, hw, seen, accept, Smc.propose, boundedEnv, exEnv, collect, merge, acceptance, keep, select, Pmc.normalise, mixture, hp]
  obtain ⟨s, h2, h3⟩ := h2
  refine ⟨s, ?_, h3⟩
  unfold run
  simp only
  rw [loop, h1]
  simp only [Bool.false_eq_true, if_false]
  rw [loop, h2]
  simp only [Bool.false_eq_true, if_false, loop]

end Apmc

section Sabc
open Verif.Sabc

theorem first_inside (env : Env W Θ Y) (hprior : ∀ w, env.pdf (env.prior w).2 ≠ 0) (eps : ℝ) (index fuel : Nat) (w : W) (all : List ℝ) (n : Nat) (o : Out Θ)
    (h : first env eps index fuel w all n = some o) : env.pdf o.θ ≠ 0 := by
  induction fuel generalizing w all n with
  | zero => cases h
  | succ fuel ih =>
    rw [first] at h
    split at h
    · cases h; exact hprior w
    · exact ih _ _ _ h

theorem finish_inside (env : Env W Θ Y) (c : Config) (t : Nat) (u : ℝ) (s s' : State Θ) (h : finish env c t u s = some s') (h1 : Inside env.pdf s.params) (h2 : ∀ e ∈ s.journal, Inside env.pdf e.1) :
    Inside env.pdf s'.params ∧ ∀ e ∈ s'.journal, Inside env.pdf e.1 := by
  have hj : ∀ (ps : List Θ) (ds : List ℝ), Inside env.pdf ps → ∀ e ∈ (if c.full then s.journal ++ [(ps, ds)] else [(ps, ds)]), Inside env.pdf e.1 := by
    intro ps ds hp e he
    split at he
    · rcases List.mem_append.1 he with he | he
      · exact h2 e he
      · rw [List.mem_singleton.1 he]; exact hp
    · rw [List.mem_singleton.1 he]; exact hp
  unfold finish at h
  simp only at h
  split at h
  · split at h
    · split at h
      · rename_i ps sm ds hps hsm hds
        cases h
        have := inside_collect _ _ _ _ hps h1
        exact ⟨this, hj _ _ this⟩
      · cases h
    · cases h
  · cases h
    exact ⟨h1, hj _ _ h1⟩

/-- C235 for `SABC`. -/
theorem C235_sabc (env : Env W Θ Y) (hprior : ∀ w, env.pdf (env.prior w).2 ≠ 0) (c : Config) (fuel : Nat) (start : Nat → List W) (s : State Θ)
    (h : run env c fuel start = some s) : Inside env.pdf s.params ∧ ∀ e ∈ s.journal, Inside env.pdf e.1 := by
  obtain ⟨_, _, _, hI, _⟩ := loop_inv env c fuel start (fun _ s => Inside env.pdf s.params ∧ ∀ e ∈ s.journal, Inside env.pdf e.1)
    (fun t s s' hI _ hs => by
      unfold step at hs
      by_cases hc : (start t).length ≠ (if t = 0 then c.n else c.nUpdate) ∨ start t = []
      · rw [if_pos hc] at hs; cases hs
      rw [if_neg hc] at hs
      cases hout : collect ((start t).map fun w => if t = 0 then first env c.eps 0 fuel w [] 0 else move env fuel c.n s w) with
      | none => rw [hout] at hs; cases hs
      | some out =>
      rw [hout] at hs
      simp only at hs
      rw [collect_eq_some] at hout
      have ho : ∀ o ∈ out, env.pdf o.θ ≠ 0 := by
        intro o ho
        have : some o ∈ out.map some := List.mem_map_of_mem ho
        rw [← hout, List.mem_map] at this
        obtain ⟨w, -, he⟩ := this
        split at he
        · exact first_inside env hprior _ _ _ _ _ _ o he
        · simp only [move, Option.bind_eq_some_iff, Option.map_eq_some_iff] at he
          obtain ⟨_, -, _, -, a, ha, _, -, rfl⟩ := he
          exact Smc.propose_pdf _ _ _ _ a.1 a.2 ha
      cases hp : (if t = 0 then begin_ out else replace s out) with
      | none => rw [hp] at hs; cases hs
      | some p =>
      rw [hp] at hs
      have hpp : Inside env.pdf p.1 := by
        split at hp
        · obtain ⟨_, -, rfl⟩ := Option.map_eq_some_iff.1 hp
          intro θ hθ
          obtain ⟨o, hoo, rfl⟩ := List.mem_map.1 hθ
          exact ho o hoo
        · obtain ⟨_, -, rfl⟩ := Option.map_eq_some_iff.1 hp
          intro θ hθ
          obtain ⟨k, hk⟩ := List.mem_iff_getElem?.1 hθ
          rcases assign_get _ _ k θ hk with ⟨e, he, -, rfl⟩ | ⟨-, h⟩
          · obtain ⟨o, hoo, rfl⟩ := List.mem_map.1 he
            exact ho o (List.mem_filter.1 hoo).1
          · exact hI.1 θ (List.mem_of_getElem? h)
      simp only at hs
      split at hs
      · split at hs
        · cases hs
        · exact finish_inside env c t _ _ s' hs hpp hI.2
      · split at hs
        · cases hs; exact ⟨hpp, hI.2⟩
        · exact finish_inside env c t _ _ s' hs hpp hI.2)
    c.steps 0 _ s ⟨fun θ hθ => (by cases hθ), fun e he => by cases he⟩ h
  exact hI

/-- The hypothesis holds in a run of two steps. -/
example : (∀ w, exEnv.pdf (exEnv.prior w).2 ≠ 0) ∧ ∃ s, run exEnv ⟨1, 2, 2, 10, 1 / 10, 1, 6 / 10, true⟩ 1 exStart = some s ∧ s.params = [1 / 2] := by
  obtain ⟨s, h1, -, h2, -⟩ := C46_sabc_violated
  exact ⟨fun w => by simp [exEnv], s, h1, h2⟩

end Sabc

section Subsim
open Verif.Subsim

theorem chain_inside (env : Env W Θ Y M) (fuel : Nat) (covs : List M) (anneal : ℝ) (base : Θ) (k : Nat) (w : W) (θ : Θ) (d : ℝ) (r : List Θ × List ℝ)
    (h : chain env fuel covs anneal base k w θ d = some r) (hθ : env.pdf θ ≠ 0) : Inside env.pdf r.1 := by
  induction k generalizing w θ d r with
  | zero => cases h; intro θ hθ; cases hθ
  | succ k ih =>
    rw [chain] at h
    split at h
    · cases h
    rename_i w1 θ' hp
    have hp' : env.pdf θ' ≠ 0 := Smc.propose_pdf _ _ _ _ w1 θ' hp
    simp only at h
    split at h
    · obtain ⟨r', hr, rfl⟩ := Option.map_eq_some_iff.1 h
      exact inside_append _ [θ'] _ (by intro x hx; rw [List.mem_singleton.1 hx]; exact hp') (ih _ _ _ _ hr hp')
    · obtain ⟨r', hr, rfl⟩ := Option.map_eq_some_iff.1 h
      exact inside_append _ [θ] _ (by intro x hx; rw [List.mem_singleton.1 hx]; exact hθ) (ih _ _ _ _ hr hθ)

/-- C235 for `ABCsubsim`. -/
theorem C235_subsim (env : Env W Θ Y M) (hprior : ∀ w, env.pdf (env.prior w).2 ≠ 0) (c : Config) (fuel : Nat) (start tuneStart : Nat → List W) (s : State Θ M)
    (h : run env c fuel start tuneStart = some s) : ∀ r ∈ s.journal, Inside env.pdf r.params := by
  obtain ⟨s0, h0, rfl⟩ := Option.map_eq_some_iff.1 h
  obtain ⟨_, _, _, hI, _⟩ := loop_inv env c fuel start tuneStart (fun _ s => (∀ e ∈ s.hist, Inside env.pdf e.1.params) ∧ ∀ r ∈ s.journal, Inside env.pdf r.params)
    (fun t s s' hI _ hs => by
      unfold step at hs
      by_cases hc : (start t).length ≠ (if t = 0 then c.n else c.n / c.length) ∨ start t = [] ∨ c.length = 0 ∨ (tuneStart t).length ≠ 10
      · rw [if_pos hc] at hs; cases hs
      rw [if_neg hc] at hs
      simp only at hs
      split at hs
      · cases hs
      rename_i out hout
      have ho : ∀ r ∈ out, Inside env.pdf r.1 := by
        intro r hr
        split at hout
        · cases hout
          obtain ⟨w, -, rfl⟩ := List.mem_map.1 hr
          intro θ hθ
          rw [List.mem_singleton.1 hθ]
          exact hprior w
        · rename_i o hold
          rw [collect_eq_some] at hout
          have : some r ∈ out.map some := List.mem_map_of_mem hr
          rw [← hout, List.mem_map] at this
          obtain ⟨e, -, he⟩ := this
          simp only [accept, Option.bind_eq_some_iff, Option.map_eq_some_iff] at he
          obtain ⟨θ, hθ, _, -, r', hr', rfl⟩ := he
          have := hI.1 o (List.mem_of_getLast? hold) θ (List.mem_of_getElem? hθ)
          exact inside_append _ [θ] _ (by intro x hx; rw [List.mem_singleton.1 hx]; exact this) (chain_inside env _ _ _ _ _ _ _ _ r' hr' this)
      have hp : Inside env.pdf ((sorted (out.map Prod.fst).flatten (out.map Prod.snd).flatten).map Prod.snd) := by
        intro θ hθ
        obtain ⟨x, hx, rfl⟩ := List.mem_map.1 hθ
        rw [sorted, (List.perm_insertionSort _ _).mem_iff] at hx
        obtain ⟨l, hl, hm⟩ := List.mem_flatten.1 (List.of_mem_zip hx).2
        obtain ⟨r, hr, rfl⟩ := List.mem_map.1 hl
        exact ho r hr _ hm
      split at hs
      swap
      · cases hs
      split at hs
      · cases hs
      split at hs
      · cases hs
      cases hs
      refine ⟨fun e he => ?_, fun r hr => ?_⟩
      · rcases List.mem_append.1 he with he | he
        · exact hI.1 e he
        · rw [List.mem_singleton.1 he]; exact hp
      · simp only at hr
        split at hr
        · rcases List.mem_append.1 hr with hr | hr
          · exact hI.2 r hr
          · rw [List.mem_singleton.1 hr]; exact hp
        · exact hI.2 r hr)
    c.steps 0 _ s0 ⟨fun r hr => (by cases hr), fun r hr => by cases hr⟩ h0
  intro r hr
  simp only at hr
  split at hr
  · exact hI.2 r hr
  · simp only [Option.mem_toList, Option.map_eq_some_iff] at hr
    obtain ⟨e, he, rfl⟩ := hr
    exact hI.1 e (List.mem_of_getLast? he)

/-- The hypothesis holds in a run of two steps. -/
example : (∀ w, exEnv.pdf (exEnv.prior w).2 ≠ 0) ∧ ∃ s, run exEnv ⟨5, 2, 2, 0, true⟩ 1 exStart exTune = some s := by
  obtain ⟨s, h, -⟩ := exRun
  exact ⟨fun w => by simp [exEnv], s, h⟩

end Subsim

section Pmc
open Verif.Pmc

theorem resampleLoop_inside (env : Env W Θ Y) (hprior : ∀ w, env.pdf (env.prior w).2 ≠ 0) (eps : ℝ) (pop : Option (Pop Θ)) (fuel : Nat) (w : W) (θ : Θ) (d : Option ℝ) (n : Nat) (e : Θ × Option ℝ × Nat)
    (h : resampleLoop env eps pop fuel w θ d n = some e) (hh : above d eps = true ∨ env.pdf θ ≠ 0) : env.pdf e.1 ≠ 0 := by
  induction fuel generalizing w θ d n with
  | zero => cases h
  | succ fuel ih =>
    unfold resampleLoop at h
    split at h
    · split at h
      · exact ih _ _ _ _ h (.inr (hprior w))
      · simp only at h
        split at h
        · cases h
        · rename_i w' θ' hp
          exact ih _ _ _ _ h (.inr (proposeLoop_pdf env _ _ _ _ w' θ' hp))
    · rename_i ha
      cases h
      rcases hh with hh | hh
      · exact absurd hh ha
      · exact hh

/-- C235 for `PMCABC`, if the thresholds are below the declared maximum of the distance, which may be infinite. -/
theorem C235_pmcabc (env : Env W Θ Y) (hprior : ∀ w, env.pdf (env.prior w).2 ≠ 0) (steps : Nat) (epsInit : List ℝ) (pct : ℝ) (fuel : Nat) (start : Nat → List W)
    (before : Option (Pop Θ)) (counter : Nat) (s : State Θ) (h : pmcRun env steps epsInit pct fuel start before counter = some s)
    (hmax : ∀ r ∈ s.hist, above env.distMax r.eps = true) : ∀ r ∈ s.hist, Inside env.pdf r.params := by
  unfold pmcRun at h
  split at h
  · cases h
  rename_i arr _
  have key : ∀ (k t : Nat) (s s' : State Θ), ((∀ r ∈ s.hist, above env.distMax r.eps = true) → ∀ r ∈ s.hist, Inside env.pdf r.params) → pmcLoop env steps pct fuel start k t s = some s' →
      (∀ r ∈ s'.hist, above env.distMax r.eps = true) → ∀ r ∈ s'.hist, Inside env.pdf r.params := by
    intro k
    induction k with
    | zero => intro t s s' hI h; cases h; exact hI
    | succ k ih =>
      intro t s s' hI h
      rw [pmcLoop] at h
      split at h
      · cases h
      rename_i s1 hs
      refine ih _ s1 s' ?_ h
      unfold pmcStep at hs
      split at hs
      swap
      · cases hs
      rename_i eps _
      split at hs
      swap
      · cases hs
      split at hs
      · cases hs
      rename_i res hres
      simp only at hs
      split at hs
      · cases hs
      cases hs
      intro hab r hr
      rcases List.mem_append.1 hr with hr | hr
      · exact hI (fun r hr => hab r (List.mem_append_left _ hr)) r hr
      · rw [List.mem_singleton.1 hr]
        intro θ hθ
        obtain ⟨x, hx, rfl⟩ := List.mem_map.1 hθ
        rw [collect_eq_some] at hres
        have : some x ∈ res.map some := List.mem_map_of_mem hx
        rw [← hres, List.mem_map] at this
        obtain ⟨w, -, he⟩ := this
        unfold resampleTask at he
        split at he
        · rename_i θ d n hl
          cases he
          exact resampleLoop_inside env hprior eps _ fuel _ _ _ _ _ hl (.inl (hab ⟨eps, _, _, _⟩ (List.mem_append_right _ (List.mem_singleton.2 rfl))))
        · cases he
  exact key steps 0 _ s (fun _ r hr => by cases hr) h hmax

/-- The hypotheses hold in a run of two steps. -/
example : ∃ s, pmcRun easy 2 [1] 50 3 (fun _ => [(), ()]) none 0 = some s ∧ (∀ w, easy.pdf (easy.prior w).2 ≠ 0) ∧ ∀ r ∈ s.hist, above easy.distMax r.eps = true := by
  obtain ⟨s, h1, -⟩ := easy_run
  exact ⟨s, h1, fun w => by simp [easy], fun r _ => by simp [easy, above]⟩

end Pmc

section PmcLik
open Verif.Pmc (Pop)
open Verif.PmcLik

theorem proposeLoop_inside (env : Env M W Θ Y) (p : Pop Θ) (i fuel : Nat) (m m' : M) (θ : Θ) (h : proposeLoop env p i fuel m = some (m', θ)) : env.pdf θ ≠ 0 := by
  induction fuel generalizing m with
  | zero => cases h
  | succ fuel ih =>
    rw [proposeLoop] at h
    split at h
    · exact ih _ h
    · split at h
      · rename_i hne
        cases h; exact hne
      · exact ih _ h

theorem proposals_inside (env : Env M W Θ Y) (p : Pop Θ) (fuel : Nat) (is : List Nat) (m m' : M) (l : List Θ) (h : proposals env p fuel is m = some (m', l)) : Inside env.pdf l := by
  induction is generalizing m l with
  | nil => cases h; intro θ hθ; cases hθ
  | cons i is ih =>
    rw [proposals] at h
    split at h
    · cases h
    · rename_i m1 θ1 hp
      obtain ⟨r, hr, he⟩ := Option.map_eq_some_iff.1 h
      cases he
      exact inside_append _ [θ1] _ (by intro x hx; rw [List.mem_singleton.1 hx]; exact proposeLoop_inside env p i fuel _ _ θ1 hp) (ih _ r.2 hr)

theorem pmcLoop_inside (env : Env M W Θ Y) (n steps fuel : Nat) (full : Bool) (k t : Nat) (m m' : M) (p : Pop Θ) (c c' : Nat) (j j' : Journal Θ) (pops : List (Pop Θ))
    (h : loop env n steps fuel full k t m p c j = some (m', pops, c', j')) : (∀ q ∈ pops, Inside env.pdf q.params) ∧ ∀ q ∈ j'.pops, q ∈ j.pops ∨ Inside env.pdf q.params := by
  induction k generalizing t m p c j pops with
  | zero => cases h; exact ⟨fun q hq => (by cases hq), fun q hq => .inl hq⟩
  | succ k ih =>
    rw [loop] at h
    split at h
    · cases h
    rename_i m1 q1 hs
    obtain ⟨r, hr, he⟩ := Option.map_eq_some_iff.1 h
    obtain ⟨a, b, e, f⟩ := r
    simp only [Prod.mk.injEq] at he
    obtain ⟨rfl, rfl, rfl, rfl⟩ := he
    obtain ⟨h1, h2⟩ := ih _ _ _ _ _ b hr
    have hq : Inside env.pdf q1.params := by
      unfold step at hs
      split at hs
      · simp only at hs
        split at hs
        · cases hs
        · rename_i m2 l hl
          cases hs
          exact proposals_inside env p fuel _ _ m2 l hl
      · cases hs
    refine ⟨fun q hq' => ?_, fun q hq' => ?_⟩
    · rcases List.mem_cons.1 hq' with rfl | hq'
      · exact hq
      · exact h1 q hq'
    · rcases h2 q hq' with hw | hw
      · unfold write at hw
        split at hw
        · simp only at hw
          split at hw
          · rcases List.mem_append.1 hw with hw | hw
            · exact .inl hw
            · rw [List.mem_singleton.1 hw]; exact .inr hq
          · rw [List.mem_singleton.1 hw]; exact .inr hq
        · exact .inl hw
      · exact .inr hw

/-- C235 for `PMC`: whatever points the run starts from, all populations that it makes, and all populations of the journal that were not in the journal file, are inside. -/
theorem C235_pmc (env : Env M W Θ Y) (n steps fuel : Nat) (full : Bool) (ini : Option (List Θ)) (m m' : M) (counter c' : Nat) (file : Option (Journal Θ)) (j' : Journal Θ) (pops : List (Pop Θ))
    (h : sample env n steps fuel full ini m counter file = some (m', pops, c', j')) :
    (∀ q ∈ pops, Inside env.pdf q.params) ∧ ∀ q ∈ j'.pops, (∃ j, file = some j ∧ q ∈ j.pops) ∨ Inside env.pdf q.params := by
  unfold sample at h
  split at h
  · cases h
  · obtain ⟨h1, h2⟩ := pmcLoop_inside env n steps fuel full _ _ _ _ _ _ _ _ _ _ h
    refine ⟨h1, fun q hq => .inr ((h2 q hq).resolve_left ?_)⟩
    simp
  · rename_i j _
    split at h
    · cases h
      exact ⟨fun q hq => (by cases hq), fun q hq => .inl ⟨_, rfl, hq⟩⟩
    · split at h
      · cases h
      · obtain ⟨h1, h2⟩ := pmcLoop_inside env n steps fuel full _ _ _ _ _ _ _ _ _ _ h
        exact ⟨h1, fun q hq => (h2 q hq).imp (fun h => ⟨_, rfl, h⟩) id⟩

/-- A run of three steps that continues a journal. -/
example : ∃ r, sample easy 2 3 1 true none () 0 (some ⟨true, [⟨[1, 1], [1 / 2, 1 / 2]⟩], [10]⟩) = some r := by
  unfold sample first
  exact easy_loop 2 3 3 0 0 true _ _ rfl rfl

end PmcLik

end Verif.Support
