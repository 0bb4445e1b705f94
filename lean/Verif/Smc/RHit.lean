import Verif.Smc.Run
import Mathlib.Data.Nat.Choose.Basic
import Mathlib.Tactic.Push
import Mathlib.Tactic.IntervalCases
/-
C92 (consequences), C93 - C94: the moves of `SMCABC`, in particular the r-hit kernels.
-/
namespace Verif.Smc

open Verif.Pmc (Pop normalise)
open Spec

variable {W Θ Y A : Type} (env : Env W Θ Y) (c : Config) (dr : Draws)

/-! ### C92: consequences for a particle -/

theorem proposal_pdf (pdf : Θ → ℝ) (perturb : W → W × Option Θ) (w w' : W) (θ : Θ) (h : Proposal pdf perturb w w' θ) : pdf θ ≠ 0 := by
  induction h with
  | take _ _ _ h => exact h
  | refused _ _ _ _ _ ih => exact ih
  | impossible _ _ _ _ _ _ _ ih => exact ih

theorem trials_mem (trial : W → W → A → Prop) (w w' : W) (l : List A) (h : Trials trial w w' l) : ∀ a ∈ l, ∃ w1 w2, trial w1 w2 a := by
  induction h with
  | nil => simp
  | cons w w1 w' a l h _ ih =>
    intro b hb
    rcases List.mem_cons.1 hb with rfl | hb
    · exact ⟨_, _, h⟩
    · exact ih b hb

theorem mem_firstHits (hit : A → Prop) (k : Nat) (l : List A) (j : Nat) (h : j ∈ firstHits hit k l) : ∃ a, l[j]? = some a ∧ hit a := by
  unfold firstHits at h
  have := List.mem_of_mem_take h
  simpa using (List.mem_filter.1 this).2

theorem firstHits_ne_nil (hit : A → Prop) (r : Nat) (l : List A) (hr : 2 ≤ r) (h : StopsAt hit r l) : firstHits hit (r - 1) l ≠ [] := by
  classical
  rw [← hits_dropLast hit r l h]
  intro h0
  have h1 := hits_length hit l
  rw [h.1] at h1
  have h2 := congrArg List.length h0
  rw [List.length_dropLast, h1] at h2
  simp at h2; omega

/-- **C92, for one particle.** `rng.choice` returns an element of its argument and `rng.binomial(1, 0)` returns 0. A particle whose weight is not positive is left as it is, without a
simulation. Otherwise it keeps value and simulation, or gets a value with a prior density that is not zero and a simulation made from this value, which
* for the r-hit kernels is closer than the threshold,
* for kernel 0 has parts closer than the threshold, unless the old simulation had none. -/
theorem C92_particle (which : Nat) (r : Option Nat) (hr : ∀ k, r = some k → 2 ≤ k) (eps : ℝ) (p : Pop Θ) (i fuel : Nat) (θ : Θ) (wt : ℝ) (y : Y) (w : W) (o : Out Θ Y)
    (hpick : ∀ l w, l ≠ [] → (env.pick l w).2 ∈ l) (hbern : ∀ w, (env.bern 0 w).2 = false)
    (h : mcmc env which r fuel eps p i θ wt y w = some o) :
    o.d = env.dist o.y ∧ (¬ 0 < wt → o.θ = θ ∧ o.y = y ∧ o.count = 0) ∧ (0 < wt → 1 ≤ o.count) ∧
    ((o.θ = θ ∧ o.y = y) ∨ (env.pdf o.θ ≠ 0 ∧ (∃ w, (env.sim o.θ w).2 = o.y) ∧
      ((which = 1 ∨ which = 2) → o.d < eps) ∧ (which = 0 → (∃ d ∈ env.dists y, d < eps) → ∃ d ∈ env.dists o.y, d < eps))) := by
  have hm := mcmc_move env which r fuel eps p i θ wt y w o h
  unfold Move at hm
  split at hm
  · rename_i hwt
    rcases hm with ⟨hw0, w1, w2, θ', y', hp, hs, ho⟩ | ⟨hw1, w1, w2, w3, θ', old, new, t1, s1, hp, t2, s2, ho⟩ | ⟨hw2, w1, w2, θ', y', prime, back, t1, s1, hy, t2, s2, ho⟩
    · split at ho
      · rename_i hb
        subst ho
        refine ⟨rfl, fun hn => absurd hwt hn, fun _ => le_refl _, .inr ⟨proposal_pdf _ _ _ _ _ hp, ⟨w1, by rw [Sim] at hs; simp only [hs]⟩, fun hq => by omega, fun _ hex => ?_⟩⟩
        by_contra hno
        have c1 : closer env eps y ≠ 0 := by
          rw [closer_eq]; exact ((below_pos _ _).2 hex).ne'
        have c2 : closer env eps y' = 0 := by
          rw [closer_eq, below_zero]; push Not at hno ⊢; exact hno
        rw [acceptance0, if_neg c1, mh, c2] at hb
        simp only [zero_mul, zero_div, min_eq_right zero_le_one] at hb
        rw [hbern] at hb; cases hb
      · subst ho
        exact ⟨rfl, fun hn => absurd hwt hn, fun _ => le_refl _, .inl ⟨rfl, rfl⟩⟩
    · have hr2 : 2 ≤ r.getD 3 := by
        cases r with
        | none => decide
        | some k => exact hr k rfl
      have hcnt : 1 ≤ old.length + new.length := by
        have : new ≠ [] := by
          rintro rfl
          have := s2.1
          simp [hitCount] at this; omega
        have := List.length_pos_iff.2 this
        omega
      simp only at ho
      split at ho
      · obtain ⟨y', hy, rfl⟩ := ho
        obtain ⟨a, ha, hha⟩ := mem_firstHits _ _ _ _ (hpick _ (env.bern (mh env p θ θ' (new.length - 1) old.length) w3).1 (firstHits_ne_nil _ _ _ hr2 s2))
        rw [ha] at hy
        obtain rfl := Option.some.inj hy
        obtain ⟨v1, v2, hv⟩ := trials_mem _ _ _ _ t2 a (List.mem_of_getElem? ha)
        refine ⟨rfl, fun hn => absurd hwt hn, fun _ => hcnt, .inr ⟨proposal_pdf _ _ _ _ _ hp, ⟨v1, by rw [Sim] at hv; simp only [hv]⟩, fun _ => hha, fun hq => by omega⟩⟩
      · subst ho
        exact ⟨rfl, fun hn => absurd hwt hn, fun _ => hcnt, .inl ⟨rfl, rfl⟩⟩
    · have hr2 : 2 ≤ r.getD 2 := by
        cases r with
        | none => decide
        | some k => exact hr k rfl
      have hcnt : 1 ≤ prime.length + back.length := by
        have : prime ≠ [] := by
          rintro rfl
          have := s1.1
          simp [hitCount] at this; omega
        have := List.length_pos_iff.2 this
        omega
      obtain ⟨a, ha, hha⟩ := mem_firstHits _ _ _ _ (hpick _ w1 (firstHits_ne_nil _ _ _ hr2 s1))
      rw [ha] at hy
      obtain rfl := Option.some.inj hy
      obtain ⟨v1, v2, v3, hv1, hv2⟩ := trials_mem _ _ _ _ t1 _ (List.mem_of_getElem? ha)
      split at ho
      · subst ho
        refine ⟨rfl, fun hn => absurd hwt hn, fun _ => hcnt, .inr ⟨proposal_pdf _ _ _ _ _ hv1, ⟨v3, by rw [Sim] at hv2; simp only [hv2]⟩, fun _ => hha, fun hq => by omega⟩⟩
      · subst ho
        exact ⟨rfl, fun hn => absurd hwt hn, fun _ => hcnt, .inl ⟨rfl, rfl⟩⟩
  · rename_i hwt
    subst hm
    exact ⟨rfl, fun _ => ⟨rfl, rfl, rfl⟩, fun h => absurd h hwt, .inl ⟨rfl, rfl⟩⟩

/-- A simulator that alternates between distance 0 and distance 2 and accepts every move. -/
noncomputable def hitEnv : Env Nat Nat Nat where
  dist y := if y % 2 = 0 then 0 else 2
  dists y := [if y % 2 = 0 then 0 else 2]
  pdf _ := 1
  kernel _ _ _ := 1
  prior w := (w, w)
  perturb _ _ w := (w, some 5)
  around _ _ w := (w, some 6)
  sim _ w := (w + 1, w)
  bern a w := (w, decide (0 < a))
  pick l w := (w, l.headD 0)

/-- The hypotheses are met, and a particle moves: with kernel 1 and the default `r = 3`, simulation 1, 2, 3, 4 are made at the old value, 5 to 10 at the new one; the simulation kept is
number 6, the first hit. -/
example : (∀ l w, l ≠ [] → (hitEnv.pick l w).2 ∈ l) ∧ (∀ w, (hitEnv.bern 0 w).2 = false) ∧
    mcmc hitEnv 1 none 20 1 ⟨[], []⟩ 0 7 1 0 1 = some ⟨5, 6, 0, 10⟩ := by
  refine ⟨?_, by simp [hitEnv], ?_⟩
  · intro l w hl
    cases l with
    | nil => exact absurd rfl hl
    | cons a l => simp [hitEnv]
  · have hh : ∀ y, decide (hitEnv.dist y < 1) = decide (y % 2 = 0) := by
      intro y
      by_cases h : y % 2 = 0 <;> simp [hitEnv, h]
    simp only [mcmc, accept1, one_ne_zero, if_false, if_true, zero_lt_one, Option.getD_none, Nat.add_one_sub_one, hh]
    have h1 : hitLoop (fun w => some (hitEnv.sim 7 w)) (fun y => decide (y % 2 = 0)) 2 20 1 [] = some (5, [1, 2, 3, 4]) := by
      simp [hitLoop, hitEnv]
    have h2 : propose hitEnv.pdf (hitEnv.perturb ⟨[], []⟩ 0) 20 5 = some (5, 5) := by simp [propose, hitEnv]
    have h3 : hitLoop (fun w => some (hitEnv.sim 5 w)) (fun y => decide (y % 2 = 0)) 3 20 5 [] = some (11, [5, 6, 7, 8, 9, 10]) := by
      simp [hitLoop, hitEnv]
    have h4 : hits (fun y => decide (y % 2 = 0)) [5, 6, 7, 8, 9, 10] = [1, 3, 5] := by decide
    simp only [h1, h2, h3, h4]
    norm_num [hitEnv, ratio]

/-! ### C93 -/

/-- **C93 (partial).** For every `r ≥ 2`, and with `r` left out, a move with an r-hit kernel returns whenever its loops end: no division by zero and no choice from an empty list.
Missing: `r = 1`, see below. -/
theorem C93_partial (which : Nat) (hw : which = 1 ∨ which = 2) (r : Option Nat) (hr : ∀ k, r = some k → 2 ≤ k) (eps : ℝ) (p : Pop Θ) (i fuel : Nat) (θ : Θ) (wt : ℝ) (y : Y) (w : W)
    (hpick : ∀ l w, l ≠ [] → (env.pick l w).2 ∈ l)
    (h1 : ∀ w, propose env.pdf (env.perturb p i) fuel w ≠ none)
    (h2 : ∀ k ≤ r.getD 3, ∀ θ w, hitLoop (fun w => some (env.sim θ w)) (fun y => decide (env.dist y < eps)) k fuel w [] ≠ none)
    (h3 : ∀ k ≤ r.getD 3, ∀ w, hitLoop (fun w => (propose env.pdf (env.perturb p i) fuel w).map fun e => ((env.sim e.2 e.1).1, e.2, (env.sim e.2 e.1).2))
        (fun a : Θ × Y => decide (env.dist a.2 < eps)) k fuel w [] ≠ none)
    (h4 : ∀ k ≤ r.getD 3, ∀ θ' w, hitLoop (fun w => (propose env.pdf (env.around p θ') fuel w).map fun e => env.sim e.2 e.1)
        (fun y => decide (env.dist y < eps)) k fuel w [] ≠ none) :
    ∃ o, mcmc env which r fuel eps p i θ wt y w = some o := by
  rcases hw with rfl | rfl
  · have hr2 : 2 ≤ r.getD 3 := by
      cases r with
      | none => decide
      | some k => exact hr k rfl
    simp only [mcmc, one_ne_zero, if_false, if_true]
    unfold accept1
    split
    swap
    · exact ⟨_, rfl⟩
    obtain ⟨⟨w1, old⟩, e1⟩ := Option.ne_none_iff_exists'.1 (h2 (r.getD 3 - 1) (by omega) θ w)
    obtain ⟨⟨w2, θ'⟩, e2⟩ := Option.ne_none_iff_exists'.1 (h1 w1)
    obtain ⟨⟨w3, new⟩, e3⟩ := Option.ne_none_iff_exists'.1 (h2 (r.getD 3) le_rfl θ' w2)
    simp only [e1, e2, e3]
    obtain ⟨t3, s3⟩ := hitLoop_start _ (Sim env θ') (env.dist · < eps) (r.getD 3) fuel w2 w3 new (fun w w' a ha => Option.some.inj ha) e3
    have hlen : r.getD 3 ≤ new.length := by
      rw [← s3.1]; unfold hitCount; exact List.length_filter_le _ _
    rw [if_neg (by omega)]
    have hne := firstHits_ne_nil _ _ _ hr2 s3
    rw [hits_dropLast (env.dist · < eps) _ new s3]
    split
    · split
      · rename_i hq; exact absurd hq hne
      · obtain ⟨a, ha, -⟩ := mem_firstHits _ _ _ _ (hpick _ (env.bern (min 1 ((old.length : ℝ) / (new.length - 1) * ratio env p θ θ')) w3).1 hne)
        rw [ha]; exact ⟨_, rfl⟩
    · exact ⟨_, rfl⟩
  · have hr2 : 2 ≤ r.getD 2 := by
      cases r with
      | none => decide
      | some k => exact hr k rfl
    have h23 : r.getD 2 ≤ r.getD 3 := by cases r <;> simp
    simp only [mcmc, OfNat.ofNat_ne_zero, OfNat.ofNat_ne_one, if_false, if_true]
    unfold accept2
    split
    swap
    · exact ⟨_, rfl⟩
    obtain ⟨⟨w1, prime⟩, e1⟩ := Option.ne_none_iff_exists'.1 (h3 (r.getD 2) h23 w)
    simp only [e1]
    obtain ⟨t1, s1⟩ := hitLoop_start _ (ProposeSim env (env.perturb p i)) (fun a : Θ × Y => env.dist a.2 < eps) (r.getD 2) fuel w w1 prime
      (fun w w' a ha => proposeSim_gen env fuel _ w w' a ha) e1
    have hne := firstHits_ne_nil _ _ _ hr2 s1
    rw [hits_dropLast (fun a : Θ × Y => env.dist a.2 < eps) _ prime s1]
    split
    · rename_i hq; exact absurd hq hne
    · obtain ⟨⟨θ', y'⟩, ha, -⟩ := mem_firstHits _ _ _ _ (hpick _ w1 hne)
      rw [ha]
      simp only
      obtain ⟨⟨w2, back⟩, e2⟩ := Option.ne_none_iff_exists'.1 (h4 (r.getD 2 - 1) (by omega) θ' (env.pick (firstHits (fun a : Θ × Y => env.dist a.2 < eps) (r.getD 2 - 1) prime) w1).1)
      simp only [e2]
      split
      · exact ⟨_, rfl⟩
      · exact ⟨_, rfl⟩

/-- The hypotheses of C93 on the loops are met when every simulation is a hit. -/
example : let env : Env Unit Unit Unit := ⟨fun _ => 0, fun _ => [0], fun _ => 1, fun _ _ _ => 1, fun w => (w, ()), fun _ _ w => (w, some ()), fun _ _ w => (w, some ()),
      fun _ w => (w, ()), fun _ w => (w, true), fun l w => (w, l.headD 0)⟩
    (∀ w, propose env.pdf (env.perturb ⟨[], []⟩ 0) 9 w ≠ none) ∧
    (∀ k ≤ 3, ∀ θ w, hitLoop (fun w => some (env.sim θ w)) (fun y => decide (env.dist y < 1)) k 9 w [] ≠ none) ∧
    (∀ k ≤ 3, ∀ w, hitLoop (fun w => (propose env.pdf (env.perturb ⟨[], []⟩ 0) 9 w).map fun e => ((env.sim e.2 e.1).1, e.2, (env.sim e.2 e.1).2))
        (fun a : Unit × Unit => decide (env.dist a.2 < 1)) k 9 w [] ≠ none) := by
  refine ⟨by simp [propose], ?_, ?_⟩ <;> intro k hk <;> interval_cases k <;> simp [hitLoop, propose]

/-- C93 fails for `r = 1`. Kernel 2 raises for every particle with positive weight, in every model: it chooses from an empty list (3971). Kernel 1 never moves a particle: it divides the number of
simulations at the old value, which is zero, so that the acceptance probability is zero (3890). -/
theorem C93_one_violated (eps : ℝ) (p : Pop Θ) (i fuel : Nat) (θ : Θ) (wt : ℝ) (y : Y) (w : W) (hwt : 0 < wt) (hbern : ∀ w, (env.bern 0 w).2 = false) :
    mcmc env 2 (some 1) fuel eps p i θ wt y w = none ∧ ∀ o, mcmc env 1 (some 1) fuel eps p i θ wt y w = some o → o.θ = θ ∧ o.y = y := by
  constructor
  · simp only [mcmc, OfNat.ofNat_ne_zero, OfNat.ofNat_ne_one, if_false, if_true, Option.getD_some]
    unfold accept2
    rw [if_pos hwt]
    split
    · rfl
    · rename_i w1 prime e1
      obtain ⟨t1, s1⟩ := hitLoop_start _ (ProposeSim env (env.perturb p i)) (fun a : Θ × Y => env.dist a.2 < eps) 1 fuel w w1 prime
        (fun w w' a ha => proposeSim_gen env fuel _ w w' a ha) e1
      rw [hits_dropLast (fun a : Θ × Y => env.dist a.2 < eps) _ prime s1]
      simp [firstHits]
  · intro o ho
    have hm := mcmc_move env 1 (some 1) fuel eps p i θ wt y w o ho
    unfold Move at hm
    rw [if_pos hwt] at hm
    rcases hm with ⟨h0, -⟩ | ⟨-, w1, w2, w3, θ', old, new, t1, s1, hp, t2, s2, ho⟩ | ⟨h2, -⟩
    · cases h0
    · have : old = [] := by
        rcases old.eq_nil_or_concat with rfl | ⟨l, a, rfl⟩
        · rfl
        · exfalso
          have ha := s1.2 a (by simp)
          have := s1.1
          unfold hitCount at this
          rw [Option.getD_some, Nat.sub_self, List.length_eq_zero_iff, List.filter_eq_nil_iff] at this
          exact this a (by simp) (by simpa using ha)
      subst this
      have hz : mh env p θ θ' (new.length - 1) (([] : List Y).length : ℝ) = 0 := by simp [mh]
      rw [hz] at ho
      simp only [hbern, Bool.false_eq_true, if_false] at ho
      subst ho
      exact ⟨rfl, rfl⟩
    · cases h2

/-- Kernel 1 with `r = 1` raises as soon as the first simulation is a hit (division by zero at 3890): here for every fuel that lets the loops end. -/
theorem C93_division_violated (fuel : Nat) (hf : 2 ≤ fuel) : mcmc hitEnv 1 (some 1) fuel 1 ⟨[], []⟩ 0 7 1 0 0 = none ∧
    (∃ e, propose hitEnv.pdf (hitEnv.perturb ⟨[], []⟩ 0) fuel 0 = some e) ∧
    (∃ e, hitLoop (fun w => some (hitEnv.sim 5 w)) (fun y => decide (hitEnv.dist y < 1)) 1 fuel 0 [] = some e) := by
  obtain ⟨k, rfl⟩ : ∃ k, fuel = k + 2 := ⟨fuel - 2, by omega⟩
  have h1 : propose hitEnv.pdf (hitEnv.perturb ⟨[], []⟩ 0) (k + 2) 0 = some (0, 5) := by simp [propose, hitEnv]
  have h2 : hitLoop (fun w => some (hitEnv.sim 5 w)) (fun y => decide (hitEnv.dist y < 1)) 1 (k + 2) 0 [] = some (1, [0]) := by simp [hitLoop, hitEnv]
  have h0 : hitLoop (fun w => some (hitEnv.sim 7 w)) (fun y => decide (hitEnv.dist y < 1)) 0 (k + 2) 0 [] = some (0, []) := by simp [hitLoop]
  refine ⟨?_, ⟨_, h1⟩, _, h2⟩
  simp [mcmc, accept1, h0, h1, h2]

end Verif.Smc
