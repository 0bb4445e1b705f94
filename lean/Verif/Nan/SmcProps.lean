import Verif.Nan.Smc
import Verif.Smc.Props
/-
C195: in `SMCABC` a distance that is not a number counts as too large.
-/
namespace Verif.Nan.Smc

open Verif.Pmc (Pop normalise)
open Verif.Smc (Env Config Draws bisection ess propose hitLoop hits ratio equalWeights resampled)

variable {W Θ Y : Type}

/-- NaN and infinity read as the number `B`, minus infinity as `L`. -/
def far (L B : ℝ) : Num → ℝ
  | .num x => x
  | .inf => B
  | .nan => B
  | .negInf => L

theorem near_far {L B eps : ℝ} (h1 : L < eps) (h2 : eps ≤ B) (d : Num) : near eps d = decide (far L B d < eps) := by
  unfold near
  rw [decide_eq_decide]
  cases d with
  | num x => exact Iff.rfl
  | inf => exact iff_of_false id (not_lt.2 h2)
  | nan => exact iff_of_false id (not_lt.2 h2)
  | negInf => exact iff_of_true trivial h1

/-- The environment of `Verif.Smc` in which distances that are not numbers are replaced. -/
def replaced (L B : ℝ) (env : Env W Θ Y) (D : Distances Y) : Env W Θ Y :=
  { env with dist := fun y => far L B (D.dist y), dists := fun y => (D.dists y).map (far L B) }

def Out.real (L B : ℝ) (o : Out Θ Y) : Verif.Smc.Out Θ Y := ⟨o.θ, o.y, far L B o.d, o.count⟩

/-- A population with the distances replaced in the same way. -/
def Rec.real (L B : ℝ) (r : Rec Θ Y) : Verif.Smc.Rec Θ Y := ⟨r.params, r.sims, r.distances.map (far L B), r.weights⟩

/-- The state of a run with the distances replaced in the same way; parameters, simulations, weights, thresholds and counts are those of the run. -/
def State.real (L B : ℝ) (s : State Θ Y) : Verif.Smc.State Θ Y :=
  ⟨s.past, s.cur, s.last.map (Rec.real L B), s.journal.map (Rec.real L B), s.done, s.counter⟩

/-! ### Weights and thresholds -/

theorem below_far {L B eps : ℝ} (h1 : L < eps) (h2 : eps ≤ B) (row : List Num) : Verif.Smc.below eps (row.map (far L B)) = below eps row := by
  unfold Verif.Smc.below below
  rw [List.countP_map]
  congr 2
  funext d
  simp [near_far h1 h2]

theorem dm_far {L B e1 e2 : ℝ} (h1 : L < e1) (h2 : e1 ≤ B) (h3 : L < e2) (h4 : e2 ≤ B) (old : List ℝ) (rows : List (List Num)) :
    Verif.Smc.dmWeights old (rows.map fun r => r.map (far L B)) e1 e2 = dmWeights old rows e1 e2 := by
  unfold Verif.Smc.dmWeights dmWeights
  rw [List.zipWith_map_right]
  congr 1
  funext w row
  rw [below_far h1 h2, below_far h3 h4]

theorem bernton_far {L B e : ℝ} (h1 : L < e) (h2 : e ≤ B) (l : List Num) : Verif.Smc.berntonWeights (l.map (far L B)) e = berntonWeights l e := by
  unfold Verif.Smc.berntonWeights berntonWeights
  rw [List.map_map]
  congr 1
  funext d
  simp [near_far h1 h2]

theorem dmFun_far {L B e x : ℝ} (h1 : L < e) (h2 : e ≤ B) (h3 : L < x) (h4 : x ≤ B) (old : List ℝ) (rows : List (List Num)) (alpha : ℝ) :
    Verif.Smc.dmFun old (rows.map fun r => r.map (far L B)) e alpha x = dmFun old rows e alpha x := by
  unfold Verif.Smc.dmFun dmFun
  rw [dm_far h1 h2 h3 h4]

theorem berntonFun_far {L B x : ℝ} (h3 : L < x) (h4 : x ≤ B) (unique : List ℝ → Nat) (l : List Num) (alpha : ℝ) :
    Verif.Smc.berntonFun unique (l.map (far L B)) alpha x = berntonFun unique l alpha x := by
  unfold Verif.Smc.berntonFun berntonFun
  rw [bernton_far h3 h4, List.length_map]

/-- The bisection looks only at values between its bounds. -/
theorem bisection_congr (f g : ℝ → ℝ) (tol : ℝ) (ht : 0 ≤ tol) (fuel : Nat) : ∀ low high, low ≤ high → (∀ x, low ≤ x → x ≤ high → f x = g x) → bisection f tol fuel low high = bisection g tol fuel low high := by
  induction fuel with
  | zero => intros; rfl
  | succ fuel ih =>
    intro low high hlh h
    have m1 : low ≤ (low + high) / 2 := by linarith
    have m2 : (low + high) / 2 ≤ high := by linarith
    rw [bisection, bisection, h low le_rfl hlh, h _ m1 m2, ih _ _ m1 fun x a b => h x a (b.trans m2), ih _ _ m2 fun x a b => h x (m1.trans a) b]

theorem bisection_mem (f : ℝ → ℝ) (tol : ℝ) (fuel : Nat) : ∀ low high x, low ≤ high → bisection f tol fuel low high = some x → low ≤ x ∧ x ≤ high := by
  induction fuel with
  | zero => intro low high x _ h; cases h
  | succ fuel ih =>
    intro low high x hlh h
    have m1 : low ≤ (low + high) / 2 := by linarith
    have m2 : (low + high) / 2 ≤ high := by linarith
    rw [bisection] at h
    split at h
    · split at h
      · cases h; exact ⟨m1, m2⟩
      · split at h
        · have := ih _ _ _ m1 h; exact ⟨this.1, this.2.trans m2⟩
        · have := ih _ _ _ m2 h; exact ⟨m1.trans this.1, this.2⟩
    · cases h; exact ⟨m1, m2⟩

/-! ### Moves -/

variable (L B : ℝ) (env : Env W Θ Y) (D : Distances Y)

theorem accept0_far {eps : ℝ} (h1 : L < eps) (h2 : eps ≤ B) (fuel : Nat) (p : Pop Θ) (i : Nat) (θ : Θ) (wt : ℝ) (y : Y) (w : W) :
    Verif.Smc.accept0 (replaced L B env D) fuel eps p i θ wt y w = (accept0 env D fuel eps p i θ wt y w).map (Out.real L B) := by
  have hp : ∀ θ' y', Verif.Smc.prob0 (replaced L B env D) eps p θ y θ' y' = prob0 env D eps p θ y θ' y' := by
    intro θ' y'
    unfold Verif.Smc.prob0 prob0
    simp only [replaced, below_far h1 h2]
    rfl
  unfold Verif.Smc.accept0 accept0
  by_cases hw : 0 < wt
  · rw [if_pos hw, if_pos hw]
    simp only [replaced] at hp ⊢
    cases propose env.pdf (env.perturb p i) fuel w with
    | none => rfl
    | some r =>
      simp only [hp]
      split <;> rfl
  · rw [if_neg hw, if_neg hw]; rfl

theorem accept1_far {eps : ℝ} (h1 : L < eps) (h2 : eps ≤ B) (r fuel : Nat) (p : Pop Θ) (i : Nat) (θ : Θ) (wt : ℝ) (y : Y) (w : W) :
    Verif.Smc.accept1 (replaced L B env D) r fuel eps p i θ wt y w = (accept1 env D r fuel eps p i θ wt y w).map (Out.real L B) := by
  have hn : (fun y => decide ((replaced L B env D).dist y < eps)) = fun y => near eps (D.dist y) := by
    funext y; rw [near_far h1 h2]; rfl
  unfold Verif.Smc.accept1 accept1
  rw [hn]
  by_cases hw : 0 < wt
  · rw [if_pos hw, if_pos hw]
    simp only [replaced]
    cases hitLoop (fun w => some (env.sim θ w)) (fun y => near eps (D.dist y)) (r - 1) fuel w [] with
    | none => rfl
    | some a =>
      simp only
      cases propose env.pdf (env.perturb p i) fuel a.1 with
      | none => rfl
      | some b =>
        simp only
        cases hitLoop (fun w => some (env.sim b.2 w)) (fun y => near eps (D.dist y)) r fuel b.1 [] with
        | none => rfl
        | some c =>
          simp only
          by_cases hl : c.2.length = 1
          · rw [if_pos hl, if_pos hl]; rfl
          · rw [if_neg hl, if_neg hl]
            have hr : ratio { env with dist := fun y => far L B (D.dist y), dists := fun y => (D.dists y).map (far L B) } p θ b.2 = ratio env p θ b.2 := rfl
            simp only [hr]
            by_cases hb : (env.bern (min 1 (((a.2.length : ℝ) / (c.2.length - 1)) * ratio env p θ b.2)) c.1).2 = true
            · rw [if_pos hb, if_pos hb]
              cases (hits (fun y => near eps (D.dist y)) c.2).dropLast with
              | nil => rfl
              | cons x xs =>
                simp only
                cases c.2[(env.pick (x :: xs) (env.bern (min 1 (((a.2.length : ℝ) / (c.2.length - 1)) * ratio env p θ b.2)) c.1).1).2]? <;> rfl
            · rw [if_neg hb, if_neg hb]; rfl
  · rw [if_neg hw, if_neg hw]; rfl

theorem accept2_far {eps : ℝ} (h1 : L < eps) (h2 : eps ≤ B) (r fuel : Nat) (p : Pop Θ) (i : Nat) (θ : Θ) (wt : ℝ) (y : Y) (w : W) :
    Verif.Smc.accept2 (replaced L B env D) r fuel eps p i θ wt y w = (accept2 env D r fuel eps p i θ wt y w).map (Out.real L B) := by
  have hn : (fun y => decide ((replaced L B env D).dist y < eps)) = fun y => near eps (D.dist y) := by
    funext y; rw [near_far h1 h2]; rfl
  have hn2 : (fun a : Θ × Y => decide ((replaced L B env D).dist a.2 < eps)) = fun a => near eps (D.dist a.2) := by
    funext y; rw [near_far h1 h2]; rfl
  unfold Verif.Smc.accept2 accept2
  rw [hn, hn2]
  by_cases hw : 0 < wt
  · rw [if_pos hw, if_pos hw]
    simp only [replaced]
    cases hitLoop (fun w => (propose env.pdf (env.perturb p i) fuel w).map fun e => ((env.sim e.2 e.1).1, e.2, (env.sim e.2 e.1).2)) (fun a : Θ × Y => near eps (D.dist a.2)) r fuel w [] with
    | none => rfl
    | some a =>
      simp only
      cases (hits (fun a : Θ × Y => near eps (D.dist a.2)) a.2).dropLast with
      | nil => rfl
      | cons x xs =>
        simp only
        cases a.2[(env.pick (x :: xs) a.1).2]? with
        | none => rfl
        | some b =>
          simp only
          cases hitLoop (fun w => (propose env.pdf (env.around p b.1) fuel w).map fun e => env.sim e.2 e.1) (fun y => near eps (D.dist y)) (r - 1) fuel (env.pick (x :: xs) a.1).1 [] with
          | none => rfl
          | some c =>
            simp only
            have hr : ratio { env with dist := fun y => far L B (D.dist y), dists := fun y => (D.dists y).map (far L B) } p θ b.1 = ratio env p θ b.1 := rfl
            simp only [hr]
            by_cases hb : (env.bern (min 1 (((c.2.length : ℝ) / (a.2.length - 1)) * ratio env p θ b.1)) c.1).2 = true
            · rw [if_pos hb, if_pos hb]; rfl
            · rw [if_neg hb, if_neg hb]; rfl
  · rw [if_neg hw, if_neg hw]; rfl

theorem mcmc_far {eps : ℝ} (h1 : L < eps) (h2 : eps ≤ B) (which : Nat) (r : Option Nat) (fuel : Nat) (p : Pop Θ) (i : Nat) (θ : Θ) (wt : ℝ) (y : Y) (w : W) :
    Verif.Smc.mcmc (replaced L B env D) which r fuel eps p i θ wt y w = (mcmc env D which r fuel eps p i θ wt y w).map (Out.real L B) := by
  unfold Verif.Smc.mcmc mcmc
  rw [accept0_far L B env D h1 h2, accept1_far L B env D h1 h2, accept2_far L B env D h1 h2]
  split_ifs <;> rfl

theorem collect_map {A A' : Type} (f : A → A') (l : List (Option A)) : collect (l.map fun o => o.map f) = (collect l).map (List.map f) := by
  induction l with
  | nil => rfl
  | cons o l ih =>
    cases o with
    | none => rfl
    | some a =>
      simp only [List.map_cons, Option.map_some, collect, ih]
      cases collect l <;> rfl

theorem moved_far {eps : ℝ} (h1 : L < eps) (h2 : eps ≤ B) (c : Config) (fuel : Nat) (p : Pop Θ) (ys : List Y) (start : List W) :
    Verif.Smc.moved (replaced L B env D) c fuel eps p ys start = (moved env D c fuel eps p ys start).map (List.map (Out.real L B)) := by
  unfold Verif.Smc.moved moved
  rw [← collect_map, List.map_map]
  congr 2
  funext e
  simp only [Function.comp]
  cases p.params[e.2]? with
  | none => rfl
  | some θ =>
    cases p.weights[e.2]? with
    | none => rfl
    | some wt =>
      cases ys[e.2]? with
      | none => rfl
      | some y => exact mcmc_far L B env D h1 h2 ..

/-! ### The run -/

theorem newEps_far (c : Config) (dr : Draws) (fuel : Nat) (cur : ℝ) (p : Rec Θ Y) (h1 : L < c.final) (h2 : c.final ≤ cur) (h3 : cur ≤ B) :
    Verif.Smc.newEps (replaced L B env D) c dr fuel cur (p.real L B) = newEps D c dr fuel cur p := by
  unfold Verif.Smc.newEps newEps
  congr 1
  refine bisection_congr _ _ _ (by norm_num) _ _ _ h2 ?_
  intro x hx hx'
  have hm : (p.real L B).sims.map (replaced L B env D).dists = (p.sims.map D.dists).map fun r => r.map (far L B) := by
    simp [Rec.real, replaced]
  cases hb : c.bernton with
  | true => simp only [if_true]; exact berntonFun_far (h1.trans_le hx) (hx'.trans h3) ..
  | false => simp only [Bool.false_eq_true, if_false, hm]; exact dmFun_far (h1.trans_le h2) h3 (h1.trans_le hx) (hx'.trans h3) ..

theorem newEps_mem (c : Config) (dr : Draws) (fuel : Nat) (cur : ℝ) (p : Rec Θ Y) (h2 : c.final ≤ cur) (e : ℝ) (h : newEps D c dr fuel cur p = some e) : c.final ≤ e ∧ e ≤ cur := by
  unfold newEps at h
  obtain ⟨x, hx, rfl⟩ := Option.map_eq_some_iff.1 h
  have := bisection_mem _ _ _ _ _ _ h2 hx
  rw [if_neg (not_lt.2 this.1)]
  exact this

theorem newWeights_far (c : Config) (old new : ℝ) (p : Rec Θ Y) (h1 : L < old) (h2 : old ≤ B) (h3 : L < new) (h4 : new ≤ B) :
    Verif.Smc.newWeights (replaced L B env D) c old new (p.real L B) = newWeights D c old new p := by
  have hm : (p.real L B).sims.map (replaced L B env D).dists = (p.sims.map D.dists).map fun r => r.map (far L B) := by
    simp [Rec.real, replaced]
  unfold Verif.Smc.newWeights newWeights
  simp only [hm, dm_far h1 h2 h3 h4]
  simp only [Rec.real, bernton_far h3 h4]

theorem outRec_far (weights : List ℝ) (l : List (Out Θ Y)) : Verif.Smc.outRec weights (l.map (Out.real L B)) = (outRec weights l).real L B := by
  simp [Verif.Smc.outRec, outRec, Rec.real, Out.real, Function.comp_def]

theorem save_far (c : Config) (t : Nat) (s : State Θ Y) (past : List ℝ) (cur : ℝ) (weights : List ℝ) (l : List (Out Θ Y)) :
    Verif.Smc.save c t (s.real L B) past cur weights (l.map (Out.real L B)) = (save c t s past cur weights l).real L B := by
  unfold Verif.Smc.save save
  rw [outRec_far]
  simp only [State.real, Option.map_some]
  congr 1
  · split_ifs <;> simp
  · simp [Out.real, Function.comp_def]

theorem step_far (c : Config) (dr : Draws) (fuel t : Nat) (start : List W) (s : State Θ Y) (h1 : L < c.final) (h2 : c.final ≤ s.cur) (h3 : s.cur ≤ B) :
    Verif.Smc.smcStep (replaced L B env D) c dr fuel t start (s.real L B) = (smcStep env D c dr fuel t start s).map (State.real L B) := by
  unfold Verif.Smc.smcStep smcStep
  cases hl : s.last with
  | none =>
    have : (s.real L B).last = none := by simp [State.real, hl]
    simp only [this, Option.map_some]
    rw [← save_far]
    simp only [List.map_map]
    rfl
  | some p =>
    have : (s.real L B).last = some (p.real L B) := by simp [State.real, hl]
    simp only [this]
    have hc : (s.real L B).cur = s.cur := rfl
    have hpp : (s.real L B).past = s.past := rfl
    rw [hc, newEps_far L B env D c dr fuel s.cur p h1 h2 h3]
    cases he : newEps D c dr fuel s.cur p with
    | none => rfl
    | some e =>
      obtain ⟨e1, e2⟩ := newEps_mem D c dr fuel s.cur p h2 e he
      simp only
      rw [newWeights_far L B env D c _ _ p (h1.trans_le h2) h3 (h1.trans_le e1) (e2.trans h3)]
      cases newWeights D c s.cur e p with
      | none => rfl
      | some wts =>
        simp only
        have hpar : (p.real L B).params = p.params := rfl
        have hs : (p.real L B).sims = p.sims := rfl
        rw [hpar, hs]
        cases resampled c dr t p.params wts with
        | none => rfl
        | some q =>
          simp only
          rw [moved_far L B env D (h1.trans_le e1) (e2.trans h3)]
          cases moved env D c fuel e q p.sims start with
          | none => rfl
          | some l => simp only [Option.map_some, hpp]; rw [save_far]

theorem step_cur (c : Config) (dr : Draws) (fuel t : Nat) (start : List W) (s s' : State Θ Y) (h2 : c.final ≤ s.cur) (h : smcStep env D c dr fuel t start s = some s') : s'.cur ≤ s.cur := by
  unfold smcStep at h
  cases hl : s.last with
  | none => rw [hl] at h; cases h; exact le_rfl
  | some p =>
    rw [hl] at h
    simp only at h
    cases he : newEps D c dr fuel s.cur p with
    | none => rw [he] at h; cases h
    | some e =>
      rw [he] at h
      simp only at h
      obtain ⟨e1, e2⟩ := newEps_mem D c dr fuel s.cur p h2 e he
      cases hw : newWeights D c s.cur e p with
      | none => rw [hw] at h; cases h
      | some wts =>
        rw [hw] at h
        simp only at h
        cases hr : resampled c dr t p.params wts with
        | none => rw [hr] at h; cases h
        | some q =>
          rw [hr] at h
          simp only at h
          cases hm : moved env D c fuel e q p.sims start with
          | none => rw [hm] at h; cases h
          | some l => rw [hm] at h; cases h; exact e2

theorem loop_far (c : Config) (dr : Draws) (fuel : Nat) (start : Nat → List W) (h1 : L < c.final) (k : Nat) : ∀ (t : Nat) (s : State Θ Y), s.cur ≤ B →
    Verif.Smc.smcLoop (replaced L B env D) c dr fuel start k t (s.real L B) = (smcLoop env D c dr fuel start k t s).map (State.real L B) := by
  induction k with
  | zero => intros; rfl
  | succ k ih =>
    intro t s h3
    rw [Verif.Smc.smcLoop, smcLoop]
    have hc : (s.real L B).cur = s.cur := rfl
    rw [hc]
    by_cases hf : s.cur ≤ c.final
    · rw [if_pos hf, if_pos hf]; rfl
    · rw [if_neg hf, if_neg hf, step_far L B env D c dr fuel t (start t) s h1 (not_le.1 hf).le h3]
      cases hs : smcStep env D c dr fuel t (start t) s with
      | none => rfl
      | some s' => exact ih (t + 1) s' ((step_cur env D c dr fuel t _ s s' (not_le.1 hf).le hs).trans h3)

/-- C195. A run of `SMCABC` is the run in which every distance that is NaN (or infinite) is replaced by any number `B` that is not below the first threshold: parameters, simulations, weights, thresholds and
counts of simulations are the same, and if one of the two runs raises or does not end then so does the other. (Distances equal to minus infinity are replaced by a number `L` below the last threshold.) -/
theorem C195_replaced (c : Config) (dr : Draws) (distMax : Option ℝ) (fuel : Nat) (start : Nat → List W) (hL : L < c.final) (hB : distMax.getD (10 ^ 5) ≤ B) :
    Verif.Smc.smcRun (replaced L B env D) c dr distMax fuel start = (smcRun env D c dr distMax fuel start).map (State.real L B) := by
  unfold Verif.Smc.smcRun smcRun
  by_cases hc : c.which ≤ 2 ∧ ¬ (c.bernton = true ∧ c.which = 0) ∧ ∀ t, (start t).length = c.n
  · rw [if_pos hc, if_pos hc, ← loop_far L B env D c dr fuel start hL _ _ _ hB]
    rfl
  · rw [if_neg hc, if_neg hc]; rfl

/-- C195 for distances that are numbers: the run is that of `Verif.Smc`. -/
theorem C195_numbers (c : Config) (dr : Draws) (distMax : Option ℝ) (fuel : Nat) (start : Nat → List W) (hd : ∀ y, D.dist y = .num (env.dist y)) (hds : ∀ y, D.dists y = (env.dists y).map .num) :
    Verif.Smc.smcRun env c dr distMax fuel start = (smcRun env D c dr distMax fuel start).map (State.real (c.final - 1) (distMax.getD (10 ^ 5))) := by
  rw [← C195_replaced _ _ env D c dr distMax fuel start (by linarith) le_rfl]
  congr 1
  unfold replaced
  simp only [hd, hds, List.map_map]
  have : ∀ L B, far L B ∘ Num.num = id := fun _ _ => rfl
  simp [this, far]

theorem below_zero (eps : ℝ) (row : List Num) (h : ∀ d ∈ row, ¬ d.lt (.num eps)) : below eps row = 0 := by
  unfold below
  rw [Nat.cast_eq_zero, List.countP_eq_zero]
  intro d hd
  simp [near, h d hd]

/-- C195 for the weights: a particle gets weight zero if all distances of its simulation are NaN (Del Moral et al.), or if its distance is NaN (Bernton et al.). -/
theorem C195_weights (c : Config) (old new : ℝ) (p : Rec Θ Y) (wts : List ℝ) (h : newWeights D c old new p = some wts) (i : Nat)
    (hb : c.bernton = true → p.distances[i]? = some .nan) (hd : c.bernton = false → ∃ y, p.sims[i]? = some y ∧ ∀ d ∈ D.dists y, d = .nan) (wt : ℝ) (hw : wts[i]? = some wt) : wt = 0 := by
  unfold newWeights at h
  simp only at h
  have key : ∀ raw : List ℝ, (∀ x, raw[i]? = some x → x = 0) → (if raw.sum = 0 then none else some (normalise raw)) = some wts → wt = 0 := by
    intro raw hr h
    split at h
    · cases h
    · cases h
      rw [normalise, List.getElem?_map] at hw
      obtain ⟨x, hx, rfl⟩ := Option.map_eq_some_iff.1 hw
      rw [hr x hx, zero_div]
  cases hc : c.bernton with
  | true =>
    rw [hc] at h
    simp only [if_true] at h
    refine key _ ?_ h
    intro x hx
    rw [berntonWeights, List.getElem?_map, hb hc] at hx
    simp only [Option.map_some, Option.some.injEq] at hx
    rw [← hx, if_neg]
    intro hn
    exact @of_decide_eq_true _ (Classical.propDecidable _) hn
  | false =>
    rw [hc] at h
    simp only [Bool.false_eq_true, if_false] at h
    refine key _ ?_ h
    intro x hx
    obtain ⟨y, hy, hn⟩ := hd hc
    rw [dmWeights, List.getElem?_zipWith, List.getElem?_map, hy] at hx
    simp only [Option.map_some] at hx
    cases hw' : p.weights[i]? with
    | none => rw [hw'] at hx; cases hx
    | some w0 =>
      rw [hw'] at hx
      simp only [Option.some.injEq] at hx
      rw [← hx, if_pos]
      exact below_zero _ _ fun d hd => by rw [hn d hd]; exact id

/-- C195 for the moves of the standard kernel: if a distance of the old simulation is below the threshold, a proposal whose simulation has only distances that are NaN is accepted with probability zero. -/
theorem C195_move (eps : ℝ) (p : Pop Θ) (θ θ' : Θ) (y y' : Y) (hy : ∃ d ∈ D.dists y, d.lt (.num eps)) (hy' : ∀ d ∈ D.dists y', d = .nan) : prob0 env D eps p θ y θ' y' = 0 := by
  have h0 : below eps (D.dists y') = 0 := below_zero _ _ fun d hd => by rw [hy' d hd]; exact id
  have h1 : below eps (D.dists y) ≠ 0 := by
    obtain ⟨d, hd, hl⟩ := hy
    unfold below
    rw [Nat.cast_ne_zero, ← Nat.pos_iff_ne_zero, List.countP_pos_iff]
    exact ⟨d, hd, by simp [near, hl]⟩
  unfold prob0
  rw [if_neg h1, h0, zero_div, zero_mul]
  norm_num

/-! ### The distances in the journal -/

theorem mcmc_dist (which : Nat) (r : Option Nat) (fuel : Nat) (eps : ℝ) (p : Pop Θ) (i : Nat) (θ : Θ) (wt : ℝ) (y : Y) (w : W) (o : Out Θ Y)
    (h : mcmc env D which r fuel eps p i θ wt y w = some o) : o.d = D.dist o.y := by
  unfold mcmc at h
  split at h
  · unfold accept0 at h
    split at h
    · split at h
      · cases h
      · simp only at h
        split at h <;> cases h <;> rfl
    · cases h; rfl
  · split at h
    · unfold accept1 at h
      split at h
      · split at h
        · cases h
        · split at h
          · cases h
          · split at h
            · cases h
            · split at h
              · cases h
              · simp only at h
                split at h
                · split at h
                  · cases h
                  · split at h
                    · cases h
                    · cases h; rfl
                · cases h; rfl
      · cases h; rfl
    · split at h
      · unfold accept2 at h
        split at h
        · split at h
          · cases h
          · split at h
            · cases h
            · simp only at h
              split at h
              · cases h
              · split at h
                · cases h
                · split at h <;> cases h <;> rfl
        · cases h; rfl
      · cases h

/-- The distances of a population belong to its simulations. -/
def Rec.Right (D : Distances Y) (r : Rec Θ Y) : Prop := r.distances = r.sims.map D.dist

theorem outRec_right (weights : List ℝ) (l : List (Out Θ Y)) (h : ∀ o ∈ l, o.d = D.dist o.y) : (outRec weights l).Right D := by
  unfold outRec Rec.Right
  rw [List.map_map]
  exact List.map_congr_left h

theorem save_right (c : Config) (t : Nat) (s : State Θ Y) (past : List ℝ) (cur : ℝ) (weights : List ℝ) (l : List (Out Θ Y)) (h : ∀ o ∈ l, o.d = D.dist o.y) (hs : ∀ r ∈ s.journal, r.Right D) :
    (∀ r, (save c t s past cur weights l).last = some r → r.Right D) ∧ ∀ r ∈ (save c t s past cur weights l).journal, r.Right D := by
  have ho := outRec_right D weights l h
  unfold save
  refine ⟨fun r hr => by cases hr; exact ho, fun r hr => ?_⟩
  simp only at hr
  split_ifs at hr
  · rcases List.mem_append.1 hr with hr | hr
    · exact hs r hr
    · rw [List.mem_singleton.1 hr]; exact ho
  · rw [List.mem_singleton.1 hr]; exact ho
  · exact hs r hr

theorem step_right (c : Config) (dr : Draws) (fuel t : Nat) (start : List W) (s s' : State Θ Y) (hs : ∀ r ∈ s.journal, r.Right D) (h : smcStep env D c dr fuel t start s = some s') :
    (∀ r, s'.last = some r → r.Right D) ∧ ∀ r ∈ s'.journal, r.Right D := by
  unfold smcStep at h
  split at h
  · cases h
    refine save_right D c t s _ _ _ _ ?_ hs
    intro o ho
    obtain ⟨w, -, rfl⟩ := List.mem_map.1 ho
    rfl
  · split at h
    · cases h
    · split at h
      · cases h
      · split at h
        · cases h
        · split at h
          · cases h
          · rename_i l hm
            cases h
            refine save_right D c t s _ _ _ _ ?_ hs
            intro o ho
            unfold moved at hm
            have := (collect_eq_some _ _).1 hm
            have : some o ∈ l.map some := List.mem_map_of_mem ho
            rw [← (collect_eq_some _ _).1 hm] at this
            obtain ⟨e, -, he⟩ := List.mem_map.1 this
            obtain ⟨θ, -, he⟩ := Option.bind_eq_some_iff.1 he
            obtain ⟨wt, -, he⟩ := Option.bind_eq_some_iff.1 he
            obtain ⟨y, -, he⟩ := Option.bind_eq_some_iff.1 he
            exact mcmc_dist env D _ _ _ _ _ _ _ _ _ _ o he

theorem loop_right (c : Config) (dr : Draws) (fuel : Nat) (start : Nat → List W) (k : Nat) : ∀ (t : Nat) (s s' : State Θ Y), (∀ r, s.last = some r → r.Right D) → (∀ r ∈ s.journal, r.Right D) →
    smcLoop env D c dr fuel start k t s = some s' → (∀ r, s'.last = some r → r.Right D) ∧ ∀ r ∈ s'.journal, r.Right D := by
  induction k with
  | zero => intro t s s' h1 h2 h; cases h; exact ⟨h1, h2⟩
  | succ k ih =>
    intro t s s' h1 h2 h
    rw [smcLoop] at h
    split at h
    · cases h; exact ⟨h1, h2⟩
    · split at h
      · cases h
      · rename_i s1 hs
        obtain ⟨a, b⟩ := step_right env D c dr fuel t _ s s1 h2 hs
        exact ih (t + 1) s1 s' a b h

/-- C195: the distances in the journal are those of the simulations, NaN where the distance is NaN. -/
theorem C195_distances (c : Config) (dr : Draws) (distMax : Option ℝ) (fuel : Nat) (start : Nat → List W) (s : State Θ Y) (h : smcRun env D c dr distMax fuel start = some s) :
    (∀ r, s.last = some r → r.distances = r.sims.map D.dist) ∧ ∀ r ∈ s.journal, r.distances = r.sims.map D.dist := by
  unfold smcRun at h
  split at h
  · exact loop_right env D c dr fuel start _ _ _ s (by simp) (by simp) h
  · cases h

/-- Data 0 has distance 0, the distance of all others is NaN. -/
def exDist : Distances Nat := ⟨fun y => if y = 0 then .num 0 else .nan, fun y => [if y = 0 then .num 0 else .nan]⟩

/-- A run of two steps with two particles, of which one has a NaN: in the second step its weight is zero. -/
example : ∃ s, smcRun Verif.Smc.exEnv exDist (Verif.Smc.exConfig 0) ⟨fun _ _ => [0, 0], fun _ => 1⟩ (some 1) 1 (fun _ => [0, 1]) = some s ∧
    s.done = 2 ∧ ∃ r, s.last = some r ∧ r.params = [0, 1] ∧ r.weights = [1, 0] ∧ r.distances = [.num 0, .nan] := by
  have hc := C195_replaced 0 2 Verif.Smc.exEnv exDist (Verif.Smc.exConfig 0) ⟨fun _ _ => [0, 0], fun _ => 1⟩ (some 1) 1 (fun _ => [0, 1]) (by norm_num [Verif.Smc.exConfig]) (by norm_num)
  have he : replaced 0 2 Verif.Smc.exEnv exDist = Verif.Smc.exEnv := by
    unfold replaced
    have h1 : ∀ y : Nat, far 0 2 (exDist.dist y) = Verif.Smc.exEnv.dist y := by
      intro y; simp only [exDist, Verif.Smc.exEnv]; split <;> rfl
    have h2 : ∀ y : Nat, (exDist.dists y).map (far 0 2) = Verif.Smc.exEnv.dists y := by
      intro y; simp only [exDist, Verif.Smc.exEnv]; split <;> rfl
    simp only [h1, h2]
  rw [he] at hc
  obtain ⟨s0, h1, h2, h3, -⟩ := Verif.Smc.exRun 0 ⟨[0, 1], [1, 0]⟩ (by norm_num [resampled, Verif.Smc.exConfig, ess]) _ _ _ _ rfl
  rw [h1] at hc
  obtain ⟨s, hs, rfl⟩ := Option.map_eq_some_iff.1 hc.symm
  refine ⟨s, hs, h3, ?_⟩
  simp only [State.real] at h2
  obtain ⟨r, hr, hr'⟩ := Option.map_eq_some_iff.1 h2
  simp only [Rec.real, Verif.Smc.Rec.mk.injEq] at hr'
  obtain ⟨a, b, -, d⟩ := hr'
  refine ⟨r, hr, a, d, ?_⟩
  rw [(C195_distances _ _ _ _ _ _ _ s hs).1 r hr, b]
  rfl

end Verif.Nan.Smc
