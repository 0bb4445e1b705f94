import Verif.Smc.Model
import Mathlib.Tactic.FieldSimp
/-
Lemmas about the model of `SMCABC`.
-/
namespace Verif.Smc

open Verif.Pmc (Pop normalise)

theorem bisection_mem (f : ℝ → ℝ) (tol : ℝ) (fuel : Nat) (low high x : ℝ) (h : bisection f tol fuel low high = some x)
    (hlh : low < high) : low < x ∧ x < high := by
  induction fuel generalizing low high with
  | zero => simp [bisection] at h
  | succ fuel ih =>
    rw [bisection] at h
    split at h
    · split at h
      · simp only [Option.some.injEq] at h; subst h; constructor <;> linarith
      · split at h
        · obtain ⟨a, b⟩ := ih _ _ h (by linarith); constructor <;> linarith
        · obtain ⟨a, b⟩ := ih _ _ h (by linarith); constructor <;> linarith
    · simp only [Option.some.injEq] at h; subst h; constructor <;> linarith

variable {W Θ Y : Type} (env : Env W Θ Y) (c : Config) (dr : Draws)

theorem newEps_spec (fuel : Nat) (cur e : ℝ) (p : Rec Θ Y) (h : newEps env c dr fuel cur p = some e) (hc : c.final < cur) :
    c.final < e ∧ e < cur := by
  unfold newEps at h
  rw [Option.map_eq_some_iff] at h
  obtain ⟨x, hx, he⟩ := h
  obtain ⟨a, b⟩ := bisection_mem _ _ _ _ _ _ hx hc
  rw [if_neg (by linarith)] at he
  subst he; exact ⟨a, b⟩

/-! ### Weights -/

theorem below_nonneg (e : ℝ) (row : List ℝ) : 0 ≤ below e row := by unfold below; positivity

theorem below_pos (e : ℝ) (row : List ℝ) : 0 < below e row ↔ ∃ d ∈ row, d < e := by
  unfold below
  rw [Nat.cast_pos, List.countP_pos_iff]
  simp

theorem below_zero (e : ℝ) (row : List ℝ) : below e row = 0 ↔ ∀ d ∈ row, ¬ d < e := by
  have h := below_pos e row
  have h0 := below_nonneg e row
  constructor
  · intro hz d hd hlt
    have := h.2 ⟨d, hd, hlt⟩
    linarith
  · intro hall
    by_contra hne
    obtain ⟨d, hd, hlt⟩ := h.1 (lt_of_le_of_ne h0 (Ne.symm hne))
    exact hall d hd hlt

theorem below_mono {e e' : ℝ} (h : e ≤ e') (row : List ℝ) (hz : below e' row = 0) : below e row = 0 := by
  rw [below_zero] at hz ⊢
  intro d hd hlt
  exact hz d hd (by linarith)

theorem normalise_sum (l : List ℝ) (h : l.sum ≠ 0) : (normalise l).sum = 1 := by
  unfold normalise
  have : ∀ (l : List ℝ) (z : ℝ), (l.map (· / z)).sum = l.sum / z := by
    intro l z
    induction l with
    | nil => simp
    | cons a l ih => simp only [List.map_cons, List.sum_cons, ih]; ring
  rw [this, div_self h]

theorem sum_nonneg' (l : List ℝ) (h : ∀ x ∈ l, 0 ≤ x) : 0 ≤ l.sum := List.sum_nonneg h

theorem normalise_nonneg (l : List ℝ) (h : ∀ x ∈ l, 0 ≤ x) : ∀ x ∈ normalise l, 0 ≤ x := by
  intro x hx
  unfold normalise at hx
  obtain ⟨y, hy, rfl⟩ := List.mem_map.1 hx
  exact div_nonneg (h y hy) (List.sum_nonneg h)

theorem sum_pos_of_mem (l : List ℝ) (h : ∀ x ∈ l, 0 ≤ x) (x : ℝ) (hx : x ∈ l) (hp : 0 < x) : 0 < l.sum := by
  induction l with
  | nil => simp at hx
  | cons a l ih =>
    rw [List.sum_cons]
    have ha := h a (by simp)
    have hl := List.sum_nonneg fun y hy => h y (List.mem_cons_of_mem _ hy)
    rcases List.mem_cons.1 hx with rfl | hx
    · linarith
    · have := ih (fun y hy => h y (by simp [hy])) hx; linarith

theorem equalWeights_spec (n : Nat) (hn : 0 < n) :
    (equalWeights n).length = n ∧ (∀ x ∈ equalWeights n, 0 < x) ∧ (equalWeights n).sum = 1 := by
  have hn' : (0 : ℝ) < n := by exact_mod_cast hn
  refine ⟨by simp [equalWeights], ?_, ?_⟩
  · intro x hx
    rw [equalWeights, List.mem_replicate] at hx
    rw [hx.2]; positivity
  · rw [equalWeights, List.sum_replicate, nsmul_eq_mul]; field_simp

/-! ### Runs -/

/-- What a kernel can return for a particle `θ` with simulation `y` and weight `wt`. -/
def MoveOk (θ : Θ) (wt : ℝ) (y : Y) (o : Out Θ Y) : Prop :=
  o.d = env.dist o.y ∧ (¬ 0 < wt → o.θ = θ ∧ o.y = y ∧ o.count = 0) ∧
  ((o.θ = θ ∧ o.y = y) ∨ ∃ θ' w, o.θ = θ' ∧ o.y = (env.sim θ' w).2 ∧ env.pdf θ' ≠ 0)

theorem propose_pdf (pdf : Θ → ℝ) (perturb : W → W × Option Θ) (fuel : Nat) (w w' : W) (θ : Θ)
    (h : propose pdf perturb fuel w = some (w', θ)) : pdf θ ≠ 0 := by
  induction fuel generalizing w with
  | zero => simp [propose] at h
  | succ fuel ih =>
    rw [propose] at h
    cases hr : (perturb w).2 with
    | none => simp only [hr] at h; exact ih _ h
    | some θ' =>
      simp only [hr] at h
      split at h
      · rename_i hp
        simp only [Option.some.injEq, Prod.mk.injEq] at h
        rw [← h.2]; exact hp
      · exact ih _ h

theorem hitLoop_mem {A : Type} (gen : W → Option (W × A)) (hit : A → Bool) (r fuel : Nat) (w w' : W) (out l : List A)
    (h : hitLoop gen hit r fuel w out = some (w', l)) (P : A → Prop) (hg : ∀ w w' a, gen w = some (w', a) → P a)
    (ho : ∀ a ∈ out, P a) : ∀ a ∈ l, P a := by
  induction fuel generalizing w out with
  | zero => simp [hitLoop] at h
  | succ fuel ih =>
    rw [hitLoop] at h
    split at h
    · cases hw : gen w with
      | none => simp [hw] at h
      | some e =>
        obtain ⟨w1, a⟩ := e
        simp only [hw] at h
        refine ih _ _ h ?_
        intro b hb
        rcases List.mem_append.1 hb with hb | hb
        · exact ho b hb
        · simp only [List.mem_singleton] at hb; subst hb; exact hg _ _ _ hw
    · simp only [Option.some.injEq, Prod.mk.injEq] at h
      rw [← h.2]; exact ho

theorem stay_ok (θ : Θ) (wt : ℝ) (y : Y) (n : Nat) (h : 0 < wt ∨ n = 0) : MoveOk env θ wt y (stay env θ y n) :=
  ⟨rfl, fun hn => ⟨rfl, rfl, h.resolve_left hn⟩, .inl ⟨rfl, rfl⟩⟩

theorem mcmc_ok (which : Nat) (r : Option Nat) (fuel : Nat) (eps : ℝ) (p : Pop Θ) (i : Nat) (θ : Θ) (wt : ℝ) (y : Y) (w : W) (o : Out Θ Y)
    (h : mcmc env which r fuel eps p i θ wt y w = some o) : MoveOk env θ wt y o := by
  unfold mcmc at h
  split at h
  · unfold accept0 at h
    split at h
    · rename_i hwt
      cases hp : propose env.pdf (env.perturb p i) fuel w with
      | none => simp [hp] at h
      | some e =>
        obtain ⟨w1, θ'⟩ := e
        simp only [hp] at h
        split at h
        · simp only [Option.some.injEq] at h
          subst h
          exact ⟨rfl, fun hn => absurd hwt hn, .inr ⟨θ', w1, rfl, rfl, propose_pdf _ _ _ _ _ _ hp⟩⟩
        · simp only [Option.some.injEq] at h
          subst h
          exact stay_ok env θ wt y 1 (.inl hwt)
    · simp only [Option.some.injEq] at h; subst h; exact stay_ok env θ wt y 0 (.inr rfl)
  split at h
  · unfold accept1 at h
    split at h
    · rename_i hwt
      split at h
      · cases h
      · split at h
        · cases h
        · rename_i hp
          split at h
          · cases h
          · rename_i hh
            split at h
            · cases h
            · simp only at h
              split at h
              · split at h
                · cases h
                · split at h
                  · cases h
                  · rename_i hy
                    simp only [Option.some.injEq] at h
                    subst h
                    have := hitLoop_mem _ _ _ _ _ _ _ _ hh (fun y => ∃ w, y = (env.sim _ w).2)
                      (fun w w' a ha => ⟨w, by simp only [Option.some.injEq] at ha; rw [ha]⟩) (by simp) _ (List.mem_of_getElem? hy)
                    obtain ⟨w1, e⟩ := this
                    exact ⟨rfl, fun hn => absurd hwt hn, .inr ⟨_, w1, rfl, e, propose_pdf _ _ _ _ _ _ hp⟩⟩
              · simp only [Option.some.injEq] at h
                subst h
                exact stay_ok env θ wt y _ (.inl hwt)
    · simp only [Option.some.injEq] at h; subst h; exact stay_ok env θ wt y 0 (.inr rfl)
  split at h
  · unfold accept2 at h
    split at h
    · rename_i hwt
      split at h
      · cases h
      · rename_i hh
        split at h
        · cases h
        · simp only at h
          split at h
          · cases h
          · rename_i hy
            split at h
            · cases h
            · split at h
              · simp only [Option.some.injEq] at h
                subst h
                have := hitLoop_mem _ _ _ _ _ _ _ _ hh (fun a => env.pdf a.1 ≠ 0 ∧ ∃ w, a.2 = (env.sim a.1 w).2)
                  (fun w w' a ha => by
                    rw [Option.map_eq_some_iff] at ha
                    obtain ⟨e, he, ha⟩ := ha
                    simp only [Prod.mk.injEq] at ha
                    obtain ⟨-, ha⟩ := ha
                    subst ha
                    exact ⟨propose_pdf _ _ _ _ _ _ he, e.1, rfl⟩) (by simp) _ (List.mem_of_getElem? hy)
                obtain ⟨q, w1, e⟩ := this
                exact ⟨rfl, fun hn => absurd hwt hn, .inr ⟨_, w1, rfl, e, q⟩⟩
              · simp only [Option.some.injEq] at h
                subst h
                exact stay_ok env θ wt y _ (.inl hwt)
    · simp only [Option.some.injEq] at h; subst h; exact stay_ok env θ wt y 0 (.inr rfl)
  · cases h

theorem moved_spec (fuel : Nat) (eps : ℝ) (p : Pop Θ) (ys : List Y) (start : List W) (l : List (Out Θ Y))
    (h : moved env c fuel eps p ys start = some l) : l.length = start.length ∧
      ∀ (i : Nat) (o : Out Θ Y), l[i]? = some o → ∃ (θ : Θ) (wt : ℝ) (y : Y),
        p.params[i]? = some θ ∧ p.weights[i]? = some wt ∧ ys[i]? = some y ∧ MoveOk env θ wt y o := by
  unfold moved at h
  rw [collect_eq_some] at h
  have hlen := congrArg List.length h
  simp only [List.length_map, List.length_zipIdx] at hlen
  refine ⟨hlen.symm, ?_⟩
  intro i o ho
  have hi := congrArg (fun l : List (Option (Out Θ Y)) => l[i]?) h
  simp only [List.getElem?_map, ho, Option.map_some, List.getElem?_zipIdx] at hi
  cases hs : start[i]? with
  | none => simp [hs] at hi
  | some w =>
    simp only [hs, Option.map_some, Option.some.injEq, Nat.zero_add, Option.bind_eq_some_iff] at hi
    obtain ⟨θ, h1, wt, h2, y, h3, h4⟩ := hi
    exact ⟨θ, wt, y, h1, h2, h3, mcmc_ok env _ _ _ _ _ _ _ _ _ _ _ h4⟩

/-- A property of states that every step preserves holds at the end of the loop. -/
theorem smcLoop_inv (fuel : Nat) (start : Nat → List W) (I : Nat → State Θ Y → Prop)
    (hstep : ∀ t s s', I t s → c.final < s.cur → smcStep env c dr fuel t (start t) s = some s' → I (t + 1) s') (k t : Nat) (s s' : State Θ Y)
    (h0 : I t s) (h : smcLoop env c dr fuel start k t s = some s') : ∃ t' ≤ t + k, I t' s' ∧ (t' < t + k → s'.cur ≤ c.final) := by
  induction k generalizing t s with
  | zero =>
    simp only [smcLoop, Option.some.injEq] at h
    subst h; exact ⟨t, by omega, h0, by omega⟩
  | succ k ih =>
    rw [smcLoop] at h
    split at h
    · rename_i hle
      simp only [Option.some.injEq] at h
      subst h; exact ⟨t, by omega, h0, fun _ => hle⟩
    · rename_i hle
      cases hs : smcStep env c dr fuel t (start t) s with
      | none => simp [hs] at h
      | some s1 =>
        simp only [hs] at h
        obtain ⟨t', a, b, d⟩ := ih (t + 1) s1 (hstep t s s1 h0 (not_le.1 hle) hs) h
        exact ⟨t', by omega, b, fun hlt => d (by omega)⟩

/-- A step that is not the first, taken apart. -/
theorem smcStep_spec (fuel t : Nat) (start : List W) (s s' : State Θ Y) (h : smcStep env c dr fuel t start s = some s') :
    (s.last = none ∧ s' = save c t s s.past s.cur (equalWeights c.n) (start.map (initial env))) ∨
    ∃ p eps wts q l, s.last = some p ∧ newEps env c dr fuel s.cur p = some eps ∧ newWeights env c s.cur eps p = some wts ∧
      resampled c dr t p.params wts = some q ∧ moved env c fuel eps q p.sims start = some l ∧
      s' = save c t s (s.past ++ [s.cur]) eps q.weights l := by
  unfold smcStep at h
  cases hp : s.last with
  | none =>
    simp only [hp, Option.some.injEq] at h
    exact .inl ⟨rfl, h.symm⟩
  | some p =>
    simp only [hp] at h
    cases h1 : newEps env c dr fuel s.cur p with
    | none => simp [h1] at h
    | some eps =>
      simp only [h1] at h
      cases h2 : newWeights env c s.cur eps p with
      | none => simp [h2] at h
      | some wts =>
        simp only [h2] at h
        cases h3 : resampled c dr t p.params wts with
        | none => simp [h3] at h
        | some q =>
          simp only [h3] at h
          cases h4 : moved env c fuel eps q p.sims start with
          | none => simp [h4] at h
          | some l =>
            simp only [h4, Option.some.injEq] at h
            exact .inr ⟨p, eps, wts, q, l, rfl, h1, h2, h3, h4, h.symm⟩

end Verif.Smc
