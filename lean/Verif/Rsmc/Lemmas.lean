import Verif.Rsmc.Model
import Verif.Smc.Lemmas
import Mathlib.Data.List.Sort
/-
Lemmas about the model of `RSMCABC`.
-/
namespace Verif.Rsmc

open Verif.Pmc (Pop above)
open Verif.Smc (propose propose_pdf)

variable {W Θ Y : Type} (env : Env W Θ Y) (c : Config)

theorem priorLoop_spec (eps : ℝ) (fuel : Nat) (w : W) (held : Θ) (d : Option ℝ) (n : Nat) (e : Θ × Option ℝ × Nat)
    (h : priorLoop env eps fuel w held d n = some e) :
    ∃ x, e.2.1 = some x ∧ x ≤ eps ∧ ((e.1 = held ∧ d = some x) ∨ ∃ w, x = env.dist (env.sim e.1 w).2) := by
  induction fuel generalizing w held d n with
  | zero => simp [priorLoop] at h
  | succ fuel ih =>
    rw [priorLoop] at h
    split at h
    · simp only at h
      obtain ⟨x, hx, hle, hcase⟩ := ih _ _ _ _ h
      refine ⟨x, hx, hle, .inr ?_⟩
      rcases hcase with ⟨h1, h2⟩ | h1
      · simp only [Option.some.injEq] at h2
        exact ⟨(env.prior w).1, by rw [h1, h2]⟩
      · exact h1
    · rename_i ha
      simp only [Option.some.injEq] at h
      subst h
      cases d with
      | none => simp [above] at ha
      | some x => exact ⟨x, rfl, by simpa [above] using ha, .inl ⟨rfl, rfl⟩⟩

/-- One move or more: the value returned is the old one, the distance that of the particle or of an accepted proposal. -/
theorem moveLoop_spec (fuel : Nat) (eps : ℝ) (p : Pop Θ) (i : Nat) (θ : Θ) (dθ : ℝ) (r : Nat) (w : W) (held : Θ) (d : Option ℝ) (acc n : Nat) (o : Out Θ)
    (h : moveLoop env fuel eps p i θ dθ r w held d acc n = some o) :
    acc ≤ o.accepted ∧ o.accepted ≤ acc + r ∧ (r = 0 → o = ⟨held, d, acc, n⟩) ∧
    (1 ≤ r → o.θ = θ ∧ o.count = n + r ∧
      (o.d = some dθ ∨
        (acc + 1 ≤ o.accepted ∧ ∃ θ' w, env.pdf θ' ≠ 0 ∧ o.d = some (env.dist (env.sim θ' w).2) ∧ env.dist (env.sim θ' w).2 < eps ∧
          (env.bern (prob env p θ θ') (env.sim θ' w).1).2 = true))) := by
  induction r generalizing w held d acc n with
  | zero =>
    simp only [moveLoop, Option.some.injEq] at h
    subst h
    simp
  | succ r ih =>
    rw [moveLoop] at h
    cases hp : propose env.pdf (env.perturb p i) fuel w with
    | none => rw [hp] at h; cases h
    | some q =>
      obtain ⟨w', θ'⟩ := q
      rw [hp] at h
      simp only at h
      have hpdf := propose_pdf _ _ _ _ _ _ hp
      by_cases hd : env.dist (env.sim θ' w').2 < eps
      · rw [if_pos hd] at h
        by_cases hu : (env.bern (prob env p θ θ') (env.sim θ' w').1).2 = true
        · rw [if_pos hu] at h
          obtain ⟨h1, h2, h3, h4⟩ := ih _ _ _ _ _ h
          refine ⟨by omega, by omega, by simp, fun _ => ?_⟩
          by_cases hr : r = 0
          · rw [h3 hr]
            subst hr
            exact ⟨rfl, rfl, .inr ⟨le_rfl, θ', w', hpdf, rfl, hd, hu⟩⟩
          · obtain ⟨a, b, e⟩ := h4 (by omega)
            refine ⟨a, by omega, ?_⟩
            rcases e with e | ⟨e, f⟩
            · exact .inl e
            · exact .inr ⟨by omega, f⟩
        · rw [if_neg hu] at h
          obtain ⟨h1, h2, h3, h4⟩ := ih _ _ _ _ _ h
          refine ⟨by omega, by omega, by simp, fun _ => ?_⟩
          by_cases hr : r = 0
          · rw [h3 hr]
            subst hr
            exact ⟨rfl, rfl, .inl rfl⟩
          · obtain ⟨a, b, e⟩ := h4 (by omega)
            exact ⟨a, by omega, e⟩
      · rw [if_neg hd] at h
        obtain ⟨h1, h2, h3, h4⟩ := ih _ _ _ _ _ h
        refine ⟨by omega, by omega, by simp, fun _ => ?_⟩
        by_cases hr : r = 0
        · rw [h3 hr]
          subst hr
          exact ⟨rfl, rfl, .inl rfl⟩
        · obtain ⟨a, b, e⟩ := h4 (by omega)
          exact ⟨a, by omega, e⟩

theorem trim_spec (params : List Θ) (distances : List ℝ) (h1 : params.length = c.n) (h2 : distances.length = c.n) :
    (trim c params distances).1.length = c.n - c.drop ∧ (trim c params distances).2.length = c.n - c.drop ∧
    (trim c params distances).2.Pairwise (· ≤ ·) ∧
    ∀ (i : Nat) (θ : Θ) (d : ℝ), (trim c params distances).1[i]? = some θ → (trim c params distances).2[i]? = some d →
      ∃ j : Nat, params[j]? = some θ ∧ distances[j]? = some d := by
  have hperm := List.perm_insertionSort (fun a b : ℝ × Θ => a.1 ≤ b.1) (distances.zip params)
  have hlen : ((distances.zip params).insertionSort (fun a b => a.1 ≤ b.1)).length = c.n := by
    rw [hperm.length_eq]; simp [h1, h2]
  refine ⟨by simp only [trim]; simp [h1, h2], by simp only [trim]; simp [h1, h2], ?_, ?_⟩
  · simp only [trim]
    refine List.Pairwise.sublist (List.take_sublist _ _) ?_
    rw [List.pairwise_map]
    have : Std.Total (fun a b : ℝ × Θ => a.1 ≤ b.1) := ⟨fun a b => le_total _ _⟩
    have : IsTrans (ℝ × Θ) (fun a b => a.1 ≤ b.1) := ⟨fun a b e => le_trans⟩
    exact List.pairwise_insertionSort (fun a b : ℝ × Θ => a.1 ≤ b.1) _
  · intro i θ d hi hd
    simp only [trim] at hi hd
    rw [List.getElem?_take] at hi hd
    split at hi
    swap
    · cases hi
    rename_i hlt
    rw [if_pos hlt, List.getElem?_map, Option.map_eq_some_iff] at hd
    rw [List.getElem?_map, Option.map_eq_some_iff] at hi
    obtain ⟨a, ha, rfl⟩ := hi
    obtain ⟨b, hb, rfl⟩ := hd
    rw [ha, Option.some.injEq] at hb
    subst hb
    have := hperm.mem_iff.1 (List.mem_of_getElem? ha)
    obtain ⟨j, hj⟩ := List.mem_iff_getElem?.1 this
    rw [List.getElem?_zip_eq_some] at hj
    exact ⟨j, hj.2, hj.1⟩

theorem loop_inv (fuel : Nat) (start : Nat → List (W × Θ)) (I : Nat → State Θ → Prop)
    (hstep : ∀ t s s', I t s → step env c fuel t (start t) s = .ok s' → I (t + 1) s')
    (k t : Nat) (s s' : State Θ) (h0 : I t s) (h : loop env c fuel start k t s = .ok s') : I (t + k) s' := by
  induction k generalizing t s with
  | zero => simp only [loop, Except.ok.injEq] at h; subst h; exact h0
  | succ k ih =>
    rw [loop] at h
    cases hs : step env c fuel t (start t) s with
    | error e => rw [hs] at h; cases h
    | ok s1 =>
      rw [hs] at h
      have := ih (t + 1) s1 (hstep t s s1 h0 hs) h
      rwa [show t + (k + 1) = t + 1 + k by omega]

theorem step_spec (fuel t : Nat) (start : List (W × Θ)) (s s' : State Θ) (h : step env c fuel t start s = .ok s') :
    ∃ (eps : ℝ) (out : List (Out Θ)) (ds : List ℝ) (r : Rec Θ) (m : Int), threshold c s = some eps ∧ c.epsFinal ≤ eps ∧ start ≠ [] ∧ start.length = wanted c s ∧
      start.map (fun e => accept env fuel eps (seen s) s.moves.toNat e.1 e.2) = out.map some ∧ out.map Out.d = ds.map some ∧
      nextMoves c s.moves start.length (out.map Out.accepted).sum = some m ∧ r = ⟨eps, s.moves, (base c s out.length).1 ++ out.map Out.θ, (base c s out.length).2 ++ ds⟩ ∧
      s' = ⟨s.epsilons ++ [eps], some (trim c r.params r.distances), m, s.hist ++ [r],
            if c.full then s.journal ++ [r] else if t = c.steps - 1 then [r] else s.journal, s.counter + (out.map Out.count).sum⟩ := by
  unfold step at h
  split at h
  · cases h
  rename_i eps heps
  by_cases hfin : eps < c.epsFinal
  · rw [if_pos hfin] at h; cases h
  rw [if_neg hfin] at h
  by_cases hst : start.length ≠ wanted c s ∨ start = []
  · rw [if_pos hst] at h; cases h
  rw [if_neg hst] at h
  rw [not_or, not_not] at hst
  split at h
  · cases h
  rename_i out hout
  split at h
  · cases h
  rename_i ds hds
  split at h
  · cases h
  rename_i m hm
  simp only [Except.ok.injEq] at h
  exact ⟨eps, out, ds, _, m, heps, not_lt.1 hfin, hst.2, hst.1, (collect_eq_some _ _).1 hout, (collect_eq_some _ _).1 hds, hm, rfl, h.symm⟩

end Verif.Rsmc
