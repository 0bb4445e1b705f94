import Verif.Apmc.Model
import Verif.Smc.Lemmas
/-
Lemmas about the model of `APMCABC`.
-/
namespace Verif.Apmc

open Verif.Pmc (Pop percentile normalise)
open Verif.Smc (propose propose_pdf)

theorem select_map {α β : Type} (f : α → β) (m : List Bool) (l : List α) : select m (l.map f) = (select m l).map f := by
  induction m generalizing l with
  | nil => cases l <;> simp [select]
  | cons b m ih =>
    cases l with
    | nil => cases b <;> simp [select]
    | cons x l => cases b <;> simp [select, ih]

theorem select_filter {α : Type} (p : α → Bool) (l : List α) : select (l.map p) l = l.filter p := by
  induction l with
  | nil => rfl
  | cons x l ih =>
    cases h : p x with
    | true => simp [select, ih, h]
    | false => simp [select, ih, h]

theorem select_mem {α : Type} (m : List Bool) (l : List α) (x : α) (h : x ∈ select m l) : x ∈ l := by
  induction m generalizing l with
  | nil => cases l <;> simp [select] at h
  | cons b m ih =>
    cases l with
    | nil => cases b <;> simp [select] at h
    | cons y l =>
      cases b
      · exact List.mem_cons_of_mem _ (ih l h)
      · simp only [select, List.mem_cons] at h ⊢
        exact h.imp id (ih l)

/-- Lists of the same length as lists of triples. -/
theorem unzip3 {α β γ : Type} (a : List α) (b : List β) (d : List γ) (h1 : a.length = b.length) (h2 : d.length = b.length) :
    ∃ l : List (α × β × γ), a = l.map (fun x => x.1) ∧ b = l.map (fun x => x.2.1) ∧ d = l.map (fun x => x.2.2) := by
  induction b generalizing a d with
  | nil =>
    simp only [List.length_nil, List.length_eq_zero_iff] at h1 h2
    exact ⟨[], by simp [h1], rfl, by simp [h2]⟩
  | cons y b ih =>
    cases a with
    | nil => simp at h1
    | cons x a =>
      cases d with
      | nil => simp at h2
      | cons z d =>
        obtain ⟨l, ha, hb, hd⟩ := ih a d (by simpa using h1) (by simpa using h2)
        exact ⟨(x, y, z) :: l, by simp [ha], by simp [hb], by simp [hd]⟩

variable {W Θ Y : Type} (env : Env W Θ Y) (c : Config)

theorem step_spec (fuel t : Nat) (start : List W) (s s' : State Θ) (h : step env c fuel t start s = some s') :
    ∃ (out : List (Out Θ)) (eps : ℝ), start ≠ [] ∧ start.length = wanted c t ∧ start.map (fun w => accept env fuel (seen s) w) = out.map some ∧
      percentile (merge c s out).2.1 (c.alpha * 100) = some eps ∧
      s' = ⟨(if out.length = c.n then [] else s.epsilons) ++ [eps], s.hist ++ [keep eps (merge c s out)],
        if c.full then s.journal ++ [keep eps (merge c s out)] else if t = c.steps - 1 then [keep eps (merge c s out)] else s.journal,
          acceptance c s out < c.cutoff⟩ := by
  unfold step at h
  by_cases hst : start.length ≠ wanted c t ∨ start = []
  · rw [if_pos hst] at h; cases h
  rw [if_neg hst] at h
  rw [not_or, not_not] at hst
  split at h
  · cases h
  rename_i out hout
  split at h
  · cases h
  rename_i eps heps
  simp only [Option.some.injEq] at h
  exact ⟨out, eps, hst.2, hst.1, (collect_eq_some _ _).1 hout, heps, h.symm⟩

theorem loop_inv (fuel : Nat) (start : Nat → List W) (I : Nat → State Θ → Prop)
    (hstep : ∀ t s s', I t s → s.stopped = false → step env c fuel t (start t) s = some s' → I (t + 1) s')
    (k t : Nat) (s s' : State Θ) (h0 : I t s) (h : loop env c fuel start k t s = some s') :
    ∃ t', t ≤ t' ∧ t' ≤ t + k ∧ I t' s' ∧ (t' < t + k → s'.stopped = true) := by
  induction k generalizing t s with
  | zero => simp only [loop, Option.some.injEq] at h; subst h; exact ⟨t, le_rfl, le_rfl, h0, by simp⟩
  | succ k ih =>
    rw [loop] at h
    by_cases hd : s.stopped = true
    · rw [if_pos hd, Option.some.injEq] at h
      subst h; exact ⟨t, le_rfl, by omega, h0, fun _ => hd⟩
    · rw [if_neg hd] at h
      cases hs : step env c fuel t (start t) s with
      | none => rw [hs] at h; cases h
      | some s1 =>
        rw [hs] at h
        obtain ⟨t', a, b, e, f⟩ := ih (t + 1) s1 (hstep t s s1 h0 (by simpa using hd) hs) h
        exact ⟨t', by omega, by omega, e, fun h => f (by omega)⟩

theorem accept_weight (hk : ∀ p a b, 0 < env.kernel p a b) (hp : ∀ θ, 0 ≤ env.pdf θ) (fuel : Nat) (pop : Option (Pop Θ)) (w : W) (o : Out Θ)
    (hpop : ∀ p, pop = some p → p.params.length = p.weights.length ∧ ∀ x ∈ p.weights, 0 < x) (h : accept env fuel pop w = some o) :
    0 < o.weight ∧ (∃ w, o.d = env.dist (env.sim o.θ w).2) ∧
      ∀ p, pop = some p → o.weight = env.pdf o.θ / mixture env p o.θ := by
  cases pop with
  | none =>
    simp only [accept, Option.some.injEq] at h
    subst h
    exact ⟨one_pos, ⟨_, rfl⟩, by simp⟩
  | some p =>
    simp only [accept, Option.bind_eq_some_iff, Option.map_eq_some_iff] at h
    obtain ⟨θ, hθ, a, ha, rfl⟩ := h
    refine ⟨?_, ⟨_, rfl⟩, fun p' hp' => by simp only [Option.some.injEq] at hp'; subst hp'; simp⟩
    have hpdf : 0 < env.pdf a.2 := lt_of_le_of_ne (hp _) (Ne.symm (propose_pdf _ _ _ _ _ _ ha))
    obtain ⟨hl, hw⟩ := hpop p rfl
    have hmix : 0 < mixture env p a.2 := by
      have hne : List.zipWith (fun w b => w * env.kernel p b a.2) p.weights p.params ≠ [] := by
        intro hnil
        have := congrArg List.length hnil
        simp only [List.length_zipWith, List.length_nil] at this
        have h1 := (List.getElem?_eq_some_iff.1 hθ).1
        omega
      refine List.sum_pos _ ?_ hne
      intro x hx
      obtain ⟨j, hj⟩ := List.mem_iff_getElem?.1 hx
      rw [List.getElem?_zipWith] at hj
      split at hj
      · rename_i w' b' hw' hb'
        simp only [Option.some.injEq] at hj
        rw [← hj]
        exact mul_pos (hw _ (List.mem_of_getElem? hw')) (hk _ _ _)
      · cases hj
    simp only [one_mul]
    exact div_pos hpdf hmix

end Verif.Apmc
